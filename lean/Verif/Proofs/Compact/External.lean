import Verif.Proofs.Compact.Clauses

/-! # Compaction: clauses seen from outside -/

namespace Verif.Compact

open Verif.Spec

variable {t t' : Tables}

/-- The external literal. -/
def ext (t : Tables) (l : Nat) : Int := exportLiteral t.exports l

/-- `C` is a clause of the solver, in external literals and any order. -/
def Has (t : Tables) (C : List Int) : Prop :=
  (∃ a b, b ∈ t.bins a ∧ C.Perm [ext t a, ext t b]) ∨
  ∃ c ∈ t.clauses, c.garbage = false ∧ C.Perm (c.lits.map (ext t))

theorem ext_eq (ht : Consistent t) {l : Nat} (hl : l / 2 < t.vars) :
    ext t l = if l % 2 = 1 then - t.exports (l / 2) else t.exports (l / 2) := by
  have := (ht.exports _ hl).1
  unfold ext exportLiteral
  simp only
  rw [if_neg (by omega)]

theorem ext_new (ht : Consistent t) (ht' : Consistent t') (hm : Moved t t') {l : Nat} (hl : l / 2 < t.vars)
    (hk : kept t (l / 2) = true) : ext t' (newLit t l) = ext t l := by
  have h1 : newLit t l / 2 < t'.vars := by
    rw [newLit_div, hm.vars]; exact rank_lt t hk hl
  rw [ext_eq ht' h1, ext_eq ht hl, newLit_div, hm.exports _ hl hk]
  unfold newLit
  rcases Nat.mod_two_eq_zero_or_one l with e | e
  · rw [if_pos e, if_neg (by omega), if_neg (by omega)]
  · rw [if_neg (by omega : ¬ l % 2 = 0), if_pos (by omega), if_pos e]

theorem ext_natAbs (ht : Consistent t) {l : Nat} (hl : l / 2 < t.vars) :
    (ext t l).natAbs = (t.exports (l / 2)).natAbs := by
  rw [ext_eq ht hl]; split
  · exact Int.natAbs_neg _
  · rfl

theorem unit_iff (ht : Consistent t) {l : Nat} (h : Usable t l) :
    (ext t l ∈ t.units ↔ 0 < t.fixed l) ∧ (- ext t l ∈ t.units ↔ t.fixed l < 0) := by
  rcases h.2 with ha | hf
  · have h0 := Active.fixed ht ⟨h.1, ha⟩
    have hno : ∀ u ∈ t.units, u.natAbs ≠ (t.exports (l / 2)).natAbs := by
      intro u hu e
      have := unit_fixed ht h.1 hu e
      rw [((ht.flags _).1 ha).1] at this; cases this
    rw [h0]
    refine ⟨⟨fun hu => absurd (ext_natAbs ht h.1) (hno _ hu), fun hc => by omega⟩,
      ⟨fun hu => absurd (by rw [Int.natAbs_neg]; exact ext_natAbs ht h.1) (hno _ hu), fun hc => by omega⟩⟩
  · obtain ⟨h1, h2⟩ := h.fixed ht hf
    rw [h1]
    have hpos := (ht.exports _ h.1).1
    obtain ⟨g1, _, g3⟩ := ht.fixed _ h.1 hf
    have hval : t.values l = if l % 2 = 1 then - t.values (2 * (l / 2)) else t.values (2 * (l / 2)) := by
      split
      · rename_i e
        have hn : neg (2 * (l / 2)) = l := by unfold neg; rw [if_pos (by omega)]; omega
        rw [← ht.anti, hn]
      · rw [show 2 * (l / 2) = l by omega]
    have key : ∀ u : Int, u.natAbs = (t.exports (l / 2)).natAbs → u ∈ t.units →
        u = if t.values (2 * (l / 2)) < 0 then - t.exports (l / 2) else t.exports (l / 2) := by
      intro u he hu
      refine units_sign ht u hu _ g3 ?_
      rw [he]; split
      · rw [Int.natAbs_neg]
      · rfl
    have k1 := key (ext t l) (ext_natAbs ht h.1)
    have k2 := key (- ext t l) (by rw [Int.natAbs_neg]; exact ext_natAbs ht h.1)
    rw [ext_eq ht h.1] at k1 k2 ⊢
    rw [hval]
    rcases Nat.mod_two_eq_zero_or_one l with e | e
    · have e' : ¬ l % 2 = 1 := by omega
      simp only [if_neg e'] at k1 k2 ⊢
      by_cases hs : t.values (2 * (l / 2)) < 0
      · rw [if_pos hs] at k1 k2 g3
        refine ⟨⟨fun hu => ?_, fun hc => by omega⟩, ⟨fun hu => hs, fun _ => g3⟩⟩
        have := k1 hu; omega
      · rw [if_neg hs] at k1 k2 g3
        refine ⟨⟨fun hu => by omega, fun _ => g3⟩, ⟨fun hu => ?_, fun hc => absurd hc hs⟩⟩
        have := k2 hu; omega
    · simp only [if_pos e] at k1 k2 ⊢
      by_cases hs : t.values (2 * (l / 2)) < 0
      · rw [if_pos hs] at k1 k2 g3
        refine ⟨⟨fun hu => by omega, fun _ => g3⟩, ⟨fun hu => ?_, fun hc => by omega⟩⟩
        have := k2 hu; omega
      · rw [if_neg hs] at k1 k2 g3
        refine ⟨⟨fun hu => ?_, fun hc => by omega⟩, ⟨fun hu => by omega, fun _ => ?_⟩⟩
        · have := k1 hu; omega
        · rw [Int.neg_neg]; exact g3

/-- Removing false literals. -/
theorem filter_ext (ht : Consistent t) {lits : List Nat} (hu : ∀ l ∈ lits, Usable t l)
    (hs : rootSat t lits = false) :
    (lits.map (ext t)).filter (fun e => decide (- e ∉ t.units)) = (rest t lits).map (ext t) := by
  rw [List.filter_map]
  unfold rest
  congr 1
  apply List.filter_congr
  intro l hl
  have h1 := (unit_iff ht (hu l hl)).2
  have h2 : ¬ 0 < t.fixed l := by
    intro hc
    unfold rootSat at hs
    rw [List.any_eq_false] at hs
    exact hs l hl (by simpa using hc)
  simp only [Function.comp]
  rw [decide_eq_decide]
  rw [show (- ext t l ∉ t.units) ↔ ¬ t.fixed l < 0 from not_congr h1]
  omega

theorem rootSat_iff (ht : Consistent t) {lits : List Nat} (hu : ∀ l ∈ lits, Usable t l) :
    rootSat t lits = false ↔ ∀ e ∈ lits.map (ext t), e ∉ t.units := by
  unfold rootSat
  rw [List.any_eq_false]
  constructor
  · intro h e he
    obtain ⟨l, hl, rfl⟩ := List.mem_map.1 he
    rw [(unit_iff ht (hu l hl)).1]
    have := h l hl
    simpa using this
  · intro h l hl
    have := h (ext t l) (List.mem_map_of_mem hl)
    rw [(unit_iff ht (hu l hl)).1] at this
    simpa using this

theorem clauses_compacted (ht : Consistent t) (hw : Watched t) (h : Compacted t t') (ht' : Consistent t')
    (C : List Int) : Has t' C ↔ ∃ D, Has t D ∧ (∀ e ∈ D, e ∉ t.units) ∧
      C.Perm (D.filter fun e => decide (- e ∉ t.units)) := by
  have hext : ∀ l, Active t l → ext t' (newLit t l) = ext t l :=
    fun l hl => ext_new ht ht' h.moved hl.1 (kept_active hl.2)
  have hmap : ∀ ls : List Nat, (∀ l ∈ ls, Active t l) → (ls.map (newLit t)).map (ext t') = ls.map (ext t) := by
    intro ls hls
    rw [List.map_map]
    exact List.map_congr_left fun l hl => hext l (hls l hl)
  have husable : ∀ c ∈ t.clauses, live t c = true → (∀ l ∈ c.lits, Usable t l) ∧ rootSat t c.lits = false ∧
      c.garbage = false := by
    intro c hc hlive
    unfold live at hlive
    rw [Bool.and_eq_true] at hlive
    have hg : c.garbage = false := by simpa using hlive.1
    exact ⟨hw.clauses c hc hg, by simpa using hlive.2, hg⟩
  have hclause : ∀ c ∈ t.clauses, live t c = true → C.Perm ((rest t c.lits).map (ext t)) →
      ∃ D, Has t D ∧ (∀ e ∈ D, e ∉ t.units) ∧ C.Perm (D.filter fun e => decide (- e ∉ t.units)) := by
    intro c hc hlive hp
    obtain ⟨h1, h2, h3⟩ := husable c hc hlive
    refine ⟨c.lits.map (ext t), Or.inr ⟨c, hc, h3, List.Perm.refl _⟩, (rootSat_iff ht h1).1 h2, ?_⟩
    rw [filter_ext ht h1 h2]
    exact hp
  have hsat2 : ∀ a b, Active t a → Active t b → rootSat t [a, b] = false := by
    intro a b ha hb
    unfold rootSat
    simp [ha.fixed ht, hb.fixed ht]
  have hrest2 : ∀ a b, Active t a → Active t b → rest t [a, b] = [a, b] := by
    intro a b ha hb
    unfold rest
    rw [List.filter_eq_self]
    intro l hl
    rcases List.mem_cons.1 hl with rfl | hl
    · simp [ha.fixed ht]
    · rw [List.mem_singleton.1 hl]; simp [hb.fixed ht]
  have huse2 : ∀ a b, Usable t a → Usable t b → ∀ l ∈ [a, b], Usable t l := by
    intro a b ha hb l hl
    rcases List.mem_cons.1 hl with rfl | hl
    · exact ha
    · rw [List.mem_singleton.1 hl]; exact hb
  have hau : ∀ a, Active t a → Usable t a := fun a ha => ⟨ha.1, Or.inl ha.2⟩
  constructor
  · rintro (⟨a', b', hb, hp⟩ | ⟨c', hc', _, hp⟩)
    · rw [h.bins] at hb
      obtain ⟨a, b, ha, hb, rfl, rfl, hx⟩ := hb
      rw [hext a ha, hext b hb] at hp
      rcases hx with hx | ⟨c, hc, hlive, hr | hr⟩
      · refine ⟨[a, b].map (ext t), Or.inl ⟨a, b, hx, List.Perm.refl _⟩,
          (rootSat_iff ht (huse2 a b (hau a ha) (hau b hb))).1 (hsat2 a b ha hb), ?_⟩
        rw [filter_ext ht (huse2 a b (hau a ha) (hau b hb)) (hsat2 a b ha hb), hrest2 a b ha hb]
        exact hp
      · exact hclause c hc hlive (by rw [hr]; exact hp)
      · exact hclause c hc hlive (by rw [hr]; exact hp.trans (List.Perm.swap _ _ _))
    · rw [h.clauses] at hc'
      unfold swept at hc'
      obtain ⟨c, hc, rfl⟩ := List.mem_map.1 hc'
      rw [List.mem_filter, Bool.and_eq_true] at hc
      refine hclause c hc.1 hc.2.1 ?_
      rw [← hmap _ (rest_active ht hw hc.1 hc.2.1)]
      exact hp
  · rintro ⟨D, (⟨a, b, hb, hD⟩ | ⟨c, hc, hg, hD⟩), hsat, hp⟩
    · have hua := hw.usable a b hb
      have hub := hw.usable b a (hw.sym a b hb)
      have hs : rootSat t [a, b] = false :=
        (rootSat_iff ht (huse2 a b hua hub)).2 fun e he => hsat e (hD.mem_iff.2 he)
      unfold rootSat at hs
      have hsa : ¬ 0 < t.fixed a := by simp at hs; omega
      have hsb : ¬ 0 < t.fixed b := by simp at hs; omega
      have hna : ¬ t.fixed a < 0 := fun hc => hsb (hw.propagated a b hb hc)
      have hnb : ¬ t.fixed b < 0 := fun hc => hsa (hw.propagated b a (hw.sym a b hb) hc)
      have ha := hua.active ht (by omega)
      have hb' := hub.active ht (by omega)
      left
      refine ⟨newLit t a, newLit t b, (h.bins _ _).2 ⟨a, b, ha, hb', rfl, rfl, Or.inl hb⟩, ?_⟩
      rw [hext a ha, hext b hb']
      refine hp.trans ((hD.filter _).trans ?_)
      have := filter_ext ht (huse2 a b hua hub) (hsat2 a b ha hb')
      rw [hrest2 a b ha hb'] at this
      exact this ▸ List.Perm.refl _
    · have hu := hw.clauses c hc hg
      have hs : rootSat t c.lits = false := (rootSat_iff ht hu).2 fun e he => hsat e (hD.mem_iff.2 he)
      have hlive : live t c = true := by unfold live; simp [hg, hs]
      have hlen := hw.long c hc hg hs
      have hp2 : C.Perm ((rest t c.lits).map (ext t)) := by
        refine hp.trans ((hD.filter _).trans ?_)
        rw [filter_ext ht hu hs]
      have hact := rest_active ht hw hc hlive
      by_cases h2 : 2 < (rest t c.lits).length
      · right
        refine ⟨{ c with lits := (rest t c.lits).map (newLit t) }, ?_, hg, ?_⟩
        · rw [h.clauses]
          unfold swept
          refine List.mem_map.2 ⟨c, List.mem_filter.2 ⟨hc, ?_⟩, rfl⟩
          simp [hlive, h2]
        · show C.Perm (((rest t c.lits).map (newLit t)).map (ext t'))
          rw [hmap _ hact]; exact hp2
      · left
        match hr : rest t c.lits with
        | [] => rw [hr] at hlen; simp at hlen
        | [_] => rw [hr] at hlen; simp at hlen
        | _ :: _ :: _ :: _ => rw [hr] at h2; simp at h2
        | [a, b] =>
          rw [hr] at hact hp2
          have ha := hact a (by simp)
          have hb := hact b (by simp)
          refine ⟨newLit t a, newLit t b, (h.bins _ _).2 ⟨a, b, ha, hb, rfl, rfl,
            Or.inr ⟨c, hc, hlive, Or.inl hr⟩⟩, ?_⟩
          rw [hext a ha, hext b hb]
          exact hp2

end Verif.Compact
