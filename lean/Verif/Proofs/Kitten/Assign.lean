import Verif.Proofs.Kitten.Add

/-! # Assignments of kitten -/

namespace Verif.Kitten

open Verif.Spec
open Verif.Core (upd)

/-- What propagation leaves alone. -/
structure Frame (k k' : Kitten) : Prop where
  level : k'.level = k.level
  exports : k'.exports = k.exports
  imports : k'.imports = k.imports
  antecedents : k'.antecedents = k.antecedents
  assumptions : k'.assumptions = k.assumptions
  failed : k'.failed = k.failed
  failing : k'.failing = k.failing
  status : k'.status = k.status
  core : k'.core = k.core
  inconsistent : k'.inconsistent = k.inconsistent
  evolve : Evolve k.klauses k'.klauses

theorem Frame.refl (k : Kitten) : Frame k k := ⟨rfl, rfl, rfl, rfl, rfl, rfl, rfl, rfl, rfl, rfl, .refl _⟩

theorem Frame.trans {a b c : Kitten} (h : Frame a b) (h' : Frame b c) : Frame a c :=
  ⟨h'.1.trans h.1, h'.2.trans h.2, h'.3.trans h.3, h'.4.trans h.4, h'.5.trans h.5, h'.6.trans h.6,
    h'.7.trans h.7, h'.8.trans h.8, h'.9.trans h.9, h'.10.trans h.10, h.11.trans h'.11⟩

/-- The literal is made true. -/
structure Assigned (k k' : Kitten) (lit : Nat) (reason : Option Nat) : Prop where
  values : k'.values = upd (upd k.values lit 1) (neg lit) (-1)
  trail : k'.trail = k.trail ++ [lit]
  unassigned : k'.unassigned = k.unassigned - 1
  vars : k'.vars = upd k.vars (lit / 2) ⟨k.level, reason⟩
  propagated : k'.propagated = k.propagated
  frame : Frame k k'

section

variable {k k' : Kitten} {lit : Nat} {reason : Option Nat}

theorem Assigned.value (h : Assigned k k' lit reason) (m : Nat) :
    k'.values m = if m = lit then 1 else if m = neg lit then -1 else k.values m := by
  rw [h.values]
  unfold upd
  by_cases h1 : m = neg lit
  · rw [if_pos h1, if_neg (by rw [h1]; exact neg_ne lit), if_pos h1]
  · rw [if_neg h1]
    by_cases h2 : m = lit
    · rw [if_pos h2, if_pos h2]
    · rw [if_neg h2, if_neg h2, if_neg h1]

theorem Assigned.keep (h : Assigned k k' lit reason) (hz : k.values lit = 0) (hv : Vals k) {m : Nat} {x : Int}
    (hx : x ≠ 0) (hm : k.values m = x) : k'.values m = x ∧ m / 2 ≠ lit / 2 := by
  have hne : m / 2 ≠ lit / 2 := by
    intro hc
    rcases eq_or_eq_neg hc with e | e
    · rw [e, hz] at hm; exact hx hm.symm
    · rw [e, hv.anti, hz] at hm; exact hx (by simpa using hm.symm)
  rw [h.value, if_neg (by rintro rfl; exact hne rfl), if_neg (by rintro rfl; exact hne (neg_div _))]
  exact ⟨hm, hne⟩

theorem Assigned.lev (h : Assigned k k' lit reason) {m : Nat} (hm : m / 2 ≠ lit / 2) : k'.lev m = k.lev m := by
  unfold Kitten.lev; rw [h.vars, upd_other _ _ hm]

theorem Assigned.why (h : Assigned k k' lit reason) {m : Nat} (hm : m / 2 ≠ lit / 2) : k'.why m = k.why m := by
  unfold Kitten.why; rw [h.vars, upd_other _ _ hm]

theorem Assigned.lev_self (h : Assigned k k' lit reason) : k'.lev lit = k.level := by
  unfold Kitten.lev; rw [h.vars, upd_self]

theorem Assigned.why_self (h : Assigned k k' lit reason) : k'.why lit = reason := by
  unfold Kitten.why; rw [h.vars, upd_self]

theorem Assigned.true (h : Assigned k k' lit reason) : k'.values lit = 1 := by rw [h.value, if_pos rfl]

theorem Assigned.false (h : Assigned k k' lit reason) : k'.values (neg lit) = -1 := by
  rw [h.value, if_neg (neg_ne lit), if_pos rfl]

/-- The true literals. -/
theorem Assigned.isTrue (h : Assigned k k' lit reason) {m : Nat} (hm : k'.values m = 1) :
    m = lit ∨ k.values m = 1 := by
  rw [h.value] at hm
  by_cases h1 : m = lit
  · exact Or.inl h1
  · rw [if_neg h1] at hm
    by_cases h2 : m = neg lit
    · rw [if_pos h2] at hm; omega
    · rw [if_neg h2] at hm; exact Or.inr hm

theorem Assigned.isFalse (h : Assigned k k' lit reason) {m : Nat} (hm : k'.values m = -1) :
    m = neg lit ∨ k.values m = -1 := by
  rw [h.value] at hm
  by_cases h1 : m = lit
  · rw [if_pos h1] at hm; omega
  · rw [if_neg h1] at hm
    by_cases h2 : m = neg lit
    · exact Or.inl h2
    · rw [if_neg h2] at hm; exact Or.inr hm

theorem mem_drop_concat {l : List Nat} {x y p : Nat} (h : y ∈ (l ++ [x]).drop p) : y ∈ l.drop p ∨ y = x := by
  rw [List.drop_append] at h
  rcases List.mem_append.1 h with h | h
  · exact Or.inl h
  · exact Or.inr (by simpa using List.mem_of_mem_drop h)

theorem Vals.assigned (hv : Vals k) (h : Assigned k k' lit reason) (hz : k.values lit = 0)
    (hl : lit / 2 < k.n) : Vals k' := by
  have hnot : lit ∉ k.trail := fun hc => by have := hv.tval lit hc; omega
  have hn : k'.n = k.n := by show k'.exports.length = _; rw [h.frame.exports]
  have htr : ∀ m ∈ k.trail, k'.values m = 1 ∧ k'.lev m = k.lev m := fun m hm => by
    have := h.keep hz hv (by omega) (hv.tval m hm)
    exact ⟨this.1, h.lev this.2⟩
  constructor
  · intro m
    rw [h.value]
    split
    · omega
    · split
      · omega
      · exact hv.dom m
  · intro m
    rw [h.value, h.value m]
    by_cases h1 : m = lit
    · rw [if_neg (by rw [h1]; exact neg_ne _), if_pos (by rw [h1]), if_pos h1]
    · rw [if_neg h1]
      by_cases h2 : m = neg lit
      · rw [if_pos (by rw [h2, Spec.neg_neg]), if_pos h2]; rfl
      · rw [if_neg (by rwa [neg_eq_iff]), if_neg (by rwa [neg_inj_iff]), if_neg h2]
        exact hv.anti m
  · intro m hm
    rw [hn]
    rw [h.value] at hm
    by_cases h1 : m = lit
    · rw [h1]; exact hl
    · rw [if_neg h1] at hm
      by_cases h2 : m = neg lit
      · rw [h2, neg_div]; exact hl
      · rw [if_neg h2] at hm; exact hv.valid m hm
  · rw [h.unassigned, hv.count, hn]
    have e : ∀ x, x ≠ lit / 2 → (k.values (2 * x) = 0 ↔ k'.values (2 * x) = 0) := by
      intro x hx
      rw [h.value, if_neg (by omega), if_neg (by intro hc; have := neg_div lit; omega)]
    have := freeCount_change hl ((hv.even_zero lit).2 hz) (v' := k'.values)
      (by
        rcases eq_or_eq_neg (show 2 * (lit / 2) / 2 = lit / 2 by omega) with e | e
        · rw [e, h.true]; omega
        · rw [e, h.false]; omega) e
    omega
  · rw [h.trail]
    exact List.nodup_append.2 ⟨hv.nodup, by simp, fun a ha b hb hab => hnot (by
      have : b = lit := by simpa using hb
      rw [← this, ← hab]; exact ha)⟩
  · intro m hm
    rw [h.trail] at hm
    rcases List.mem_append.1 hm with hm | hm
    · exact (htr m hm).1
    · rw [show m = lit by simpa using hm]; exact h.true
  · intro m hm hmt
    rw [h.trail] at hmt
    rcases h.isTrue hm with rfl | h1
    · exact absurd (by simp) hmt
    · have := h.keep hz hv (by omega) h1
      rw [h.lev this.2]
      exact hv.flushed m h1 fun hc => hmt (List.mem_append_left _ hc)
  · intro m hm
    rw [h.frame.level]
    rcases h.isTrue hm with rfl | h1
    · rw [h.lev_self]; exact Nat.le_refl _
    · have := h.keep hz hv (by omega) h1
      rw [h.lev this.2]
      exact hv.levle m h1
  · rw [h.trail]
    refine List.pairwise_append.2 ⟨?_, by simp, fun a ha b hb => ?_⟩
    · refine List.Pairwise.imp_of_mem (fun ha hb hab => ?_) hv.sorted
      rw [(htr _ ha).2, (htr _ hb).2]; exact hab
    · rw [show b = lit by simpa using hb, (htr a ha).2, h.lev_self]
      exact hv.levle a (hv.tval a ha)
  · intro hp m hm
    rw [h.frame.level] at hp
    rw [h.trail] at hm
    rcases List.mem_append.1 hm with hm | hm
    · rw [(htr m hm).2]; exact hv.high hp m hm
    · rw [show m = lit by simpa using hm, h.lev_self]; exact hp
  · intro m hm
    rw [h.trail, h.propagated] at hm
    rw [h.frame.level]
    rcases mem_drop_concat hm with hm | rfl
    · rw [(htr m (List.mem_of_mem_drop hm)).2]; exact hv.pending m hm
    · exact h.lev_self

theorem split_concat {α : Type} {a b t : List α} {l x : α} (h : t ++ [x] = a ++ l :: b) :
    (b = [] ∧ a = t ∧ l = x) ∨ ∃ b', b = b' ++ [x] ∧ t = a ++ l :: b' := by
  rcases List.eq_nil_or_concat b with rfl | ⟨b', y, rfl⟩
  · left
    have := List.append_inj' h rfl
    simp at this
    exact ⟨rfl, this.1.symm, this.2.symm⟩
  · right
    rw [List.concat_eq_append] at h ⊢
    have e : a ++ l :: (b' ++ [y]) = (a ++ l :: b') ++ [y] := by simp
    rw [e] at h
    have := List.append_inj' h rfl
    simp at this
    exact ⟨b', by rw [this.2], this.1⟩

theorem perm_singleton {c : List Nat} {l : Nat} (h : c.Perm [l]) : c = [l] := List.perm_singleton.1 h

/-- The reason for a new literal. -/
structure Justified (k k' : Kitten) (lit : Nat) (reason : Option Nat) : Prop where
  root : k.level = 0 → ∃ r kl, reason = some r ∧ k'.klauses[r]? = some kl ∧ kl.lits = [lit]
  decision : reason = none → (∀ m ∈ k.trail, k.lev m < k.level) ∧
    (k.level ≤ k.assumptions.length → lit ∈ k.assumptions)
  reason : ∀ r, 0 < k.level → reason = some r → ∃ kl, k'.klauses[r]? = some kl ∧ lit ∈ kl.lits ∧
    ∀ m ∈ kl.lits, m ≠ lit → k.values m = -1

theorem Why.assigned (hw : Why k) (hv : Vals k) (h : Assigned k k' lit reason) (hz : k.values lit = 0)
    (hj : Justified k k' lit reason) : Why k' := by
  have htr : ∀ m, k.values m = 1 → k'.lev m = k.lev m ∧ k'.why m = k.why m := fun m hm => by
    have := h.keep hz hv (by omega) hm
    exact ⟨h.lev this.2, h.why this.2⟩
  have hfalse : ∀ m, k.values m = -1 → k'.values m = -1 ∧ k'.lev m = k.lev m := fun m hm => by
    have := h.keep hz hv (by omega) hm
    exact ⟨this.1, h.lev this.2⟩
  constructor
  · intro m hm hl
    rcases h.isTrue hm with rfl | h1
    · rw [h.lev_self] at hl
      obtain ⟨r, kl, h1, h2⟩ := hj.root hl
      exact ⟨r, kl, h.why_self.trans h1, h2⟩
    · rw [(htr m h1).1] at hl
      obtain ⟨r, kl, g1, g2, g3⟩ := hw.root m h1 hl
      obtain ⟨kl', e, p, _⟩ := h.frame.evolve.old r kl g2
      rw [g3] at p
      exact ⟨r, kl', (htr m h1).2.trans g1, e, perm_singleton p⟩
  · intro m hm hn hle
    rw [h.frame.assumptions] at hle ⊢
    rcases h.isTrue hm with rfl | h1
    · rw [h.why_self] at hn
      rw [h.lev_self] at hle
      exact (hj.decision hn).2 hle
    · rw [(htr m h1).1] at hle
      rw [(htr m h1).2] at hn
      exact hw.decision m h1 hn hle
  · intro a l b he hn m hm
    rw [h.trail] at he
    rcases split_concat he with ⟨rfl, rfl, rfl⟩ | ⟨b', rfl, he'⟩
    · rw [h.why_self] at hn
      rw [h.lev_self, (htr m (hv.tval m hm)).1]
      exact (hj.decision hn).1 m hm
    · have hl : l ∈ k.trail := by rw [he']; simp
      have hm' : m ∈ k.trail := by rw [he']; simp [hm]
      rw [(htr l (hv.tval l hl)).2] at hn
      rw [(htr l (hv.tval l hl)).1, (htr m (hv.tval m hm')).1]
      exact hw.first a l b' he' hn m hm
  · intro a l b r he hp hr
    rw [h.trail] at he
    rcases split_concat he with ⟨rfl, rfl, rfl⟩ | ⟨b', rfl, he'⟩
    · rw [h.why_self] at hr
      rw [h.lev_self] at hp
      obtain ⟨kl, g1, g2, g3⟩ := hj.reason r hp hr
      refine ⟨kl, g1, g2, fun m hm hne => ⟨(hfalse m (g3 m hm hne)).1, ?_⟩⟩
      rw [(hfalse m (g3 m hm hne)).2]
      by_cases ht : neg m ∈ k.trail
      · exact Or.inr ht
      · left
        rw [← lev_neg]
        exact hv.flushed _ (hv.neg_true.2 (g3 m hm hne)) ht
    · have hl : l ∈ k.trail := by rw [he']; simp
      rw [(htr l (hv.tval l hl)).2] at hr
      rw [(htr l (hv.tval l hl)).1] at hp
      obtain ⟨kl, g1, g2, g3⟩ := hw.reason a l b' r he' hp hr
      obtain ⟨kl', e, p, _⟩ := h.frame.evolve.old r kl g1
      refine ⟨kl', e, p.mem_iff.2 g2, fun m hm hne => ?_⟩
      obtain ⟨v1, v2⟩ := g3 m (p.mem_iff.1 hm) hne
      rw [(hfalse m v1).2]
      exact ⟨(hfalse m v1).1, v2⟩

end

/-- The stack of units grows by at most one for every assigned variable. -/
structure UnitsGrow (k k' : Kitten) : Prop where
  append : ∃ t, k'.units = k.units ++ t
  le : k'.units.length + k'.unassigned ≤ k.units.length + k.unassigned

theorem UnitsGrow.refl (k : Kitten) : UnitsGrow k k := ⟨⟨[], by simp⟩, Nat.le_refl _⟩

theorem UnitsGrow.trans {a b c : Kitten} (h : UnitsGrow a b) (h' : UnitsGrow b c) : UnitsGrow a c := by
  obtain ⟨⟨t, ht⟩, h1⟩ := h
  obtain ⟨⟨t', ht'⟩, h2⟩ := h'
  exact ⟨⟨t ++ t', by rw [ht', ht, List.append_assoc]⟩, Nat.le_trans h2 h1⟩

theorem mapM_some {f : Nat → Option Nat} {g : Nat → Nat} : ∀ {l : List Nat}, (∀ m ∈ l, f m = some (g m)) →
    l.mapM f = some (l.map g) := by
  intro l
  induction l with
  | nil => intro _; rfl
  | cons a l ih =>
    intro h
    rw [List.mapM_cons, h a List.mem_cons_self, ih fun m hm => h m (List.mem_cons_of_mem _ hm)]
    rfl

/-- An assignment with a reason all of whose other literals are false. -/
theorem assign_ok {k : Kitten} {lit ref : Nat} {kl : Klause} (h : Base k) (hz : k.values lit = 0)
    (hr : k.klauses[ref]? = some kl) (hl : lit ∈ kl.lits) (ho : ∀ m ∈ kl.lits, m ≠ lit → k.values m = -1) :
    ∃ k' r, k.assign lit (some ref) = some k' ∧ Assigned k k' lit (some r) ∧ Base k' ∧ k'.watches = k.watches ∧
      UnitsGrow k k' ∧
      ∃ extra, k'.klauses = k.klauses ++ extra ∧ ∀ c ∈ extra, c.lits = [lit] ∧ k.level = 0 := by
  have hv : lit / 2 < k.n := h.store.valid kl (List.mem_of_getElem? hr) lit hl
  have hu : k.unassigned ≠ 0 := by
    rw [h.vals.count]
    exact Nat.ne_of_gt (freeCount_pos hv ((h.vals.even_zero lit).2 hz))
  unfold Kitten.assign
  rw [if_neg hu]
  by_cases hlev : k.level = 0
  · rw [if_pos hlev]
    simp only [hr]
    have hroot : ∀ m ∈ kl.lits, m ≠ lit → ∃ r kl', k.why m = some r ∧ k.klauses[r]? = some kl' ∧ kl'.lits = [neg m] := by
      intro m hm hne
      have h1 := h.vals.neg_true.2 (ho m hm hne)
      have h2 := h.vals.levle _ h1
      obtain ⟨r, kl', g1, g2⟩ := h.why.root _ h1 (by omega)
      exact ⟨r, kl', (why_neg k m).symm.trans g1, g2⟩
    by_cases hlen : 1 < kl.lits.length
    · rw [if_pos hlen]
      have hrr : ∃ others, k.rootReasons lit kl = some others ∧
          (k.antecedents = true → others = (kl.lits.filter (· ≠ lit)).map fun m => (k.why m).getD 0) := by
        unfold Kitten.rootReasons
        split
        · refine ⟨_, mapM_some fun m hm => ?_, fun _ => rfl⟩
          rw [List.mem_filter] at hm
          obtain ⟨r, _, g1, _⟩ := hroot m hm.1 (by simpa using hm.2)
          rw [g1]; rfl
        · rename_i hc
          exact ⟨[], rfl, fun hc' => absurd hc' hc⟩
      obtain ⟨others, e1, e2⟩ := hrr
      rw [e1]
      simp only
      let c : Klause := ⟨true, false, 0, [lit], if k.antecedents then ref :: others else []⟩
      have hs : Store { k with learned := true } :=
        ⟨h.store.valid, h.store.distinct, h.store.learned, fun hc => (by cases hc), h.store.empty, h.store.units,
          h.store.unit, h.store.inconsistent⟩
      have hadd : Store (Kitten.add { k with learned := true } c) := by
        refine hs.add (fun l hm => ?_) (by simp [c]) fun _ =>
          ⟨rfl, ref :: (kl.lits.filter (· ≠ lit)).map fun m => (k.why m).getD 0, ?_, ?_, ?_⟩
        · have : l = lit := by simpa [c] using hm
          rw [this]; exact hv
        · intro a ha
          rcases List.mem_cons.1 ha with rfl | ha
          · exact lt_of_get hr
          · obtain ⟨m, hm, rfl⟩ := List.mem_map.1 ha
            rw [List.mem_filter] at hm
            obtain ⟨r, kl', g1, g2, _⟩ := hroot m hm.1 (by simpa using hm.2)
            rw [g1]; exact lt_of_get g2
        · intro ha
          show _ = if k.antecedents then ref :: others else []
          have ha : k.antecedents = true := ha
          rw [if_pos ha, e2 ha]
        · refine Or.inl ⟨kl.lits, ⟨ref, kl, List.mem_cons_self, hr, rfl⟩, fun m hm => ?_⟩
          by_cases hne : m = lit
          · exact .assumed (by simp [hne, c])
          · obtain ⟨r, kl', g1, g2, g3⟩ := hroot m hm hne
            refine .unit (c := [neg m]) ⟨r, kl', ?_, g2, g3.symm⟩ (by simp) (fun x hx hne' => absurd (by simpa using hx) hne')
            refine List.mem_cons_of_mem _ (List.mem_map.2 ⟨m, List.mem_filter.2 ⟨hm, by simpa using hne⟩, ?_⟩)
            rw [g1]; rfl
      refine ⟨_, k.klauses.length, rfl, ?_⟩
      have hA : Assigned k (((k.setTrue lit).newLearned [lit] (ref :: others)).setVar lit (some k.klauses.length)) lit
          (some k.klauses.length) := by
        refine ⟨rfl, rfl, rfl, by simp [Kitten.setVar, newLearned_eq, Kitten.setTrue], rfl, ?_⟩
        exact ⟨rfl, rfl, rfl, rfl, rfl, rfl, rfl, rfl, rfl, rfl,
          by show Evolve k.klauses (k.klauses ++ [_]); exact evolve_learned _ rfl rfl⟩
      refine ⟨hA, ⟨h.vals.assigned hA hz hv, h.why.assigned h.vals hA hz ?_, ?_⟩, ?_, ?_, [c], rfl, by simp [c, hlev]⟩
      · refine ⟨fun _ => ⟨_, c, rfl, ?_, rfl⟩, fun hc => (by cases hc), fun r hp => absurd hp (by omega)⟩
        show (k.klauses ++ [c])[k.klauses.length]? = some c
        simp
      · exact ⟨hadd.valid, hadd.distinct, hadd.learned, hadd.flag, hadd.empty, hadd.units, hadd.unit, hadd.inconsistent⟩
      · funext w
        show (Kitten.add { k with learned := true } c).watches w = _
        rw [add_watches]
        simp [newWatches, c]
      · refine ⟨⟨[_], rfl⟩, ?_⟩
        show (k.units ++ [_]).length + (k.unassigned - 1) ≤ _
        simp; omega
    · rw [if_neg hlen]
      have he : kl.lits = [lit] := by
        match hkl : kl.lits, hl with
        | [x], hl => rw [show lit = x by simpa using hl]
        | _ :: _ :: _, _ => rw [hkl] at hlen; simp at hlen
      have hA : Assigned k ((k.setTrue lit).setVar lit (some ref)) lit (some ref) :=
        ⟨rfl, rfl, rfl, rfl, rfl, ⟨rfl, rfl, rfl, rfl, rfl, rfl, rfl, rfl, rfl, rfl, .refl _⟩⟩
      refine ⟨_, ref, rfl, hA, ⟨h.vals.assigned hA hz hv, h.why.assigned h.vals hA hz ?_, ?_⟩, rfl,
        ⟨⟨[], by simp [Kitten.setVar, Kitten.setTrue]⟩, by show k.units.length + (k.unassigned - 1) ≤ _; omega⟩, [], by simp [Kitten.setVar, Kitten.setTrue], by simp⟩
      · exact ⟨fun _ => ⟨ref, kl, rfl, hr, he⟩, fun hc => (by cases hc), fun r hp => absurd hp (by omega)⟩
      · exact ⟨h.store.valid, h.store.distinct, h.store.learned, h.store.flag, h.store.empty, h.store.units,
          h.store.unit, h.store.inconsistent⟩
  · rw [if_neg hlev]
    have hA : Assigned k ((k.setTrue lit).setVar lit (some ref)) lit (some ref) :=
      ⟨rfl, rfl, rfl, rfl, rfl, ⟨rfl, rfl, rfl, rfl, rfl, rfl, rfl, rfl, rfl, rfl, .refl _⟩⟩
    refine ⟨_, ref, rfl, hA, ⟨h.vals.assigned hA hz hv, h.why.assigned h.vals hA hz ?_, ?_⟩, rfl,
      ⟨⟨[], by simp [Kitten.setVar, Kitten.setTrue]⟩, by show k.units.length + (k.unassigned - 1) ≤ _; omega⟩, [], by simp [Kitten.setVar, Kitten.setTrue], by simp⟩
    · refine ⟨fun hc => absurd hc hlev, fun hc => (by cases hc), fun r _ he => ?_⟩
      cases he
      exact ⟨kl, hr, hl, ho⟩
    · exact ⟨h.store.valid, h.store.distinct, h.store.learned, h.store.flag, h.store.empty, h.store.units,
        h.store.unit, h.store.inconsistent⟩

/-- A decision. -/
theorem assign_decision {k : Kitten} {lit : Nat} (h : Base k) (hz : k.values lit = 0) (hv : lit / 2 < k.n)
    (hp : 0 < k.level) (hf : ∀ m ∈ k.trail, k.lev m < k.level)
    (ha : k.level ≤ k.assumptions.length → lit ∈ k.assumptions) :
    ∃ k', k.assign lit none = some k' ∧ Assigned k k' lit none ∧ Base k' ∧ k'.watches = k.watches ∧
      k'.klauses = k.klauses := by
  have hu : k.unassigned ≠ 0 := by
    rw [h.vals.count]
    exact Nat.ne_of_gt (freeCount_pos hv ((h.vals.even_zero lit).2 hz))
  unfold Kitten.assign
  rw [if_neg hu, if_neg (by omega)]
  have hA : Assigned k ((k.setTrue lit).setVar lit none) lit none :=
    ⟨rfl, rfl, rfl, rfl, rfl, ⟨rfl, rfl, rfl, rfl, rfl, rfl, rfl, rfl, rfl, rfl, .refl _⟩⟩
  refine ⟨_, rfl, hA, ⟨h.vals.assigned hA hz hv, h.why.assigned h.vals hA hz ?_, ?_⟩, rfl, rfl⟩
  · exact ⟨fun hc => (by omega), fun _ => ⟨hf, ha⟩, fun r _ he => by cases he⟩
  · exact ⟨h.store.valid, h.store.distinct, h.store.learned, h.store.flag, h.store.empty, h.store.units,
      h.store.unit, h.store.inconsistent⟩

end Verif.Kitten
