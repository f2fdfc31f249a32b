import Verif.Proofs.Whole.ToSimp

/-!
# From simplification back to search
-/

namespace Verif.Whole

open Verif.Spec Verif.Model Verif.Core
open Verif.Model.Extend (History)

/-! ## Watch lists -/

theorem binaryWatch_mem {l : Nat} {c : List Nat} {x : Watch} (h : binaryWatch l c = some x) :
    ∃ o, x = .binary o ∧ (c = [l, o] ∨ c = [o, l]) := by
  unfold binaryWatch at h
  split at h
  · rename_i a b
    split at h
    · rename_i e; subst e
      exact ⟨b, by injection h with h; exact h.symm, Or.inl rfl⟩
    · split at h
      · rename_i e; subst e
        exact ⟨a, by injection h with h; exact h.symm, Or.inr rfl⟩
      · cases h
  · cases h

theorem largeWatch_mem {l r : Nat} {c : List Nat} {x : Watch} (h : largeWatch l r c = some x) :
    ∃ o, x = .large o r ∧ (c[0]? = some l ∨ c[1]? = some l) ∧ o ∈ c := by
  unfold largeWatch at h
  split at h
  · rename_i a b _
    split at h
    · rename_i e; subst e
      exact ⟨b, by injection h with h; exact h.symm, Or.inl rfl, by simp⟩
    · split at h
      · rename_i e; subst e
        exact ⟨a, by injection h with h; exact h.symm, Or.inr rfl, by simp⟩
      · cases h
  · cases h

theorem watchesOf_binary {cls : List Simp.Clause} {l o : Nat} :
    Watch.binary o ∈ watchesOf cls l ↔ ∃ c ∈ cls, binaryWatch l c.lits = some (.binary o) := by
  unfold watchesOf
  rw [List.mem_append, List.mem_filterMap, List.mem_filterMap]
  constructor
  · rintro (h | ⟨r, _, h⟩)
    · exact h
    · obtain ⟨_, e, _⟩ := largeWatch_mem h
      cases e
  · exact Or.inl

theorem watchesOf_count (cls : List Simp.Clause) (l o : Nat) :
    (watchesOf cls l).count (.binary o) ≤ cls.countP fun c => sameLits [l, o] c.lits := by
  unfold watchesOf
  rw [List.count_append]
  have h0 : List.count (Watch.binary o) (((List.range (largeOf cls).length).filterMap fun r =>
      largeWatch l r ((largeOf cls).getD r ⟨[], true, false, 2⟩).lits)) = 0 := by
    refine List.count_eq_zero.2 fun h => ?_
    obtain ⟨r, _, h⟩ := List.mem_filterMap.1 h
    obtain ⟨_, e, _⟩ := largeWatch_mem h
    cases e
  rw [h0, Nat.add_zero, List.count, List.countP_filterMap]
  refine List.countP_mono_left fun c _ hc => ?_
  cases hb : binaryWatch l c.lits with
  | none => rw [hb] at hc; simp at hc
  | some x =>
    rw [hb] at hc
    obtain ⟨o', rfl, he⟩ := binaryWatch_mem hb
    have : o' = o := by simpa using hc
    subst this
    rw [sameLits_iff]
    rcases he with he | he <;> rw [he]
    · exact .refl _
    · intro x; simp only [List.mem_cons, List.not_mem_nil, or_false]; exact Or.comm

theorem watchesOf_large {cls : List Simp.Clause} {l o r : Nat} : Watch.large o r ∈ watchesOf cls l ↔
    r < (largeOf cls).length ∧ largeWatch l r ((largeOf cls).getD r ⟨[], true, false, 2⟩).lits = some (.large o r) := by
  unfold watchesOf
  rw [List.mem_append, List.mem_filterMap, List.mem_filterMap]
  constructor
  · rintro (⟨c, _, h⟩ | ⟨k, hk, h⟩)
    · obtain ⟨_, e, _⟩ := binaryWatch_mem h
      cases e
    · obtain ⟨_, e, _⟩ := largeWatch_mem h
      injection e with e1 e2
      subst e2
      exact ⟨List.mem_range.1 hk, h⟩
  · rintro ⟨h1, h2⟩
    exact Or.inr ⟨r, List.mem_range.2 h1, h2⟩

/-- The binary clause is watched on both sides. -/
theorem watchesOf_pair {cls : List Simp.Clause} {c : Simp.Clause} (hc : c ∈ cls) {a b : Nat} (h : c.lits = [a, b])
    (hab : a ≠ b) : Watch.binary b ∈ watchesOf cls a ∧ Watch.binary a ∈ watchesOf cls b := by
  rw [watchesOf_binary, watchesOf_binary]
  refine ⟨⟨c, hc, ?_⟩, ⟨c, hc, ?_⟩⟩
  · rw [h]; unfold binaryWatch; simp
  · rw [h]; unfold binaryWatch
    have : ¬ b = a := fun e => hab e.symm
    simp [this]

theorem refs_nodup (f : Nat → Option Watch) (hf : ∀ r x, f r = some x → x.ref? = some r) : ∀ {l : List Nat}, l.Nodup →
    ((l.filterMap f).filterMap Watch.ref?).Nodup ∧ ∀ r ∈ (l.filterMap f).filterMap Watch.ref?, r ∈ l
  | [], _ => by simp
  | a :: l, h => by
    rw [List.nodup_cons] at h
    obtain ⟨h1, h2⟩ := refs_nodup f hf h.2
    rw [List.filterMap_cons]
    cases hfa : f a with
    | none => exact ⟨h1, fun r hr => List.mem_cons_of_mem _ (h2 r hr)⟩
    | some x =>
      simp only
      rw [List.filterMap_cons, hf a x hfa]
      simp only
      rw [List.nodup_cons]
      refine ⟨⟨fun hm => h.1 (h2 a hm), h1⟩, fun r hr => ?_⟩
      rcases List.mem_cons.1 hr with rfl | hr
      · simp
      · exact List.mem_cons_of_mem _ (h2 r hr)

theorem watchesOf_once (cls : List Simp.Clause) (l : Nat) : ((watchesOf cls l).filterMap Watch.ref?).Nodup := by
  unfold watchesOf
  rw [List.filterMap_append]
  have : (cls.filterMap fun c => binaryWatch l c.lits).filterMap Watch.ref? = [] := by
    rw [List.eq_nil_iff_forall_not_mem]
    intro r hr
    obtain ⟨x, hx, e⟩ := List.mem_filterMap.1 hr
    obtain ⟨c, _, h⟩ := List.mem_filterMap.1 hx
    obtain ⟨o, rfl, _⟩ := binaryWatch_mem h
    cases e
  rw [this, List.nil_append]
  refine (refs_nodup _ ?_ List.nodup_range).1
  intro r x h
  obtain ⟨o, rfl, _⟩ := largeWatch_mem h
  rfl

/-! ## Clauses -/

theorem mem_kept {y : Simp.State} {c : Simp.Clause} : c ∈ kept y ↔
    c ∈ y.arena ∧ c.garbage = false ∧ ∀ l ∈ c.lits, y.removed (l / 2) = false := by
  unfold kept
  rw [List.mem_filter]
  simp

theorem kept_live {y : Simp.State} {c : Simp.Clause} (h : c ∈ kept y) : ∃ r, y.clause r = c ∧ (y.clause r).garbage = false := by
  obtain ⟨h1, h2, _⟩ := mem_kept.1 h
  obtain ⟨r, hr⟩ := clause_of_mem h1
  exact ⟨r, hr, by rw [hr]; exact h2⟩

theorem live_kept {y : Simp.State} {r : Nat} (h : (y.clause r).garbage = false)
    (hr : ∀ l ∈ (y.clause r).lits, y.removed (l / 2) = false) : y.clause r ∈ kept y :=
  mem_kept.2 ⟨Simp.clause_mem (Simp.clause_lt h), h, hr⟩

section
variable {orig : List (List Nat)} {y : Simp.State} {s : Core.Solver} {bigbig : Bool}

theorem mem_largeOf {cls : List Simp.Clause} {c : Core.Clause} : c ∈ largeOf cls ↔
    ∃ d ∈ cls, d.lits.length ≠ 2 ∧ c = ⟨d.lits, false, d.redundant, 2⟩ := by
  unfold largeOf
  rw [List.mem_map]
  constructor
  · rintro ⟨d, hd, rfl⟩
    rw [List.mem_filter] at hd
    exact ⟨d, hd.1, by simpa using hd.2, rfl⟩
  · rintro ⟨d, h1, h2, rfl⟩
    exact ⟨d, List.mem_filter.2 ⟨h1, by simpa using h2⟩, rfl⟩

theorem fromSimp_clause {r : Nat} (h : (fromSimp s bigbig y).Live r) : r < (largeOf (kept y)).length ∧
    ∃ d ∈ kept y, d.lits.length ≠ 2 ∧ (fromSimp s bigbig y).clause r = ⟨d.lits, false, d.redundant, 2⟩ := by
  have hlt := clause_lt h
  obtain ⟨d, h1, h2, h3⟩ := mem_largeOf.1 (clause_mem hlt)
  exact ⟨hlt, d, h1, h2, h3⟩

theorem clause_fromSimp {d : Simp.Clause} (h1 : d ∈ kept y) (h2 : d.lits.length ≠ 2) :
    ∃ r, (fromSimp s bigbig y).Live r ∧ (fromSimp s bigbig y).clause r = ⟨d.lits, false, d.redundant, 2⟩ := by
  obtain ⟨r, hr, e⟩ := live_mem (s := fromSimp s bigbig y) (mem_largeOf.2 ⟨d, h1, h2, rfl⟩) rfl
  exact ⟨r, hr, e⟩

theorem fromSimp_binary (hS : Simp.Struct orig y) {a b : Nat} (h : Watch.binary b ∈ (fromSimp s bigbig y).watches a) :
    ∃ d ∈ kept y, a ≠ b ∧ a ≠ neg b ∧ (d.lits = [a, b] ∨ d.lits = [b, a]) := by
  obtain ⟨d, hd, h1⟩ := watchesOf_binary.1 h
  obtain ⟨o, e, h2⟩ := binaryWatch_mem h1
  injection e with e
  subst e
  obtain ⟨r, rfl, hg⟩ := kept_live hd
  have hn := hS.nodup r hg
  have ht := hS.taut r hg
  refine ⟨_, hd, ?_, ?_, h2⟩
  · rintro rfl
    rcases h2 with h2 | h2 <;> rw [h2] at hn <;> simp at hn
  · rintro rfl
    refine ht b ?_ ?_
    · rcases h2 with h2 | h2 <;> rw [h2] <;> simp
    · rcases h2 with h2 | h2 <;> rw [h2] <;> simp

theorem fromSimp_valid (hS : Simp.Struct orig y) {d : Simp.Clause} (hd : d ∈ kept y) {l : Nat} (hl : l ∈ d.lits) :
    (fromSimp s bigbig y).Valid l := by
  have h1 := (mem_kept.1 hd).2.2 l hl
  obtain ⟨r, rfl, hg⟩ := kept_live hd
  exact ⟨hS.clause r hg l hl, h1⟩

/-- The irredundant clauses are all there. -/
theorem fromSimp_irr (hS : Simp.Struct orig y) {σ : Assignment} (hσ : SatFormula σ (fromSimp s bigbig y).irr) :
    SatFormula σ y.irr := by
  rintro c (⟨l, hl, rfl⟩ | ⟨r, h1, h2, rfl⟩)
  · refine hσ _ (Or.inr (Or.inr ⟨l, ?_, rfl, rfl⟩))
    have := (hS.trail l).1 hl
    have hr := hS.range l
    show y.values l = 1
    omega
  · have hk := live_kept h1 (hS.removed r h1 h2)
    by_cases h3 : (y.clause r).lits.length = 2
    · have hn := hS.nodup r h1
      match he : (y.clause r).lits, h3 with
      | [a, b], _ =>
        rw [he] at hn
        have hab : a ≠ b := by simpa using hn
        exact hσ _ (Or.inr (Or.inl ⟨a, b, (watchesOf_pair hk he hab).1, rfl⟩))
    · obtain ⟨k, hk1, hk2⟩ := clause_fromSimp (s := s) (bigbig := bigbig) hk h3
      exact hσ _ (Or.inl ⟨k, hk1, by rw [hk2]; exact h2, by rw [hk2]⟩)

theorem idxOf_var {l : List Nat} (h : (l.map (· / 2)).Nodup) {p x : Nat} (hp : l[p]? = some x) :
    (l.map (· / 2)).idxOf (x / 2) = p := by
  obtain ⟨hlt, rfl⟩ := List.getElem?_eq_some_iff.1 hp
  have hlt' : p < (l.map (· / 2)).length := by rw [List.length_map]; exact hlt
  have e : l[p] / 2 = (l.map (· / 2))[p] := by rw [List.getElem_map]
  rw [e]
  exact List.Nodup.idxOf_getElem h p hlt'

theorem fromSimp_trail (hS : Simp.Struct orig y) : TrailInv (fromSimp s bigbig y) := by
  have hmem : ∀ l, l ∈ trueLits y.exports.length y.values ↔ y.values l = 1 := by
    intro l
    rw [mem_trueLits]
    constructor
    · exact And.right
    · intro h
      exact ⟨(hS.unit l ((hS.trail l).2 (by omega))).1, h⟩
  have hval : ∀ l, y.values l ≠ 0 → (fromSimp s bigbig y).Valid l := by
    intro l hl
    rcases hS.range l with h | h | h
    · obtain ⟨h1, h2⟩ := hS.unit l ((hS.trail l).2 (by omega))
      exact ⟨h1, h2⟩
    · exact absurd h hl
    · have := hS.neg l
      obtain ⟨h1, h2⟩ := hS.unit (neg l) ((hS.trail (neg l)).2 (by omega))
      rw [neg_div] at h2
      rw [Simp.inRange_neg] at h1
      exact ⟨h1, h2⟩
  have hnd : ((trueLits y.exports.length y.values).map (· / 2)).Nodup := by
    refine Simp.nodup_map (trueLits_nodup _ _) fun a ha b hb e => ?_
    rcases eq_or_eq_neg e with h | h
    · exact h
    · have h1 := (hmem a).1 ha
      have h2 := (hmem b).1 hb
      have h3 := hS.neg b
      rw [← h] at h3
      omega
  refine ⟨hS.range, hS.neg, hval, rfl, trueLits_nodup _ _, fun l hl => (hmem l).1 hl, ?_, fun _ _ _ => rfl,
    fun _ _ => Nat.le_refl _, rfl, ?_, ?_, ?_⟩
  · intro p l h
    exact idxOf_var hnd h
  · intro j f h; cases h
  · intro j f h; cases h
  · show (trueLits y.exports.length y.values).length = _
    have e : ∀ l, (fromSimp s bigbig y).lev l = 0 := fun _ => rfl
    have : ((fromSimp s bigbig y).trail.filter fun l => decide ((fromSimp s bigbig y).lev l = 0)) =
        trueLits y.exports.length y.values := List.filter_eq_self.2 fun l _ => by simp [e]
    exact (congrArg List.length this).symm

theorem fromSimp_inv (hS : Simp.Struct orig y) : Core.Inv (fromSimp s bigbig y) := by
  refine ⟨fromSimp_trail hS, ?_, ?_, ?_⟩
  · refine ⟨fun _ _ _ => rfl, ?_, ?_, ?_, ?_⟩
    · intro l _ h; exact absurd rfl h
    · intro l _ h; cases h
    · intro l o _ h; cases h
    · intro l r _ h; cases h
  · refine ⟨?_, ?_, ?_, ?_, ?_, ?_, ?_⟩
    · intro r h
      obtain ⟨_, d, h1, h2, h3⟩ := fromSimp_clause h
      rw [h3]
      obtain ⟨k, rfl, hg⟩ := kept_live h1
      have := hS.size k hg
      show 3 ≤ (y.clause k).lits.length
      omega
    · intro r h
      obtain ⟨_, d, h1, h2, h3⟩ := fromSimp_clause h
      rw [h3]
      obtain ⟨k, rfl, hg⟩ := kept_live h1
      exact hS.nodup k hg
    · intro r h
      obtain ⟨_, d, h1, h2, h3⟩ := fromSimp_clause h
      rw [h3]
      obtain ⟨k, rfl, hg⟩ := kept_live h1
      exact hS.taut k hg
    · intro r h l hl
      obtain ⟨_, d, h1, h2, h3⟩ := fromSimp_clause h
      rw [h3] at hl
      exact fromSimp_valid hS h1 hl
    · intro r h
      obtain ⟨_, d, h1, h2, h3⟩ := fromSimp_clause h
      rw [h3]
      obtain ⟨k, rfl, hg⟩ := kept_live h1
      have := hS.size k hg
      refine ⟨Nat.le_refl _, ?_⟩
      show 2 < (y.clause k).lits.length
      omega
    · intro a b h
      obtain ⟨d, hd, hab, hn, he⟩ := fromSimp_binary hS h
      have ha : a ∈ d.lits := by rcases he with he | he <;> rw [he] <;> simp
      have hb : b ∈ d.lits := by rcases he with he | he <;> rw [he] <;> simp
      refine ⟨?_, hab, hn, fromSimp_valid hS hd ha, fromSimp_valid hS hd hb⟩
      rcases he with he | he
      · exact (watchesOf_pair hd he hab).2
      · exact (watchesOf_pair hd he (fun e => hab e.symm)).1
    · intro r h
      have h : some r ∈ List.replicate 4 (none : Option Nat) := h
      have := List.eq_of_mem_replicate h
      cases this
  · refine ⟨?_, ?_, ?_, ?_⟩
    · intro r h w hw
      obtain ⟨hlt, d, h1, h2, h3⟩ := fromSimp_clause h
      have h4 : 2 ≤ d.lits.length := by
        obtain ⟨k, rfl, hg⟩ := kept_live h1
        exact hS.size k hg
      have key : ∃ b, largeWatch w r d.lits = some (.large b r) := by
        rw [h3] at hw
        match he : d.lits, h4 with
        | a :: b :: rest, _ =>
          have hw : (a :: b :: rest)[0]? = some w ∨ (a :: b :: rest)[1]? = some w := he ▸ hw
          unfold largeWatch
          dsimp only
          by_cases e : w = a
          · rw [if_pos e]; exact ⟨b, rfl⟩
          · rw [if_neg e]
            have : w = b := by
              rcases hw with hw | hw
              · simp at hw; exact absurd hw.symm e
              · simp at hw; exact hw.symm
            rw [if_pos this]; exact ⟨a, rfl⟩
      obtain ⟨b, hb⟩ := key
      refine .inl ⟨b, watchesOf_large.2 ⟨hlt, ?_⟩⟩
      have h5 : ((largeOf (kept y)).getD r ⟨[], true, false, 2⟩).lits = d.lits := by
        have h6 := clause_get hlt (s := fromSimp s bigbig y)
        rw [h3] at h6
        have h6 : (largeOf (kept y))[r]? = some ⟨d.lits, false, d.redundant, 2⟩ := h6
        rw [List.getD_eq_getElem?_getD, h6]; rfl
      rw [h5]; exact hb
    · intro w b r h
      exact (watchesOf_large.1 h).1
    · intro w b r h hl
      obtain ⟨h1, h2⟩ := watchesOf_large.1 h
      obtain ⟨o, e, h3, h4⟩ := largeWatch_mem h2
      injection e with e
      subst e
      have h5 : ((largeOf (kept y)).getD r ⟨[], true, false, 2⟩).lits = ((fromSimp s bigbig y).clause r).lits := by
        have h6 : (largeOf (kept y))[r]? = some ((fromSimp s bigbig y).clause r) := clause_get h1 (s := fromSimp s bigbig y)
        rw [List.getD_eq_getElem?_getD, h6]; rfl
      rw [h5] at h3 h4
      exact ⟨h3, h4⟩
    · exact watchesOf_once _

/-! ## The invariant -/

theorem Tables.of_struct (h : Simp.Inv orig none y) : Tables orig y.toState y.removed := by
  have hS := h.struct
  refine ⟨hS.nonzero, hS.inj, hS.imported, hS.back, hS.bound, hS.given, fun e he i hi => ?_⟩
  rcases h.witness e he i hi with h1 | h1 | ⟨v, h1, _⟩
  · exact Or.inl h1
  · exact Or.inr h1
  · cases h1

theorem Frame.of_struct (h : Simp.Inv orig none y) (t : Search) :
    Frame orig ⟨{ t with s := fromSimp s bigbig y }, y.toState, y.proof⟩ y.irr :=
  ⟨Tables.of_struct h, rfl, h.struct.lines, h.hist, h.struct.irr_range⟩

/-- The clauses handed over. -/
def handed (y : Simp.State) : List (List Nat) :=
  (kept y).map (·.lits) ++ (trueLits y.exports.length y.values).map fun l => [l]

theorem countP_sub {α : Type} {p : α → Bool} {f : α → Bool} (l : List α) : (l.filter f).countP p ≤ l.countP fun x => f x && p x := by
  rw [List.countP_filter]
  exact Nat.le_of_eq (List.countP_congr fun x _ => by simp [and_comm])

theorem countP_filter_le {α : Type} {p f g : α → Bool} (h : ∀ x, f x = true → g x = true) (l : List α) :
    (l.filter f).countP p ≤ l.countP fun x => g x && p x := by
  refine Nat.le_trans (countP_sub l) (List.countP_mono_left fun x _ hx => ?_)
  simp only [Bool.and_eq_true] at hx ⊢
  exact ⟨h x hx.1, hx.2⟩

theorem handed_copies (hS : Simp.Struct orig y) (X : List Nat) :
    ((handed y).map (List.map y.ext)).countP (sameLits X) ≤ y.copies X := by
  unfold handed Simp.State.copies
  rw [List.map_append, List.countP_append]
  refine Nat.add_le_add ?_ ?_
  · simp only [List.countP_map, List.map_map]
    refine Nat.le_trans (countP_filter_le (g := fun c => !c.garbage) (fun c hc => ?_) _) (Nat.le_of_eq rfl)
    simp only [Bool.and_eq_true] at hc
    exact hc.1
  · simp only [List.countP_map, List.map_map]
    have h1 : ∀ l ∈ trueLits y.exports.length y.values, l ∈ y.trail := by
      intro l hl
      have := (mem_trueLits.1 hl).2
      exact (hS.trail l).2 (by omega)
    by_cases h0 : 0 < (trueLits y.exports.length y.values).countP (fun l => sameLits X [y.ext l])
    · obtain ⟨l, hl, hs⟩ := List.countP_pos_iff.1 h0
      have h2 : 0 < y.trail.countP fun l => sameLits X [y.ext l] := List.countP_pos_iff.2 ⟨l, h1 l hl, hs⟩
      have h3 : (trueLits y.exports.length y.values).countP (fun l => sameLits X [y.ext l]) ≤ 1 := by
        refine countP_le_one (x := l) (trueLits_nodup _ _) fun m hm hs' => ?_
        have h4 : SameLits [y.ext l] [y.ext m] := (sameLits_iff.1 hs).symm.trans (sameLits_iff.1 hs')
        have h5 := (h4 (y.ext m)).2 (by simp)
        simp only [List.mem_singleton] at h5
        exact hS.renaming.inj _ _ (hS.unit m (h1 m hm)).1 (hS.unit l (h1 l hl)).1 h5
      exact Nat.le_trans h3 h2
    · refine Nat.le_trans (Nat.le_of_eq ?_) (Nat.zero_le _)
      exact Nat.eq_zero_of_not_pos h0

theorem fromSimp_good (h : Simp.Inv orig none y) (hc : y.inconsistent = false) (t : Search) :
    (Frame.of_struct (s := s) (bigbig := bigbig) h t).Good (fromSimp s bigbig y) := by
  have hS := h.struct
  have hi : Core.Inv (fromSimp s bigbig y) := fromSimp_inv hS
  obtain ⟨D, hD, hcov⟩ := hS.proof
  refine ⟨⟨hi, ⟨handed y, ?_, ?_⟩, fun σ hσ => fromSimp_irr hS hσ⟩, ?_, ?_, Nat.zero_le _⟩
  · refine ⟨rfl, ?_, ?_, ⟨D, ?_, fun X => Nat.le_trans (handed_copies hS X) (hcov.copies X)⟩, ?_⟩
    · intro x hx; cases hx
    · intro c hc l hl
      rcases List.mem_append.1 hc with hc | hc
      · obtain ⟨d, hd, rfl⟩ := List.mem_map.1 hc
        exact (fromSimp_valid (s := s) (bigbig := bigbig) hS hd hl).1
      · obtain ⟨m, hm, rfl⟩ := List.mem_map.1 hc
        rw [List.mem_singleton.1 hl]
        exact (mem_trueLits.1 hm).1
    · show Replay orig (y.proof ++ []) D
      rw [List.append_nil]; exact hD
    · intro σ hσ
      obtain ⟨τ, h1, h2⟩ := h.implied σ hσ
      intro c hc
      rcases List.mem_append.1 hc with hc | hc
      · obtain ⟨d, hd, rfl⟩ := List.mem_map.1 hc
        obtain ⟨r, rfl, hg⟩ := kept_live hd
        obtain ⟨l, hl, ht⟩ := h1 _ (Or.inr ⟨r, hg, rfl⟩)
        refine ⟨l, hl, (Simp.litTrue_congr ?_).1 ht⟩
        exact h2 _ ((mem_kept.1 hd).2.2 l hl) (by simp)
      · obtain ⟨l, hl, rfl⟩ := List.mem_map.1 hc
        have hv := (mem_trueLits.1 hl).2
        exact hσ _ (Or.inl ⟨l, (hS.trail l).2 (by omega), rfl⟩)
  · refine ⟨fun X => ?_, fun a b => ?_, fun l hv _ => ?_, fun he => ?_⟩
    · unfold handed
      rw [List.countP_append, List.countP_map]
      refine Nat.le_trans ?_ (Nat.le_add_right _ _)
      show (largeOf (kept y)).countP _ ≤ _
      unfold largeOf
      rw [List.countP_map]
      refine Nat.le_trans (countP_sub _) (List.countP_mono_left fun x _ hx => ?_)
      simp only [Function.comp, Bool.and_eq_true] at hx ⊢
      exact hx.2.2
    · unfold handed
      rw [List.countP_append, List.countP_map]
      exact Nat.le_trans (watchesOf_count (kept y) a b) (Nat.le_add_right _ _)
    · have hv : y.values l = 1 := hv
      refine ⟨[l], List.mem_append_right _ (List.mem_map.2 ⟨l, mem_trueLits.2 ⟨?_, hv⟩, rfl⟩), .refl _⟩
      exact (hS.unit l ((hS.trail l).2 (by omega))).1
    · have he : y.inconsistent = true := he
      rw [hc] at he; cases he
  · have hin : ∀ w, (fromSimp s bigbig y).values w = -1 → neg w ∈ (fromSimp s bigbig y).trail.drop 0 := by
      intro w hw
      have hw : y.values w = -1 := hw
      have h1 := hS.neg w
      refine mem_trueLits.2 ⟨?_, by omega⟩
      exact (hS.unit (neg w) ((hS.trail _).2 (by omega))).1
    exact ⟨fun r _ w _ hw hn => absurd (hin w hw) hn, fun w o _ hw hn => absurd (hin w hw) hn⟩
  · intro f hf; cases hf

end

end Verif.Whole
