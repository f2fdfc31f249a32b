import Verif.Model.Simp.Probe
import Verif.Proofs.Simp.Root
import Verif.Proofs.Lists

/-!
# Transitive reduction and backbone extraction
-/

namespace Verif.Simp

open Verif.Spec Verif.Model Verif.Model.Extend

/-- What is removed is implied by what remains, and what is added by what there was. -/
structure Preserves (s s' : State) : Prop where
  removed : ∀ σ, SatFormula σ s'.irr → SatFormula σ s.irr
  added : ∀ σ, SatFormula σ s.formula → SatFormula σ s'.formula ∧ s'.inconsistent = s.inconsistent

theorem Preserves.refl (s : State) : Preserves s s := ⟨fun _ h => h, fun _ h => ⟨h, rfl⟩⟩

theorem Preserves.trans {a b c : State} (h : Preserves a b) (h' : Preserves b c) : Preserves a c :=
  ⟨fun σ hσ => h.removed σ (h'.removed σ hσ), fun σ hσ => by
    obtain ⟨h1, h2⟩ := h.added σ hσ
    obtain ⟨h3, h4⟩ := h'.added σ h1
    exact ⟨h3, h4.trans h2⟩⟩

theorem preserves_unit {s : State} {l : Nat} (h : Entails s.formula [l]) : Preserves s (s.learnedUnit l) :=
  ⟨fun σ hσ c hc => hσ c (irr_learnedUnit.2 (Or.inr hc)), fun σ hσ => ⟨fun c hc => by
    rcases formula_learnedUnit.1 hc with rfl | hc
    · exact h σ hσ
    · exact hσ c hc, rfl⟩⟩

theorem preserves_empty {s : State} (h : Entails s.formula []) : Preserves s s.learnedEmpty :=
  ⟨fun _ h => h, fun σ hσ => absurd (h σ hσ) (not_satClause_nil σ)⟩

theorem preserves_garbage {s : State} {r : Nat} (hg : (s.clause r).garbage = false)
    (h : (s.clause r).redundant = true ∨ Entails (s.markGarbage r).irr (s.clause r).lits) :
    Preserves s (s.markGarbage r) :=
  ⟨fun σ => (same_garbage hg h σ).2, fun σ hσ => ⟨fun c hc => hσ c (formula_of_garbage (clause_lt hg) hc), rfl⟩⟩

/-! ## Root level propagation -/

theorem preserves_visit {orig : List (List Nat)} {s : State} (h : Inv orig none s) (r : Nat) : Preserves s (s.visit r) := by
  unfold State.visit
  by_cases c1 : ((s.clause r).garbage || (s.clause r).lits.any (fun l => decide (s.values l > 0))) = true
  · rw [if_pos c1]; exact .refl _
  · rw [if_neg c1]
    simp only [Bool.or_eq_true, not_or, List.any_eq_true, decide_eq_true_eq, not_exists, not_and] at c1
    obtain ⟨hg, hle⟩ := c1
    have hg : (s.clause r).garbage = false := by simpa using hg
    have hmem : ∀ m : Nat, m ∈ (s.clause r).lits.filter (fun l => decide (s.values l = 0)) ↔
        m ∈ (s.clause r).lits ∧ s.values m = 0 := by
      intro m; rw [List.mem_filter]; simp
    generalize (s.clause r).lits.filter (fun l => decide (s.values l = 0)) = c at hmem ⊢
    have hrup : RUP s.formula c := rup_of (Struct.clause_formula hg) fun m hm => by
      have h1 := hle m hm
      by_cases e : s.values m = 0
      · exact Or.inl ((hmem m).2 ⟨hm, e⟩)
      · exact Or.inr (h.struct.neg_unit (by omega))
    match c, hmem, hrup with
    | [], _, hrup => exact preserves_empty hrup.entails
    | [u], hmem, hrup =>
      dsimp only
      split
      · exact .refl _
      · exact preserves_unit hrup.entails
    | _ :: _ :: _, _, _ => exact .refl _

theorem watched_true {s : State} {w : Nat → Bool} : Watched (fun _ => True) s w :=
  fun _ _ _ _ _ => ⟨trivial, trivial⟩

theorem preserves_visits {orig : List (List Nat)} {w : Nat → Bool} : ∀ (rs : List Nat) {s : State}, Inv orig none s →
    Preserves s (s.visits w rs)
  | [], s, _ => .refl _
  | r :: rs, s, h => by
    unfold State.visits
    split
    · exact .refl _
    · split
      · exact (preserves_visit h r).trans (preserves_visits rs (h.visit (V := fun _ => True) fun _ _ _ => ⟨trivial, trivial⟩).1)
      · exact preserves_visits rs h

theorem preserves_complete {orig : List (List Nat)} {w : Nat → Bool} : ∀ (fuel : Nat) {s : State}, Inv orig none s →
    Preserves s (s.complete w fuel)
  | 0, s, _ => .refl _
  | fuel + 1, s, h => by
    unfold State.complete
    split
    · exact .refl _
    · split
      · exact .refl _
      · exact (preserves_visit h _).trans
          (preserves_complete fuel (h.visit (V := fun _ => True) fun _ _ _ => ⟨trivial, trivial⟩).1)

theorem preserves_propagateRoot {orig : List (List Nat)} {w : Nat → Bool} {s : State} (h : Inv orig none s) (order : List Nat) :
    Preserves s (s.propagateRoot w order) := by
  unfold State.propagateRoot
  exact (preserves_visits order h).trans (preserves_complete _ (h.visits (V := fun _ => True) order watched_true).1)

theorem Inv.propagateAll {orig : List (List Nat)} {s : State} (h : Inv orig none s) (order : List Nat) :
    Inv orig none (s.propagateRoot (fun _ => true) order) :=
  (h.propagateRoot (V := fun _ => True) watched_true order).1

/-! ## Binary implications -/

/-- There is an irredundant binary clause `¬k ∨ l`. -/
def State.Implication (s : State) (k l : Nat) : Prop :=
  ∃ r, (s.clause r).garbage = false ∧ (s.clause r).redundant = false ∧ (s.clause r).lits.length = 2 ∧
    neg k ∈ (s.clause r).lits ∧ l ∈ (s.clause r).lits ∧ l ≠ neg k

theorem up_binary {F : Formula} {A : Nat → Prop} {c : List Nat} {k l : Nat} (hc : F c) (h2 : c.length = 2) (hk : neg k ∈ c)
    (hl : l ∈ c) (hne : l ≠ neg k) (h : UP F A k) : UP F A l :=
  .unit hc hl fun m hm hml => by
    rcases binary_lits h2 hk hl hne hm with e | e
    · rw [e, neg_neg]; exact h
    · exact absurd e hml

theorem implication_of {s : State} {l r o : Nat} (hr : r ∈ s.occurrences (neg l)) (ho : s.binaryOther (neg l) r = some o) :
    s.Implication l o := by
  obtain ⟨h1, h2, h3⟩ := mem_occurrences.1 hr
  obtain ⟨b1, b2, b3⟩ := binaryOther_some ho
  exact ⟨r, h1, h2, b1, h3, b2, b3⟩

/-! ## Transitive reduction -/

theorem probeValue_neg {orig : List (List Nat)} {s : State} (h : Struct orig s) {trail : List Nat} {l : Nat}
    (hv : s.probeValue trail l < 0) : neg l ∈ trail ∨ neg l ∈ s.trail := by
  unfold State.probeValue at hv
  split at hv
  · cases hv
  · split at hv
    · rename_i h1; exact Or.inl (by simpa using h1)
    · right
      rw [h.trail, h.neg]; omega

/-- Clauses usable to show that `p` can be removed. -/
def State.without (s : State) (p : Nat) : Formula := fun c =>
  (∃ l ∈ s.trail, c = [l]) ∨
    ∃ r, r ≠ p ∧ (s.clause r).garbage = false ∧ (s.clause r).redundant = false ∧ c = (s.clause r).lits

theorem without_irr {s : State} {p : Nat} {c : List Nat} (h : s.without p c) : s.irr c := by
  rcases h with h | ⟨r, _, h1, h2, h3⟩
  · exact Or.inl h
  · exact Or.inr ⟨r, h1, h2, h3⟩

theorem without_garbage {s : State} {p : Nat} (hp : p < s.arena.length) {c : List Nat} (h : s.without p c) :
    (s.markGarbage p).irr c := by
  rcases h with h | ⟨r, h0, h1, h2, h3⟩
  · exact Or.inl h
  · exact (irr_garbage hp).2 (Or.inr ⟨r, h0, h1, h2, h3⟩)

/-- Outcome of the search from `¬src`: reaching `dst` without the clause `p`, or both a literal and its negation. -/
structure TOut (s : State) (src p dst : Nat) (o : Reached) : Prop where
  transitive : o = .transitive → UP (s.without p) (· = neg src) dst
  failed : o = .failed → UPConflict s.irr (· = neg src)
  more : ∀ t, o = .more t → neg src ∈ t ∧ ∀ l ∈ t, UP (s.without p) (· = neg src) l

theorem up_irr {s : State} {p : Nat} {A : Nat → Prop} {l : Nat} (h : UP (s.without p) A l) : UP s.irr A l :=
  UP.mono (G := s.irr) (fun c hc => ⟨c, without_irr hc, .refl _⟩) (fun _ h => .assumed h) h

theorem probeValue_pos {s : State} {trail : List Nat} {l : Nat} (h : l ∈ trail) : s.probeValue trail l = 1 := by
  unfold State.probeValue
  rw [if_pos (by simpa using h)]

theorem out_watches {orig : List (List Nat)} {s : State} (h : Struct orig s) {src p dst lit : Nat} (hsd : src ≠ dst)
    (hp : ∀ l ∈ (s.clause p).lits, l = src ∨ l = dst) (hlit : UP (s.without p) (· = neg src) lit) :
    ∀ (qs trail : List Nat), (∀ q ∈ qs, q ∈ s.occurrences (neg lit)) → neg src ∈ trail →
    (∀ l ∈ trail, UP (s.without p) (· = neg src) l) →
    TOut s src p dst (s.transitiveWatches src p dst (neg lit) qs trail)
  | [], trail, _, hn, ht => ⟨fun h => (by cases h), fun h => (by cases h), fun t e => by
      unfold State.transitiveWatches at e
      injection e with e
      rw [← e]; exact ⟨hn, ht⟩⟩
  | q :: qs, trail, hq, hn, ht => by
    have hqs : ∀ x ∈ qs, x ∈ s.occurrences (neg lit) := fun x hx => hq x (List.mem_cons_of_mem _ hx)
    have rec_ := fun t hn ht => out_watches h hsd hp hlit qs t hqs hn ht
    unfold State.transitiveWatches
    by_cases c0 : neg lit = src ∧ q = p
    · rw [if_pos c0]; exact rec_ trail hn ht
    · rw [if_neg c0]
      cases hb : s.binaryOther (neg lit) q with
      | none => exact rec_ trail hn ht
      | some other =>
        dsimp only
        obtain ⟨q1, q2, q3⟩ := mem_occurrences.1 (hq q (by simp))
        obtain ⟨b1, b2, b3⟩ := binaryOther_some hb
        -- using the clause itself only gives `src`
        have huse : UP s.irr (· = neg src) other :=
          up_binary (clause_irr q1 q2) b1 q3 b2 b3 (up_irr hlit)
        have hother : other = src ∨ UP (s.without p) (· = neg src) other := by
          by_cases e : q = p
          · left
            subst e
            rcases hp _ q3 with e1 | e1
            · exact absurd ⟨e1, rfl⟩ c0
            · rcases hp _ b2 with e2 | e2
              · exact e2
              · exact absurd (e2.trans e1.symm) b3
          · exact Or.inr (up_binary (Or.inr ⟨q, e, q1, q2, rfl⟩) b1 q3 b2 b3 hlit)
        by_cases c1 : other = dst
        · rw [if_pos c1]
          refine ⟨fun _ => ?_, fun h => (by cases h), fun _ h => (by cases h)⟩
          rcases hother with e | hu
          · exact absurd (e.symm.trans c1) hsd
          · rw [← c1]; exact hu
        · rw [if_neg c1]
          by_cases c2 : s.probeValue trail other < 0
          · rw [if_pos c2]
            refine ⟨fun h => (by cases h), fun _ => ?_, fun _ h => (by cases h)⟩
            refine UP.conflict huse ?_ ?_
            · rcases probeValue_neg h c2 with hn | hn
              · exact up_irr (ht _ hn)
              · exact .unit (Or.inl ⟨_, hn, rfl⟩) (by simp) fun m hm hne => absurd (List.mem_singleton.1 hm) hne
            · intro e
              rw [e, probeValue_pos hn] at c2
              cases c2
          · rw [if_neg c2]
            by_cases c3 : s.probeValue trail other = 0
            · rw [if_pos c3]
              refine rec_ _ (List.mem_append_left _ hn) fun l hl => ?_
              rcases List.mem_append.1 hl with hl | hl
              · exact ht l hl
              · rw [List.mem_singleton.1 hl]
                rcases hother with e | hu
                · exfalso
                  unfold State.probeValue at c3
                  split at c3
                  · cases c3
                  · rw [e, if_pos (by simpa using hn)] at c3; cases c3
                · exact hu
            · rw [if_neg c3]; exact rec_ trail hn ht

theorem out_loop {orig : List (List Nat)} {s : State} (h : Struct orig s) {src p dst : Nat} (hsd : src ≠ dst)
    (hp : ∀ l ∈ (s.clause p).lits, l = src ∨ l = dst) : ∀ (fuel : Nat) (trail : List Nat) (k : Nat), neg src ∈ trail →
    (∀ l ∈ trail, UP (s.without p) (· = neg src) l) → TOut s src p dst (s.transitiveLoop src p dst fuel trail k)
  | 0, trail, k, hn, ht => ⟨fun h => (by cases h), fun h => (by cases h), fun t e => by
      unfold State.transitiveLoop at e
      injection e with e
      rw [← e]; exact ⟨hn, ht⟩⟩
  | fuel + 1, trail, k, hn, ht => by
    unfold State.transitiveLoop
    cases hk : trail[k]? with
    | none => exact ⟨fun h => (by cases h), fun h => (by cases h), fun t e => by
        injection e with e
        rw [← e]; exact ⟨hn, ht⟩⟩
    | some lit =>
      dsimp only
      have ho := out_watches h hsd hp (ht lit (List.mem_of_getElem? hk)) _ trail (fun _ h => h) hn ht
      cases hw : s.transitiveWatches src p dst (neg lit) (s.occurrences (neg lit)) trail with
      | transitive => rw [hw] at ho; exact ho
      | failed => rw [hw] at ho; exact ho
      | more t =>
        dsimp only
        obtain ⟨h1, h2⟩ := ho.more t hw
        exact out_loop h hsd hp fuel t _ h1 h2

theorem out_start {orig : List (List Nat)} {s : State} (h : Struct orig s) {src p dst : Nat} (hg : (s.clause p).garbage = false)
    (hb : s.binaryOther src p = some dst) (hm : src ∈ (s.clause p).lits) (fuel : Nat) :
    TOut s src p dst (s.transitiveLoop src p dst fuel [neg src] 0) := by
  obtain ⟨b1, b2, b3⟩ := binaryOther_some hb
  exact out_loop h (fun e => b3 e.symm) (fun l hl => binary_lits b1 hm b2 b3 hl) fuel _ 0 (by simp)
    fun l hl => .assumed (List.mem_singleton.1 hl)

/-- The clause removed is implied by the others. -/
theorem TOut.entails {s : State} {src p dst : Nat} {o : Reached} (h : TOut s src p dst o) (ho : o = .transitive)
    (hp : p < s.arena.length) (h1 : src ∈ (s.clause p).lits) (h2 : dst ∈ (s.clause p).lits) :
    Entails (s.markGarbage p).irr (s.clause p).lits := by
  intro σ hσ
  have hu := h.transitive ho
  by_cases hs : litTrue σ src
  · exact ⟨src, h1, hs⟩
  · refine ⟨dst, h2, ?_⟩
    refine UP.sound (F := s.without p) (fun c hc => hσ c (without_garbage hp hc)) (fun l hl => ?_) hu
    rw [hl]
    exact (litTrue_or_neg σ src).resolve_left hs

theorem TOut.rup {s : State} {src p dst : Nat} {o : Reached} (h : TOut s src p dst o) (ho : o = .failed) :
    RUP s.irr [src] := by
  refine Or.inl ?_
  refine UPConflict.mono (F := s.irr) (fun c hc => ⟨c, hc, .refl _⟩) (fun l hl => .assumed ?_) (h.failed ho)
  rw [hl, neg_neg]; simp

/-- What a step of transitive reduction keeps. -/
structure TStep (orig : List (List Nat)) (s s' : State) : Prop where
  inv : Inv orig none s'
  pres : Preserves s s'
  values : s'.values = s.values
  exports : s'.exports = s.exports
  removed : s'.removed = s.removed

theorem Inv.transitiveTry {orig : List (List Nat)} {src : Nat} : ∀ (ps : List Nat) (limit : Nat) {s : State}, Inv orig none s →
    ps.Nodup → (∀ p ∈ ps, (s.clause p).garbage = false ∧ (s.clause p).redundant = false ∧ src ∈ (s.clause p).lits) →
    ∀ {s' : State} {b : Bool}, s.transitiveTry src limit ps = (s', b) →
    TStep orig s s' ∧ (b = true → RUP s'.irr [src] ∧ ∃ r, (s'.clause r).garbage = false ∧ (s'.clause r).redundant = false ∧
      src ∈ (s'.clause r).lits)
  | [], limit, s, h, _, _, s', b, he => by
    unfold State.transitiveTry at he
    cases he
    exact ⟨⟨h, .refl _, rfl, rfl, rfl⟩, fun h => (by cases h)⟩
  | p :: ps, limit, s, h, hnd, hps, s', b, he => by
    obtain ⟨hnp, hnd⟩ := List.nodup_cons.1 hnd
    have hps' : ∀ q ∈ ps, _ := fun q hq => hps q (List.mem_cons_of_mem _ hq)
    obtain ⟨p1, p2, p3⟩ := hps p (by simp)
    have rec_ := fun limit he => Inv.transitiveTry ps limit h hnd hps' (s' := s') (b := b) he
    unfold State.transitiveTry at he
    cases hb : s.binaryOther src p with
    | none => rw [hb] at he; exact rec_ _ he
    | some dst =>
      rw [hb] at he
      dsimp only at he
      by_cases c1 : dst < src
      · rw [if_pos c1] at he; exact rec_ _ he
      · rw [if_neg c1] at he
        by_cases c2 : s.values dst ≠ 0
        · rw [if_pos c2] at he; exact rec_ _ he
        · rw [if_neg c2] at he
          have ho := out_start h.struct p1 hb p3 (s.exports.length + 1)
          have b2 := (binaryOther_some hb).2.1
          cases hr : s.transitiveLoop src p dst (s.exports.length + 1) [neg src] 0 with
          | failed =>
            rw [hr] at he ho
            dsimp only at he
            cases he
            exact ⟨⟨h, .refl _, rfl, rfl, rfl⟩, fun _ => ⟨ho.rup rfl, p, p1, p2, p3⟩⟩
          | more t =>
            rw [hr] at he
            cases limit with
            | zero =>
              dsimp only at he
              cases he
              exact ⟨⟨h, .refl _, rfl, rfl, rfl⟩, fun h => (by cases h)⟩
            | succ limit => exact rec_ _ he
          | transitive =>
            rw [hr] at he ho
            have hlt := clause_lt p1
            have hent := ho.entails rfl hlt p3 b2
            have hinv : Inv orig none (s.markGarbage p) := h.markGarbage p1 (Or.inr hent)
            have hpre : Preserves s (s.markGarbage p) := preserves_garbage p1 (Or.inr hent)
            cases limit with
            | zero =>
              dsimp only at he
              cases he
              exact ⟨⟨hinv, hpre, rfl, rfl, rfl⟩, fun h => (by cases h)⟩
            | succ limit =>
              dsimp only at he
              obtain ⟨⟨i1, i2, i3, i4, i5⟩, i6⟩ := Inv.transitiveTry ps limit hinv hnd (fun q hq => by
                rw [clause_garbage hlt, if_neg (by rintro rfl; exact hnp hq)]
                exact hps' q hq) he
              exact ⟨⟨i1, hpre.trans i2, i3, i4, i5⟩, i6⟩

theorem active_value {orig : List (List Nat)} {s : State} (h : Struct orig s) {l : Nat} (ha : s.active (l / 2) = true) :
    s.values l = 0 := by
  unfold State.active at ha
  simp only [Bool.and_eq_true, decide_eq_true_eq] at ha
  rcases eq_or_eq_neg (show l / 2 = 2 * (l / 2) / 2 by omega) with e | e
  · rw [e]; exact ha.2
  · rw [e, h.neg, ha.2]; rfl

theorem occurrences_nodup (s : State) (l : Nat) : (s.occurrences l).Nodup := by
  unfold State.occurrences
  exact List.Nodup.sublist List.filter_sublist List.nodup_range

theorem Inv.transitiveReduce {orig : List (List Nat)} {s : State} (h : Inv orig none s) {src limit : Nat} {order : List Nat}
    (ha : s.active (src / 2) = true) : Inv orig none (s.transitiveReduce src limit order) ∧
    Preserves s (s.transitiveReduce src limit order) := by
  unfold State.transitiveReduce
  cases ht : s.transitiveTry src limit (s.occurrences src) with
  | mk s' b =>
    obtain ⟨⟨i1, i2, i3, i4, i5⟩, i6⟩ := Inv.transitiveTry _ _ h (occurrences_nodup s src)
      (fun p hp => mem_occurrences.1 hp) ht
    cases b with
    | false => exact ⟨i1, i2⟩
    | true =>
      dsimp only
      obtain ⟨hr, r, r1, r2, r3⟩ := i6 rfl
      have hr' := rup_formula hr
      have hv : s'.values src = 0 := by
        rw [i3]; exact active_value h.struct ha
      have hu := i1.learnedUnit hv (i1.struct.clause r r1 src r3) (i1.struct.removed r r1 r2 src r3) hr'
      exact ⟨hu.propagateAll order, (i2.trans (preserves_unit hr'.entails)).trans (preserves_propagateRoot hu order)⟩

theorem Inv.transitiveReduction {orig : List (List Nat)} : ∀ (ls : List (Nat × Nat × List Nat)) {s : State}, Inv orig none s →
    Inv orig none (s.transitiveReduction ls) ∧ Preserves s (s.transitiveReduction ls)
  | [], s, h => ⟨h, .refl _⟩
  | (lit, limit, order) :: ls, s, h => by
    unfold State.transitiveReduction
    split
    · exact ⟨h, .refl _⟩
    · split
      · exact Inv.transitiveReduction ls h
      · rename_i _ ha
        obtain ⟨i1, i2⟩ := h.transitiveReduce (src := lit) (limit := limit) (order := order) (by simpa using ha)
        obtain ⟨j1, j2⟩ := Inv.transitiveReduction ls i1
        exact ⟨j1, i2.trans j2⟩

end Verif.Simp
