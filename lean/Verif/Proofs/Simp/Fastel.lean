import Verif.Model.Simp.Fastel
import Verif.Proofs.Simp.Eliminate
import Verif.Proofs.Simp.Forward
import Verif.Proofs.Lists

/-!
# Fast variable elimination
-/

namespace Verif.Simp

open Verif.Spec Verif.Model Verif.Model.Extend

/-! ## Subsumption -/

theorem fastMarks_sub (s : State) (o : FastOptions) : ∀ (c : List Nat) (n : Nat) (max : Option Nat)
    (marks : List Nat), ∀ l ∈ (s.fastMarks o c n max marks).1, l ∈ c ∨ l ∈ marks
  | [], n, max, marks, l, hl => Or.inr hl
  | other :: rest, n, max, marks, l, hl => by
    unfold State.fastMarks at hl
    split at hl
    · exact (fastMarks_sub s o rest _ _ _ l hl).imp (List.mem_cons_of_mem _) id
    · split at hl
      · exact (fastMarks_sub s o rest _ _ _ l hl).imp (List.mem_cons_of_mem _) id
      · rcases fastMarks_sub s o rest _ _ _ l hl with h | h
        · exact Or.inl (List.mem_cons_of_mem _ h)
        · rcases List.mem_cons.1 h with rfl | h
          · exact Or.inl (by simp)
          · exact Or.inr h

theorem fastSubsumers_spec {s : State} {marks lits : List Nat} {c lit : Nat} (hm : ∀ m ∈ marks, m ∈ lits)
    (hl : lit ∈ lits) (hlen : (s.clause c).lits.length ≠ 2) : ∀ (rs : List Nat) (b : Bool),
    (∀ r ∈ rs, (s.clause r).garbage = false ∧ (s.clause r).redundant = false ∧ lit ∈ (s.clause r).lits) →
    (b = true → s.Subsumes c lits) → s.fastSubsumers marks c lit rs b = true → s.Subsumes c lits
  | [], b, _, hb, h => hb h
  | r :: rs, b, hrs, hb, h => by
    have hrs' := fun k hk => hrs k (List.mem_cons_of_mem _ hk)
    obtain ⟨r1, r2, r3⟩ := hrs r (by simp)
    unfold State.fastSubsumers at h
    cases ho : s.binaryOther lit r with
    | some other =>
      rw [ho] at h
      dsimp only at h
      by_cases hc : marks.contains other = true
      · obtain ⟨b1, b2, b3⟩ := binaryOther_some ho
        refine ⟨r, ?_, r1, r2, fun m hm' => Or.inl ?_⟩
        · rintro rfl; exact hlen b1
        · rcases binary_lits b1 r3 b2 b3 hm' with rfl | rfl
          · exact hl
          · exact hm _ (List.contains_iff_mem.1 hc)
      · rw [if_neg hc] at h
        exact fastSubsumers_spec hm hl hlen rs b hrs' hb h
    | none =>
      rw [ho] at h
      dsimp only at h
      split at h
      · exact fastSubsumers_spec hm hl hlen rs b hrs' hb h
      · rename_i hc
        simp only [Bool.or_eq_true, decide_eq_true_eq, not_or] at hc
        refine fastSubsumers_spec hm hl hlen rs _ hrs' (fun ht => ?_) h
        refine ⟨r, hc.1.1, r1, r2, fun m hm' => ?_⟩
        have := List.all_eq_true.1 ht m hm'
        simp only [Bool.or_eq_true, decide_eq_true_eq] at this
        rcases this with h1 | h1
        · exact Or.inr h1
        · exact Or.inl (hm m (List.contains_iff_mem.1 h1))

theorem fastSubsumedBy_spec {s : State} (o : FastOptions) {marks lits : List Nat} {max : Option Nat} {c : Nat}
    (hm : ∀ m ∈ marks, m ∈ lits) (hlen : (s.clause c).lits.length ≠ 2) : ∀ (ls : List Nat),
    (∀ l ∈ ls, l ∈ lits) → s.fastSubsumedBy o marks max c ls = true → s.Subsumes c lits
  | [], _, h => (by cases h)
  | l :: ls, hls, h => by
    have hls' := fun k hk => hls k (List.mem_cons_of_mem _ hk)
    unfold State.fastSubsumedBy at h
    split at h
    · exact fastSubsumedBy_spec o hm hlen ls hls' h
    · rcases Bool.or_eq_true_iff.1 h with h | h
      · exact fastSubsumers_spec hm (hls l (by simp)) hlen _ false (fun r hr => mem_occurrences.1 hr)
          (fun e => (by cases e)) h
      · exact fastSubsumedBy_spec o hm hlen ls hls' h

theorem fastSubsumed_spec {s : State} {o : FastOptions} {c : Nat} (hlen : (s.clause c).lits.length ≠ 2)
    (h : s.fastSubsumed o c = true) : s.Subsumes c (s.clause c).lits := by
  unfold State.fastSubsumed at h
  have hm := fastMarks_sub s o (s.clause c).lits 0 none []
  cases e : s.fastMarks o (s.clause c).lits 0 none [] with
  | mk marks max =>
    rw [e] at hm h
    exact fastSubsumedBy_spec o (fun m h => (hm m h).elim id fun h => (by cases h)) hlen _ (fun _ h => h) h

theorem Step.subsumed {orig : List (List Nat)} {s : State} (h : Inv orig none s) {c : Nat}
    (hg : (s.clause c).garbage = false) (hs : s.Subsumes c (s.clause c).lits) :
    Step orig s (s.markGarbage c) := by
  obtain ⟨d, d1, d2, d3, d4⟩ := hs
  refine .garbage h hg (Or.inr fun σ hσ => ?_)
  obtain ⟨l, l1, l2⟩ := hσ _ ((irr_garbage (clause_lt hg)).2 (Or.inr ⟨d, d1, d2, d3, rfl⟩))
  rcases d4 l l1 with h1 | h1
  · exact ⟨l, h1, l2⟩
  · have := h.struct.neg_irr h1
    obtain ⟨m, m1, m2⟩ := hσ [Spec.neg l] ((irr_garbage (clause_lt hg)).2 (Or.inl (by
      rcases this with h | ⟨k, k1, k2, k3⟩
      · exact h
      · exact ⟨Spec.neg l, (h.struct.trail _).2 (by rw [h.struct.neg]; omega), rfl⟩)))
    rw [List.mem_singleton.1 m1, litTrue_neg] at m2
    exact absurd l2 m2

/-! ## What does not change -/

/-- Values, variables and old clauses, except for removing clauses, are the same. -/
structure Stable (x : Nat) (s s' : State) : Prop where
  len : s.arena.length ≤ s'.arena.length
  old : ∀ r, r < s.arena.length → s'.clause r = s.clause r ∨ (s'.clause r).garbage = true
  val : s'.values x = s.values x
  exports : s'.exports = s.exports
  removed : s'.removed = s.removed

theorem Stable.refl (x : Nat) (s : State) : Stable x s s :=
  ⟨Nat.le_refl _, fun _ _ => Or.inl rfl, rfl, rfl, rfl⟩

theorem Stable.trans {x : Nat} {a b c : State} (h : Stable x a b) (h' : Stable x b c) : Stable x a c := by
  refine ⟨Nat.le_trans h.len h'.len, fun r hr => ?_, h'.val.trans h.val, h'.exports.trans h.exports,
    h'.removed.trans h.removed⟩
  rcases h'.old r (Nat.lt_of_lt_of_le hr h.len) with h1 | h1
  · rw [h1]; exact h.old r hr
  · exact Or.inr h1

theorem Stable.live {x : Nat} {s s' : State} (h : Stable x s s') {r : Nat} (hr : r < s.arena.length)
    (hg : (s'.clause r).garbage = false) : s'.clause r = s.clause r := by
  rcases h.old r hr with h1 | h1
  · exact h1
  · rw [h1] at hg; cases hg

theorem arena_garbage (s : State) (r : Nat) : (s.markGarbage r).arena.length = s.arena.length := by
  unfold State.markGarbage; simp

theorem stable_garbage {x : Nat} {s : State} {r : Nat} (hg : r < s.arena.length) :
    Stable x s (s.markGarbage r) := by
  refine ⟨by rw [arena_garbage]; exact Nat.le_refl _, fun k _ => ?_, rfl, rfl, rfl⟩
  rw [clause_garbage hg]
  split
  · exact Or.inr rfl
  · exact Or.inl rfl

theorem stable_unit {x : Nat} {s : State} {u : Nat} (h : u / 2 ≠ x / 2) : Stable x s (s.learnedUnit u) := by
  refine ⟨Nat.le_refl _, fun _ _ => Or.inl rfl, ?_, rfl, rfl⟩
  rw [values_learned, if_neg, if_neg]
  · rintro rfl; exact h (neg_div u).symm
  · rintro rfl; exact h rfl

theorem stable_new {x : Nat} {s : State} (c : List Nat) : Stable x s (s.newClause c false) := by
  refine ⟨?_, fun r hr => ?_, rfl, rfl, rfl⟩
  · show _ ≤ (s.arena ++ _).length
    simp
  · rw [clause_new, if_neg (by omega)]; exact Or.inl rfl

/-! ## Flushing occurrences -/

theorem flushOccurrences_spec {orig : List (List Nat)} (o : FastOptions) {x lit : Nat} :
    ∀ (rs : List Nat) (n : Nat) {s : State}, Inv orig none s →
    (∀ r ∈ rs, (s.clause r).garbage = false → lit ∈ (s.clause r).lits) →
    Step orig s (s.flushOccurrences o lit rs n).1 ∧ Stable x s (s.flushOccurrences o lit rs n).1 ∧
      (s.flushOccurrences o lit rs n).1.inconsistent = s.inconsistent
  | [], n, s, h, _ => ⟨.refl h, .refl _ _, rfl⟩
  | r :: rs, n, s, h, hrs => by
    have hrs' := fun k hk => hrs k (List.mem_cons_of_mem _ hk)
    have go := fun m => flushOccurrences_spec o (x := x) rs m h hrs'
    have done : Step orig s s ∧ Stable x s s ∧ s.inconsistent = s.inconsistent := ⟨.refl h, .refl _ _, rfl⟩
    have gone : ∀ m, Step orig s (s.markGarbage r) → (s.clause r).garbage = false →
        Step orig s ((s.markGarbage r).flushOccurrences o lit rs m).1 ∧
        Stable x s ((s.markGarbage r).flushOccurrences o lit rs m).1 ∧
        ((s.markGarbage r).flushOccurrences o lit rs m).1.inconsistent = s.inconsistent := by
      intro m st hg
      obtain ⟨i1, i2, i3⟩ := flushOccurrences_spec o (x := x) rs m st.inv (fun k hk => by
        rw [clause_garbage (clause_lt hg)]
        split
        · intro e; cases e
        · exact hrs' k hk)
      exact ⟨st.trans i1, (stable_garbage (clause_lt hg)).trans i2, i3⟩
    unfold State.flushOccurrences
    cases ho : s.binaryOther lit r with
    | some other =>
      dsimp only
      split
      · exact go _
      · split
        · exact done
        · exact go _
    | none =>
      dsimp only
      split
      · exact go _
      · rename_i hg
        have hg : (s.clause r).garbage = false := by simpa using hg
        split
        · exact done
        · split
          · rename_i hs
            obtain ⟨l, hl, hv⟩ := List.any_eq_true.1 hs
            have st := Step.satisfied h hg hl (by simpa using hv)
            split
            · exact ⟨st, stable_garbage (clause_lt hg), rfl⟩
            · exact gone _ st hg
          · split
            · rename_i hs
              have hlen : (s.clause r).lits.length ≠ 2 := by
                intro e
                have hmem := hrs r (by simp) hg
                unfold State.binaryOther at ho
                rw [if_pos e] at ho
                have hall := List.find?_eq_none.1 ho
                match hc : (s.clause r).lits, e with
                | [p, q], _ =>
                  have hn := h.struct.nodup r hg
                  rw [hc] at hn hall
                  have h1 := hall p (by simp)
                  have h2 := hall q (by simp)
                  simp at h1 h2
                  rw [h1, h2] at hn
                  simp at hn
              exact gone _ (.subsumed h hg (fastSubsumed_spec hlen (Bool.and_eq_true_iff.1 hs).2)) hg
            · split
              · exact done
              · exact go _

/-! ## Resolvents -/

theorem Resolvent.symm {s : State} {x : Nat} {c d r : List Nat} (h : Resolvent s x c d r) :
    Resolvent s (Spec.neg x) d c r :=
  ⟨h.nodup, h.taut, h.zero, fun l hl => ⟨(h.from_ l hl).1.symm, (h.from_ l hl).2.2, by
    rw [neg_neg]; exact (h.from_ l hl).2.1⟩, h.second, by rw [neg_neg]; exact h.first⟩

theorem Resolvent.perm {s : State} {x : Nat} {c d r r' : List Nat} (h : Resolvent s x c d r)
    (hn : r'.Nodup) (hm : ∀ l, l ∈ r' ↔ l ∈ r) : Resolvent s x c d r' :=
  ⟨hn, fun l hl hl' => h.taut l ((hm _).1 hl) ((hm _).1 hl'), fun l hl => h.zero l ((hm _).1 hl),
    fun l hl => h.from_ l ((hm _).1 hl), fun l hl hne => (h.first l hl hne).imp (hm _).2 id,
    fun l hl hne => (h.second l hl hne).imp (hm _).2 id⟩

theorem resolvent_mem {s : State} {x : Nat} {c d r : List Nat} (hn : r.Nodup) (hx : x ∈ c)
    (hx' : Spec.neg x ∈ d) (hct : ∀ l ∈ c, Spec.neg l ∉ c) (hdt : ∀ l ∈ d, Spec.neg l ∉ d)
    (hcd : ∀ l ∈ c, l ≠ x → Spec.neg l ∉ d)
    (hc : ∀ l ∈ c, l ≠ x → s.values l ≤ 0) (hd : ∀ l ∈ d, l ≠ Spec.neg x → s.values l ≤ 0)
    (hm : ∀ l, l ∈ r ↔ ((l ∈ c ∧ l ≠ x) ∨ (l ∈ d ∧ l ≠ Spec.neg x)) ∧ ¬ s.values l < 0) :
    Resolvent s x c d r := by
  refine ⟨hn, fun l hl hl' => ?_, fun l hl => ?_, fun l hl => ?_, fun l hl hne => ?_, fun l hl hne => ?_⟩
  · obtain ⟨h1, _⟩ := (hm _).1 hl
    obtain ⟨h2, _⟩ := (hm _).1 hl'
    rcases h1 with h1 | h1 <;> rcases h2 with h2 | h2
    · exact hct l h1.1 h2.1
    · exact hcd l h1.1 h1.2 h2.1
    · exact hcd _ h2.1 h2.2 (by rw [neg_neg]; exact h1.1)
    · exact hdt l h1.1 h2.1
  · obtain ⟨h1, h2⟩ := (hm _).1 hl
    have : s.values l ≤ 0 := by
      rcases h1 with h1 | h1
      · exact hc l h1.1 h1.2
      · exact hd l h1.1 h1.2
    omega
  · obtain ⟨h1, _⟩ := (hm _).1 hl
    rcases h1 with h1 | h1
    · refine ⟨Or.inl h1.1, h1.2, ?_⟩
      rintro rfl; exact hct x hx h1.1
    · refine ⟨Or.inr h1.1, ?_, h1.2⟩
      rintro rfl; exact hdt l h1.1 hx'
  · by_cases h : s.values l < 0
    · exact Or.inr h
    · exact Or.inl ((hm _).2 ⟨Or.inl ⟨hl, hne⟩, h⟩)
  · by_cases h : s.values l < 0
    · exact Or.inr h
    · exact Or.inl ((hm _).2 ⟨Or.inr ⟨hl, hne⟩, h⟩)

/-- What is known of a pair of antecedents. -/
inductive PairCase (s : State) (x c d : Nat) : Walk → Prop
  | tautological : (∃ l ∈ (s.clause c).lits, l ≠ x ∧ Spec.neg l ∈ (s.clause d).lits ∧ Spec.neg l ≠ Spec.neg x) →
      PairCase s x c d .tautological
  | satisfied : ((∃ l ∈ (s.clause c).lits, 0 < s.values l) ∨ ∃ l ∈ (s.clause d).lits, 0 < s.values l) →
      PairCase s x c d .satisfied
  | lits {R : List Nat} : Resolvent s x (s.clause c).lits (s.clause d).lits R → PairCase s x c d (.lits R)

/-- Two live clauses with the two literals. -/
structure Ante (s : State) (x c d : Nat) : Prop where
  c1 : (s.clause c).garbage = false
  c2 : (s.clause c).redundant = false
  c3 : x ∈ (s.clause c).lits
  d1 : (s.clause d).garbage = false
  d2 : (s.clause d).redundant = false
  d3 : Spec.neg x ∈ (s.clause d).lits

theorem Ante.symm {s : State} {x c d : Nat} (h : Ante s x c d) : Ante s (Spec.neg x) d c :=
  ⟨h.d1, h.d2, h.d3, h.c1, h.c2, by rw [neg_neg]; exact h.c3⟩

theorem fastBinaries_spec {orig : List (List Nat)} {s : State} (h : Struct orig s) {x c d a b : Nat}
    (ha : Ante s x c d) (hca : s.binaryOther x c = some a) (hdb : s.binaryOther (Spec.neg x) d = some b) :
    PairCase s x c d (s.fastBinaries a b) := by
  obtain ⟨a1, a2, a3⟩ := binaryOther_some hca
  obtain ⟨b1, b2, b3⟩ := binaryOther_some hdb
  have mc : ∀ {l}, l ∈ (s.clause c).lits ↔ l = x ∨ l = a := fun {l} =>
    ⟨binary_lits a1 ha.c3 a2 a3, fun e => e.elim (fun e => e ▸ ha.c3) fun e => e ▸ a2⟩
  have md : ∀ {l}, l ∈ (s.clause d).lits ↔ l = Spec.neg x ∨ l = b := fun {l} =>
    ⟨binary_lits b1 ha.d3 b2 b3, fun e => e.elim (fun e => e ▸ ha.d3) fun e => e ▸ b2⟩
  have hct := h.taut c ha.c1
  have hdt := h.taut d ha.d1
  have hax : a ≠ Spec.neg x := by rintro rfl; exact hct x ha.c3 a2
  have hbx : b ≠ x := by rintro rfl; exact hdt b b2 ha.d3
  unfold State.fastBinaries
  by_cases h1 : a = Spec.neg b
  · rw [if_pos h1]
    refine .tautological ⟨a, a2, a3, ?_, ?_⟩
    · rw [h1, neg_neg]; exact b2
    · rw [h1, neg_neg]; exact b3
  rw [if_neg h1]
  by_cases h2 : s.values a > 0
  · rw [if_pos h2]; exact .satisfied (Or.inl ⟨a, a2, h2⟩)
  rw [if_neg h2]
  by_cases h3 : s.values b > 0
  · rw [if_pos h3]; exact .satisfied (Or.inr ⟨b, b2, h3⟩)
  rw [if_neg h3]
  have key : ∀ R : List Nat, R.Nodup → (∀ l, l ∈ R ↔ (l = a ∨ l = b) ∧ ¬ s.values l < 0) →
      PairCase s x c d (.lits R) := by
    intro R hn hm
    refine .lits (resolvent_mem hn ha.c3 ha.d3 hct hdt ?_ ?_ ?_ ?_)
    · intro l hl hne
      rcases mc.1 hl with rfl | rfl
      · exact absurd rfl hne
      · rw [md]
        rintro (e | e)
        · exact a3 (neg_inj e)
        · exact h1 (by rw [← e, neg_neg])
    · intro l hl hne
      rcases mc.1 hl with rfl | rfl
      · exact absurd rfl hne
      · omega
    · intro l hl hne
      rcases md.1 hl with rfl | rfl
      · exact absurd rfl hne
      · omega
    · intro l
      rw [hm, mc, md]
      constructor
      · rintro ⟨rfl | rfl, h⟩
        · exact ⟨Or.inl ⟨Or.inr rfl, a3⟩, h⟩
        · exact ⟨Or.inr ⟨Or.inr rfl, b3⟩, h⟩
      · rintro ⟨⟨h1 | h1, h2⟩ | ⟨h1 | h1, h2⟩, h⟩
        · exact absurd h1 h2
        · exact ⟨Or.inl h1, h⟩
        · exact absurd h1 h2
        · exact ⟨Or.inr h1, h⟩
  by_cases h4 : s.values a < 0 ∧ s.values b < 0
  · rw [if_pos h4]
    refine key [] (by simp) fun l => ⟨fun h => (by cases h), ?_⟩
    rintro ⟨rfl | rfl, h⟩
    · exact absurd h4.1 h
    · exact absurd h4.2 h
  rw [if_neg h4]
  by_cases h5 : s.values a < 0
  · rw [if_pos h5]
    refine key [b] (by simp) fun l => ?_
    rw [List.mem_singleton]
    constructor
    · rintro rfl; exact ⟨Or.inr rfl, fun h => h4 ⟨h5, h⟩⟩
    · rintro ⟨rfl | rfl, h⟩
      · exact absurd h5 h
      · rfl
  rw [if_neg h5]
  by_cases h6 : s.values b < 0
  · rw [if_pos h6]
    refine key [a] (by simp) fun l => ?_
    rw [List.mem_singleton]
    constructor
    · rintro rfl; exact ⟨Or.inl rfl, h5⟩
    · rintro ⟨rfl | rfl, h⟩
      · rfl
      · exact absurd h6 h
  rw [if_neg h6]
  by_cases h7 : a = b
  · rw [if_pos h7]
    refine key [a] (by simp) fun l => ?_
    rw [List.mem_singleton]
    constructor
    · rintro rfl; exact ⟨Or.inl rfl, h5⟩
    · rintro ⟨rfl | rfl, h⟩
      · rfl
      · exact h7.symm
  · rw [if_neg h7]
    refine key [a, b] (by simp [h7]) fun l => ?_
    simp only [List.mem_cons, List.not_mem_nil, or_false]
    constructor
    · rintro (rfl | rfl)
      · exact ⟨Or.inl rfl, h5⟩
      · exact ⟨Or.inr rfl, h6⟩
    · rintro ⟨h, _⟩; exact h

theorem fastLarge_spec (s : State) (pivot lit : Nat) : ∀ (c acc : List Nat),
    (s.fastLarge pivot lit c acc = .satisfied → ∃ l ∈ c, 0 < s.values l) ∧
    (s.fastLarge pivot lit c acc = .tautological → Spec.neg lit ∈ c ∧ Spec.neg lit / 2 ≠ pivot) ∧
    ∀ R, s.fastLarge pivot lit c acc = .lits R →
      R = acc ++ c.filter (fun o => o / 2 ≠ pivot ∧ o ≠ lit ∧ ¬ s.values o < 0) ∧
      ∀ l ∈ c, l / 2 ≠ pivot → l ≠ lit → l ≠ Spec.neg lit ∧ s.values l ≤ 0
  | [], acc => ⟨fun h => (by cases h), fun h => (by cases h), fun R h => by cases h; simp⟩
  | other :: rest, acc => by
    have ih := fun acc => fastLarge_spec s pivot lit rest acc
    have skip : ∀ (_ : other / 2 = pivot ∨ other = lit ∨ (other ≠ Spec.neg lit ∧ s.values other < 0)),
        (s.fastLarge pivot lit rest acc = .satisfied → ∃ l ∈ other :: rest, 0 < s.values l) ∧
        (s.fastLarge pivot lit rest acc = .tautological → Spec.neg lit ∈ other :: rest ∧ Spec.neg lit / 2 ≠ pivot) ∧
        ∀ R, s.fastLarge pivot lit rest acc = .lits R →
          R = acc ++ (other :: rest).filter (fun o => o / 2 ≠ pivot ∧ o ≠ lit ∧ ¬ s.values o < 0) ∧
          ∀ l ∈ other :: rest, l / 2 ≠ pivot → l ≠ lit → l ≠ Spec.neg lit ∧ s.values l ≤ 0 := by
      intro hs
      obtain ⟨i1, i2, i3⟩ := ih acc
      refine ⟨fun h => ?_, fun h => ?_, fun R h => ?_⟩
      · obtain ⟨l, l1, l2⟩ := i1 h
        exact ⟨l, List.mem_cons_of_mem _ l1, l2⟩
      · obtain ⟨l1, l2⟩ := i2 h
        exact ⟨List.mem_cons_of_mem _ l1, l2⟩
      · obtain ⟨j1, j2⟩ := i3 R h
        constructor
        · rw [List.filter_cons, if_neg, j1]
          simp only [decide_eq_true_eq]
          rintro ⟨k1, k2, k3⟩
          rcases hs with hs | hs | hs
          · exact k1 hs
          · exact k2 hs
          · exact k3 hs.2
        · intro l hl k1 k2
          rcases List.mem_cons.1 hl with rfl | hl
          · rcases hs with hs | hs | hs
            · exact absurd hs k1
            · exact absurd hs k2
            · exact ⟨hs.1, by omega⟩
          · exact j2 l hl k1 k2
    unfold State.fastLarge
    by_cases h1 : other / 2 = pivot
    · rw [if_pos h1]; exact skip (Or.inl h1)
    rw [if_neg h1]
    by_cases h2 : other = lit
    · rw [if_pos h2]; exact skip (Or.inr (Or.inl h2))
    rw [if_neg h2]
    by_cases h3 : other = Spec.neg lit
    · rw [if_pos h3]
      exact ⟨fun h => (by cases h), fun _ => ⟨by rw [← h3]; simp, by rw [← h3]; exact h1⟩, fun R h => (by cases h)⟩
    rw [if_neg h3]
    by_cases h4 : s.values other < 0
    · rw [if_pos h4]; exact skip (Or.inr (Or.inr ⟨h3, h4⟩))
    rw [if_neg h4]
    by_cases h5 : s.values other > 0
    · rw [if_pos h5]
      exact ⟨fun _ => ⟨other, by simp, h5⟩, fun h => (by cases h), fun R h => (by cases h)⟩
    rw [if_neg h5]
    obtain ⟨i1, i2, i3⟩ := ih (acc ++ [other])
    refine ⟨fun h => ?_, fun h => ?_, fun R h => ?_⟩
    · obtain ⟨l, l1, l2⟩ := i1 h
      exact ⟨l, List.mem_cons_of_mem _ l1, l2⟩
    · obtain ⟨l1, l2⟩ := i2 h
      exact ⟨List.mem_cons_of_mem _ l1, l2⟩
    · obtain ⟨j1, j2⟩ := i3 R h
      constructor
      · rw [List.filter_cons, if_pos (by simp [h1, h2, h4]), j1]; simp
      · intro l hl k1 k2
        rcases List.mem_cons.1 hl with rfl | hl
        · exact ⟨h3, by omega⟩
        · exact j2 l hl k1 k2

theorem var_ne {l x : Nat} : l / 2 ≠ x / 2 ↔ l ≠ x ∧ l ≠ Spec.neg x :=
  ⟨fun h => ⟨by rintro rfl; exact h rfl, by rintro rfl; exact h (neg_div x)⟩, fun h => ne_var h.1 h.2⟩

/-- Large clause `c` with `x` and the binary clause `d` with the other literal `lit`. -/
theorem fastLarge_pair {orig : List (List Nat)} {s : State} (h : Struct orig s) {x c d lit : Nat}
    (ha : Ante s x c d) (hd : s.binaryOther (Spec.neg x) d = some lit) (hv : ¬ s.values lit > 0) :
    PairCase s x c d (s.fastLarge (x / 2) lit (s.clause c).lits (if s.values lit = 0 then [lit] else [])) := by
  obtain ⟨b1, b2, b3⟩ := binaryOther_some hd
  have md : ∀ {l}, l ∈ (s.clause d).lits ↔ l = Spec.neg x ∨ l = lit := fun {l} =>
    ⟨binary_lits b1 ha.d3 b2 b3, fun e => e.elim (fun e => e ▸ ha.d3) fun e => e ▸ b2⟩
  have hct := h.taut c ha.c1
  have hdt := h.taut d ha.d1
  have hlx : lit ≠ x := by rintro rfl; exact hdt lit b2 ha.d3
  have vx : ∀ {l}, l ∈ (s.clause c).lits → (l / 2 ≠ x / 2 ↔ l ≠ x) := fun {l} hl => by
    rw [var_ne]
    refine ⟨fun h => h.1, fun h => ⟨h, ?_⟩⟩
    rintro rfl; exact hct x ha.c3 hl
  obtain ⟨i1, i2, i3⟩ := fastLarge_spec s (x / 2) lit (s.clause c).lits (if s.values lit = 0 then [lit] else [])
  cases hw : s.fastLarge (x / 2) lit (s.clause c).lits (if s.values lit = 0 then [lit] else []) with
  | satisfied => exact .satisfied (Or.inl (i1 hw))
  | tautological =>
    obtain ⟨j1, j2⟩ := i2 hw
    refine .tautological ⟨Spec.neg lit, j1, (var_ne.1 j2).1, ?_, ?_⟩
    · rw [neg_neg]; exact b2
    · rw [neg_neg]; exact b3
  | lits R =>
    obtain ⟨rfl, j2⟩ := i3 R hw
    refine .lits (resolvent_mem ?_ ha.c3 ha.d3 hct hdt ?_ ?_ ?_ ?_)
    · rw [List.nodup_append]
      refine ⟨by split <;> simp, (h.nodup c ha.c1).filter _, ?_⟩
      intro a h1 b h2
      have hb := (List.mem_filter.1 h2).2
      simp only [decide_eq_true_eq] at hb
      split at h1
      · rw [List.mem_singleton.1 h1]; exact fun e => hb.2.1 e.symm
      · cases h1
    · intro l hl hne
      rw [md]
      rintro (e | e)
      · exact hne (neg_inj e)
      · by_cases hl' : l = lit
        · subst hl'; exact neg_ne l e
        · exact (j2 l hl ((vx hl).2 hne) hl').1 (by rw [← e, neg_neg])
    · intro l hl hne
      by_cases hl' : l = lit
      · subst hl'; omega
      · exact (j2 l hl ((vx hl).2 hne) hl').2
    · intro l hl hne
      rcases md.1 hl with rfl | rfl
      · exact absurd rfl hne
      · omega
    · intro l
      rw [List.mem_append, List.mem_filter]
      simp only [decide_eq_true_eq]
      constructor
      · rintro (h1 | ⟨h1, h2, h3, h4⟩)
        · split at h1
          · rename_i hz
            rw [List.mem_singleton] at h1
            subst h1
            exact ⟨Or.inr ⟨b2, b3⟩, by omega⟩
          · cases h1
        · exact ⟨Or.inl ⟨h1, (vx h1).1 h2⟩, h4⟩
      · rintro ⟨h1, h4⟩
        by_cases e : l = lit
        · subst e
          left; rw [if_pos (by omega)]; simp
        · rcases h1 with h1 | h1
          · exact Or.inr ⟨h1.1, (vx h1.1).2 h1.2, e, h4⟩
          · rcases md.1 h1.1 with e' | e'
            · exact absurd e' h1.2
            · exact absurd e' e

/-- Two large clauses. -/
theorem walk_pair {orig : List (List Nat)} {s : State} (h : Struct orig s) {x c d : Nat}
    (ha : Ante s x c d)
    (hs : ¬ ((s.clause c).lits.any fun other => decide (other / 2 ≠ x / 2) && decide (s.values other > 0)) = true) :
    (∀ new, s.walk x (s.clause c).lits (s.clause d).lits [] = .lits new →
      Resolvent s x (s.clause c).lits (s.clause d).lits
        ((s.clause c).lits.filter (fun other => other / 2 ≠ x / 2 ∧ ¬ s.values other < 0) ++ new)) ∧
    (s.walk x (s.clause c).lits (s.clause d).lits [] = .satisfied → ∃ l ∈ (s.clause d).lits, 0 < s.values l) ∧
    (s.walk x (s.clause c).lits (s.clause d).lits [] = .tautological → ∃ l ∈ (s.clause c).lits, l ≠ x ∧
      Spec.neg l ∈ (s.clause d).lits ∧ Spec.neg l ≠ Spec.neg x) := by
  have hct := h.taut c ha.c1
  have vx : ∀ {l}, l ∈ (s.clause c).lits → (l / 2 ≠ x / 2 ↔ l ≠ x) := fun {l} hl => by
    rw [var_ne]
    refine ⟨fun h => h.1, fun h => ⟨h, ?_⟩⟩
    rintro rfl; exact hct x ha.c3 hl
  obtain ⟨w1, w2, w3⟩ := walk_spec s x (s.clause c).lits (s.clause d).lits []
  refine ⟨fun new hw => ?_, w1, fun hw => ?_⟩
  · have R := resolvent_of (h.nodup c ha.c1) (h.nodup d ha.d1) hct (h.taut d ha.d1) ha.c3 ha.d3 (fun o ho hne => by
      refine Classical.byContradiction fun hv => hs (List.any_eq_true.2 ⟨o, ho, ?_⟩)
      have := (vx ho).2 hne
      simp only [ne_eq, Bool.and_eq_true, decide_eq_true_eq]
      exact ⟨this, by omega⟩) hw
    have e : (s.clause c).lits.filter (fun other => other / 2 ≠ x / 2 ∧ ¬ s.values other < 0) =
        (s.clause c).lits.filter (fun o => o ≠ x ∧ ¬ s.values o < 0) := by
      refine List.filter_congr fun o ho => ?_
      have := vx ho
      simp only [decide_eq_decide]
      rw [this]
    rw [e]
    have hp : List.Perm ((s.clause c).lits.filter (fun o => o ≠ x ∧ ¬ s.values o < 0) ++ new)
      (new ++ (s.clause c).lits.filter (fun o => o ≠ x ∧ ¬ s.values o < 0)) := List.perm_append_comm
    exact R.perm (hp.nodup_iff.2 R.nodup) fun l => hp.mem_iff
  · obtain ⟨o, o1, o2, o3, o4⟩ := w2 hw
    exact ⟨Spec.neg o, o3, o4, by rw [neg_neg]; exact o1, by rw [neg_neg]; exact o2⟩

/-! ## Adding the resolvents -/

/-- Going from one state to the next while adding resolvents. -/
structure FStep (x : Nat) (P N : List Nat) (s s' : State) : Prop where
  holds : ∀ σ, Holds σ s' x [] → Holds σ s x []
  lits : ∀ r, (r ∈ P ∨ r ∈ N) → (s'.clause r).lits = (s.clause r).lits

theorem FStep.refl (x : Nat) (P N : List Nat) (s : State) : FStep x P N s s := ⟨fun _ h => h, fun _ _ => rfl⟩

theorem FStep.trans {x : Nat} {P N : List Nat} {a b c : State} (h : FStep x P N a b) (h' : FStep x P N b c) :
    FStep x P N a c :=
  ⟨fun σ hσ => h.holds σ (h'.holds σ hσ), fun r hr => (h'.lits r hr).trans (h.lits r hr)⟩

theorem FStep.of {x : Nat} {P N : List Nat} {s s' : State} (h : GStep x s [] s' []) : FStep x P N s s' :=
  ⟨h.holds, fun r _ => h.frame.lits r⟩

theorem FStep.symm {x : Nat} {P N : List Nat} {s s' : State} (h : FStep x P N s s') :
    FStep (Spec.neg x) N P s s' :=
  ⟨fun σ hσ => holds_symm (h.holds σ (holds_symm_iff.1 hσ)), fun r hr => h.lits r hr.symm⟩

theorem Done.fstep {x : Nat} {P N : List Nat} {s s' : State} {r q : Nat}
    (h : Done s x [] r q) (h' : FStep x P N s s') (hr : r ∈ P) (hq : q ∈ N) : Done s' x [] r q := by
  intro σ hσ
  rw [h'.lits r (Or.inl hr), h'.lits q (Or.inr hq)]
  exact h σ (h'.holds σ hσ)

theorem Resolvent.rup {orig : List (List Nat)} {s : State} (h : Struct orig s) {x c d : Nat}
    (ha : Ante s x c d) {R : List Nat} (hR : Resolvent s x (s.clause c).lits (s.clause d).lits R) :
    RUP s.irr R :=
  rup_resolvent (clause_irr ha.c1 ha.c2) (clause_irr ha.d1 ha.d2) ha.c3
    (fun m hm hne => (hR.first m hm hne).imp id h.neg_irr)
    fun m hm hne => (hR.second m hm hne).imp id h.neg_irr

theorem Resolvent.lit {orig : List (List Nat)} {s : State} (h : Struct orig s) {x c d : Nat}
    (ha : Ante s x c d) {R : List Nat} (hR : Resolvent s x (s.clause c).lits (s.clause d).lits R) {l : Nat}
    (hl : l ∈ R) : s.InRange l ∧ s.removed (l / 2) = false ∧ l / 2 ≠ x / 2 := by
  obtain ⟨f1, f2, f3⟩ := hR.from_ l hl
  rcases f1 with f1 | f1
  · exact ⟨h.clause c ha.c1 l f1, h.removed c ha.c1 ha.c2 l f1, ne_var f2 f3⟩
  · exact ⟨h.clause d ha.d1 l f1, h.removed d ha.d1 ha.d2 l f1, ne_var f2 f3⟩

theorem GInv.addResolvent {orig : List (List Nat)} {x : Nat} {P N : List Nat} {s : State}
    (h : GInv orig none x P N s []) {c d : Nat} (ha : Ante s x c d) {R : List Nat}
    (hR : Resolvent s x (s.clause c).lits (s.clause d).lits R) :
    GInv orig none x P N (s.addResolvent R) [] ∧ FStep x P N s (s.addResolvent R) ∧
      ((s.addResolvent R).inconsistent = false → ∀ σ, Holds σ (s.addResolvent R) x [] → SatClause σ R) := by
  have hS := h.inv.struct
  have hrup := rup_formula (hR.rup hS ha)
  match R, hR, hrup with
  | [], hR, hrup =>
    obtain ⟨k1, k2⟩ := h.empty hrup
    exact ⟨k1, .of k2, fun e => (by cases e)⟩
  | [u], hR, hrup =>
    obtain ⟨l1, l2, l3⟩ := hR.lit hS ha (l := u) (by simp)
    obtain ⟨k1, k2⟩ := h.unit' (hR.zero u (by simp)) l1 l2 l3 hrup
    exact ⟨k1, ⟨k2, fun _ _ => rfl⟩, fun _ σ hσ =>
      ⟨u, by simp, hσ.1 u (List.mem_append_right _ (by simp))⟩⟩
  | a :: b :: R, hR, hrup =>
    obtain ⟨k1, k2, k3⟩ := h.new (c := a :: b :: R) (by simp) hR.nodup hR.taut
      (fun l hl => ⟨(hR.lit hS ha hl).1, (hR.lit hS ha hl).2.1⟩) (fun l hl => (hR.lit hS ha hl).2.2) hrup
    exact ⟨k1, ⟨fun σ hσ => (k2 σ hσ).1, fun r hr => by
      show ((s.newClause (a :: b :: R) false).clause r).lits = _
      rw [k3 r hr]⟩, fun _ σ hσ => (k2 σ hσ).2⟩

theorem done_of {s : State} {x c d : Nat} {w : Walk} (h : PairCase s x c d w) : w = .tautological →
    ∀ res, Done s x res c d := by
  rintro rfl res σ _
  cases h with
  | tautological h =>
    obtain ⟨l, l1, l2, l3, l4⟩ := h
    rcases litTrue_or_neg σ l with ht | ht
    · exact Or.inl ⟨l, mem_except.2 ⟨l1, l2⟩, ht⟩
    · exact Or.inr ⟨_, mem_except.2 ⟨l3, l4⟩, ht⟩

theorem GInv.doneSat {orig : List (List Nat)} {x : Nat} {P N : List Nat} {s : State} {c d : Nat}
    (h : GInv orig none x P N s [])
    (hs : (∃ l ∈ (s.clause c).lits, 0 < s.values l) ∨ ∃ l ∈ (s.clause d).lits, 0 < s.values l) :
    Done s x [] c d := by
  intro σ hσ
  rcases hs with ⟨l, l1, l2⟩ | ⟨l, l1, l2⟩
  · exact Or.inl (h.true_side hσ l1 l2).1
  · exact Or.inr (h.true_side hσ l1 l2).2

/-- One pair of antecedents is resolved. -/
structure Resolves (orig : List (List Nat)) (x : Nat) (P N : List Nat) (c d : Nat) (s s' : State) : Prop where
  inv : GInv orig none x P N s' []
  step : FStep x P N s s'
  done : s'.inconsistent = false → Done s' x [] c d

theorem Resolves.symm {orig : List (List Nat)} {x : Nat} {P N : List Nat} {c d : Nat} {s s' : State}
    (h : Resolves orig x P N c d s s') : Resolves orig (Spec.neg x) N P d c s s' :=
  ⟨h.inv.symm, h.step.symm, fun hi => by
    have := h.done hi
    rw [← neg_neg x] at this
    exact this.symm⟩

theorem Resolves.stay {orig : List (List Nat)} {x : Nat} {P N : List Nat} {c d : Nat} {s : State}
    (h : GInv orig none x P N s []) (hd : Done s x [] c d) : Resolves orig x P N c d s s :=
  ⟨h, .refl _ _ _ _, fun _ => hd⟩

theorem GInv.resolves {orig : List (List Nat)} {x : Nat} {P N : List Nat} {s : State}
    (h : GInv orig none x P N s []) {c d : Nat} (hc : c ∈ P) (hd : d ∈ N) (ha : Ante s x c d) {R : List Nat}
    (hR : Resolvent s x (s.clause c).lits (s.clause d).lits R) :
    Resolves orig x P N c d s (s.addResolvent R) := by
  obtain ⟨k1, k2, k3⟩ := h.addResolvent ha hR
  refine ⟨k1, k2, fun hi σ hσ => ?_⟩
  obtain ⟨l, l1, l2⟩ := k3 hi σ hσ
  obtain ⟨f1, f2, f3⟩ := hR.from_ l l1
  rw [k2.lits c (Or.inl hc), k2.lits d (Or.inr hd)]
  rcases f1 with f1 | f1
  · exact Or.inl ⟨l, mem_except.2 ⟨f1, f2⟩, l2⟩
  · exact Or.inr ⟨l, mem_except.2 ⟨f1, f3⟩, l2⟩

/-- A binary clause which has been removed is satisfied. -/
theorem GInv.binary_live {orig : List (List Nat)} {x : Nat} {P N : List Nat} {s : State}
    (h : GInv orig none x P N s []) {c a : Nat} (hc : c ∈ P) (hb : s.binaryOther x c = some a) :
    (s.clause c).garbage = false ∨ 0 < s.values a := by
  obtain ⟨b1, b2, b3⟩ := binaryOther_some hb
  cases hg : (s.clause c).garbage with
  | false => exact Or.inl rfl
  | true =>
    obtain ⟨o, o1, o2⟩ := h.pos.sat c hc hg
    rcases binary_lits b1 (h.pos.mem c hc) b2 b3 o1 with rfl | rfl
    · rw [h.val] at o2; omega
    · exact Or.inr o2

theorem GInv.doBinaryLarge {orig : List (List Nat)} {x : Nat} {P N : List Nat} {s : State}
    (h : GInv orig none x P N s []) {c d lit : Nat} (hc : c ∈ P) (hd : d ∈ N)
    (hb : s.binaryOther (Spec.neg x) d = some lit) :
    Resolves orig x P N c d s (s.doBinaryLarge (x / 2) lit c) := by
  obtain ⟨b1, b2, b3⟩ := binaryOther_some hb
  unfold State.doBinaryLarge
  by_cases hg : (s.clause c).garbage = true
  · rw [if_pos hg]
    exact .stay h (h.doneSat (Or.inl (h.pos.sat c hc hg)))
  · rw [if_neg hg]
    by_cases hv : s.values lit > 0
    · rw [if_pos hv]
      exact .stay h (h.doneSat (Or.inr ⟨lit, b2, hv⟩))
    · rw [if_neg hv]
      have hdl : (s.clause d).garbage = false := by
        rcases h.symm.binary_live hd hb with h1 | h1
        · exact h1
        · exact absurd h1 hv
      have ha : Ante s x c d := ⟨by simpa using hg, h.pos.irr c hc, h.pos.mem c hc, hdl, h.neg.irr d hd, h.neg.mem d hd⟩
      have hp := fastLarge_pair h.inv.struct ha hb hv
      cases hw : s.fastLarge (x / 2) lit (s.clause c).lits (if s.values lit = 0 then [lit] else []) with
      | satisfied =>
        obtain ⟨l, l1, l2⟩ := (fastLarge_spec s (x / 2) lit _ _).1 hw
        obtain ⟨k1, k2⟩ := h.garbage ha.c1 (Or.inl ha.c3) l1 l2
        exact ⟨k1, .of k2, fun _ => (h.doneSat (Or.inl ⟨l, l1, l2⟩)).step k2⟩
      | tautological => exact .stay h (done_of hp hw _)
      | lits R =>
        rw [hw] at hp
        cases hp with
        | lits hR => exact h.resolves hc hd ha hR

theorem GInv.doLargeLarge {orig : List (List Nat)} {x : Nat} {P N : List Nat} {s : State}
    (h : GInv orig none x P N s []) {c d : Nat} (hc : c ∈ P) (hd : d ∈ N) (hx : 2 * (x / 2) = x) :
    Resolves orig x P N c d s (s.doLargeLarge (x / 2) c d) := by
  unfold State.doLargeLarge
  by_cases hg : (s.clause c).garbage = true
  · rw [if_pos hg]
    exact .stay h (h.doneSat (Or.inl (h.pos.sat c hc hg)))
  rw [if_neg hg]
  by_cases hg' : (s.clause d).garbage = true
  · rw [if_pos hg']
    exact .stay h (h.doneSat (Or.inr (h.neg.sat d hd hg')))
  rw [if_neg hg']
  have ha : Ante s x c d := ⟨by simpa using hg, h.pos.irr c hc, h.pos.mem c hc, by simpa using hg',
    h.neg.irr d hd, h.neg.mem d hd⟩
  by_cases hs : ((s.clause c).lits.any fun other => decide (other / 2 ≠ x / 2) && decide (s.values other > 0)) = true
  · rw [if_pos hs]
    obtain ⟨l, l1, l2⟩ := List.any_eq_true.1 hs
    exact .stay h (h.doneSat (Or.inl ⟨l, l1, by simpa using (Bool.and_eq_true_iff.1 l2).2⟩))
  · rw [if_neg hs, hx]
    obtain ⟨w1, w2, w3⟩ := walk_pair h.inv.struct ha hs
    cases hw : s.walk x (s.clause c).lits (s.clause d).lits [] with
    | satisfied => exact .stay h (h.doneSat (Or.inr (w2 hw)))
    | tautological => exact .stay h (done_of (PairCase.tautological (w3 hw)) rfl _)
    | lits new => exact h.resolves hc hd ha (w1 new hw)

theorem fastBinaries_sat {s : State} {a b : Nat} (h : 0 < s.values a ∨ 0 < s.values b) (R : List Nat) :
    s.fastBinaries a b ≠ .lits R := by
  unfold State.fastBinaries
  by_cases h1 : a = Spec.neg b
  · rw [if_pos h1]; exact fun e => (by cases e)
  rw [if_neg h1]
  by_cases h2 : s.values a > 0
  · rw [if_pos h2]; exact fun e => (by cases e)
  rw [if_neg h2, if_pos (h.resolve_left h2)]
  exact fun e => (by cases e)

theorem GInv.doBinaries {orig : List (List Nat)} {x : Nat} {P N : List Nat} {s : State}
    (h : GInv orig none x P N s []) {c d a b : Nat} (hc : c ∈ P) (hd : d ∈ N)
    (hca : s.binaryOther x c = some a) (hdb : s.binaryOther (Spec.neg x) d = some b) :
    Resolves orig x P N c d s
      (match s.fastBinaries a b with
        | .lits R => s.addResolvent R
        | _ => s) := by
  have hsat : 0 < s.values a ∨ 0 < s.values b → Done s x [] c d := fun hv => h.doneSat (hv.imp
    (fun hv => ⟨a, (binaryOther_some hca).2.1, hv⟩) fun hv => ⟨b, (binaryOther_some hdb).2.1, hv⟩)
  by_cases hv : 0 < s.values a ∨ 0 < s.values b
  · have := fastBinaries_sat hv
    cases hw : s.fastBinaries a b with
    | lits R => exact absurd hw (this R)
    | satisfied => exact .stay h (hsat hv)
    | tautological => exact .stay h (hsat hv)
  · have ha : Ante s x c d := ⟨(h.binary_live hc hca).resolve_right fun e => hv (Or.inl e), h.pos.irr c hc,
      h.pos.mem c hc, (h.symm.binary_live hd hdb).resolve_right fun e => hv (Or.inr e), h.neg.irr d hd, h.neg.mem d hd⟩
    have hp := fastBinaries_spec h.inv.struct ha hca hdb
    cases hw : s.fastBinaries a b with
    | lits R =>
      rw [hw] at hp
      cases hp with
      | lits hR => exact h.resolves hc hd ha hR
    | satisfied =>
      rw [hw] at hp
      cases hp with
      | satisfied hs => exact .stay h (h.doneSat hs)
    | tautological => exact .stay h (done_of hp hw _)

theorem GInv.doResolve {orig : List (List Nat)} {pivot : Nat} {P N : List Nat} {s : State}
    (h : GInv orig none (2 * pivot) P N s []) {c d : Nat} (hc : c ∈ P) (hd : d ∈ N) :
    Resolves orig (2 * pivot) P N c d s (s.doResolve pivot c d) := by
  have e1 : 2 * pivot / 2 = pivot := by omega
  unfold State.doResolve
  cases hca : s.binaryOther (2 * pivot) c with
  | some a =>
    cases hdb : s.binaryOther (Spec.neg (2 * pivot)) d with
    | some b => exact h.doBinaries hc hd hca hdb
    | none =>
      have := h.symm.doBinaryLarge hd hc (by rw [neg_neg]; exact hca)
      rw [neg_div, e1] at this
      have := this.symm
      rw [neg_neg] at this
      exact this
  | none =>
    cases hdb : s.binaryOther (Spec.neg (2 * pivot)) d with
    | some b =>
      have := h.doBinaryLarge hc hd hdb
      rw [e1] at this
      exact this
    | none =>
      have := h.doLargeLarge hc hd (by omega)
      rw [e1] at this
      exact this

theorem GInv.doInner {orig : List (List Nat)} {pivot : Nat} {P N : List Nat} {c : Nat} (hc : c ∈ P) :
    ∀ (ds : List Nat) {s : State}, GInv orig none (2 * pivot) P N s [] → (∀ d ∈ ds, d ∈ N) →
    GInv orig none (2 * pivot) P N (s.doInner pivot c ds) [] ∧ FStep (2 * pivot) P N s (s.doInner pivot c ds) ∧
    ((s.doInner pivot c ds).inconsistent = false → ∀ d ∈ ds, Done (s.doInner pivot c ds) (2 * pivot) [] c d)
  | [], s, h, _ => ⟨h, .refl _ _ _ _, fun _ d hd => (by cases hd)⟩
  | d :: ds, s, h, hds => by
    have hr := h.doResolve hc (hds d (by simp))
    unfold State.doInner
    generalize s.doResolve pivot c d = s1 at hr ⊢
    dsimp only
    cases hi : s1.inconsistent with
    | true =>
      rw [if_pos rfl]
      exact ⟨hr.inv, hr.step, fun e => (by rw [hi] at e; cases e)⟩
    | false =>
      rw [if_neg (by simp)]
      obtain ⟨i1, i2, i3⟩ := GInv.doInner hc ds hr.inv fun k hk => hds k (List.mem_cons_of_mem _ hk)
      refine ⟨i1, hr.step.trans i2, fun e k hk => ?_⟩
      rcases List.mem_cons.1 hk with rfl | hk
      · exact (hr.done hi).fstep i2 hc (hds k (by simp))
      · exact i3 e k hk

theorem GInv.doOuter {orig : List (List Nat)} {pivot : Nat} {P N : List Nat} :
    ∀ (cs : List Nat) {s : State}, GInv orig none (2 * pivot) P N s [] → (∀ c ∈ cs, c ∈ P) →
    GInv orig none (2 * pivot) P N (s.doOuter pivot N cs) [] ∧ FStep (2 * pivot) P N s (s.doOuter pivot N cs) ∧
    ((s.doOuter pivot N cs).inconsistent = false →
      ∀ c ∈ cs, ∀ d ∈ N, Done (s.doOuter pivot N cs) (2 * pivot) [] c d)
  | [], s, h, _ => ⟨h, .refl _ _ _ _, fun _ c hc => (by cases hc)⟩
  | c :: cs, s, h, hcs => by
    obtain ⟨k1, k2, k3⟩ := GInv.doInner (hcs c (by simp)) N h fun d hd => hd
    unfold State.doOuter
    generalize s.doInner pivot c N = s1 at k1 k2 k3 ⊢
    dsimp only
    cases hi : s1.inconsistent with
    | true =>
      rw [if_pos rfl]
      exact ⟨k1, k2, fun e => (by rw [hi] at e; cases e)⟩
    | false =>
      rw [if_neg (by simp)]
      obtain ⟨i1, i2, i3⟩ := GInv.doOuter cs k1 fun k hk => hcs k (List.mem_cons_of_mem _ hk)
      refine ⟨i1, k2.trans i2, fun e k hk d hd => ?_⟩
      rcases List.mem_cons.1 hk with rfl | hk
      · exact (k3 hi d hd).fstep i2 (hcs k (by simp)) hd
      · exact i3 e k hk d hd

/-! ## Removing the clauses -/

theorem pushAll_eliminated (v : Nat) (lit : Nat) : ∀ (c : List Nat) (s : Extend.State),
    c.foldl (fun s other => if lit ≠ other then s.pushLiteral other else s) (s.markEliminated v) =
      (c.foldl (fun s other => if lit ≠ other then s.pushLiteral other else s) s).markEliminated v
  | [], s => rfl
  | o :: c, s => by
    rw [List.foldl_cons, List.foldl_cons]
    split
    · have e : (s.markEliminated v).pushLiteral o = (s.pushLiteral o).markEliminated v := by
        unfold Extend.State.pushLiteral
        have e' : (s.markEliminated v).values = s.values := rfl
        rw [e']
        split <;> rfl
      rw [e]
      exact pushAll_eliminated v lit c (s.pushLiteral o)
    · exact pushAll_eliminated v lit c s

theorem weaken_eliminated (s : State) (v w : Nat) (c : List Nat) :
    (s.markEliminated v).weaken w c = (s.weaken w c).markEliminated v := by
  have : (s.toState.markEliminated v).weakenClause w c = (s.toState.weakenClause w c).markEliminated v :=
    pushAll_eliminated v w c (s.toState.pushWitness w)
  unfold State.weaken State.markEliminated
  simp only [this]

theorem weakenLoop_eliminated (v lit : Nat) (push : Bool) : ∀ (rs : List Nat) (s : State),
    (s.markEliminated v).weakenLoop lit push rs = (s.weakenLoop lit push rs).markEliminated v
  | [], s => rfl
  | r :: rs, s => by
    unfold State.weakenLoop
    have e1 : (s.markEliminated v).clause r = s.clause r := rfl
    have e2 : (s.markEliminated v).values = s.values := rfl
    have e3 : ∀ s : State, (s.markEliminated v).markGarbage r = (s.markGarbage r).markEliminated v := fun _ => rfl
    rw [e1, e2, e3, weaken_eliminated, e3]
    split
    · exact weakenLoop_eliminated v lit push rs s
    · split
      · exact weakenLoop_eliminated v lit push rs _
      · exact weakenLoop_eliminated v lit push rs _

theorem Fine.fastEliminate {orig : List (List Nat)} {s : State} (h : Inv orig none s) {pivot : Nat}
    (hr : pivot < s.exports.length) (hrem : s.removed pivot = false) (hval : s.values (2 * pivot) = 0) :
    Fine orig (s.fastEliminate pivot) := by
  have e1 : 2 * pivot / 2 = pivot := by omega
  have hG := h.ginv hval (by unfold State.InRange; omega) (by rw [e1]; exact hrem)
  obtain ⟨k1, k2, k3⟩ := GInv.doOuter (s.occurrences (2 * pivot)) hG fun c hc => hc
  unfold State.fastEliminate
  dsimp only
  generalize s.doOuter pivot (s.occurrences (Spec.neg (2 * pivot))) (s.occurrences (2 * pivot)) = s1 at k1 k2 k3 ⊢
  cases hi : s1.inconsistent with
  | true => rw [if_pos rfl]; exact k1.inv.fine
  | false =>
    rw [if_neg (by simp)]
    have hW := k1.winv (closed_of_all (k3 hi))
    rw [weakenLoop_eliminated, weakenLoop_eliminated]
    obtain ⟨a1, a2, a3⟩ := hW.weakenLoop (s.occurrences (2 * pivot)) fun r hr => ⟨k1.pos.mem r hr, k1.pos.irr r hr⟩
    generalize hs2 : s1.weakenLoop (2 * pivot) true (s.occurrences (2 * pivot)) = s2 at a1 a2 a3 ⊢
    obtain ⟨b1, b2, b3⟩ := a1.symm.weakenLoop (s.occurrences (Spec.neg (2 * pivot))) fun r hr => by
      rw [a2.lits, a2.red]
      exact ⟨k1.neg.mem r hr, k1.neg.irr r hr⟩
    generalize hs3 : s2.weakenLoop (Spec.neg (2 * pivot)) true (s.occurrences (Spec.neg (2 * pivot))) = s3
      at b1 b2 b3 ⊢
    have b1 := b1.symm
    rw [neg_neg] at b1
    have hinv := b1.inv
    rw [e1] at hinv
    refine Inv.fine (Inv.markEliminated hinv ?_ ?_ ?_ b1.val)
    · have := b1.var.1
      unfold State.InRange at this
      rwa [e1] at this
    · have := b1.var.2
      rwa [e1] at this
    · intro r g1 g2 l hl e
      rcases eq_or_eq_neg (show l / 2 = 2 * pivot / 2 by omega) with h1 | h1
      · rw [h1] at hl
        have := b2.garbage r (a3 r (b1.pos r g1 g2 hl))
        rw [g1] at this; cases this
      · rw [h1] at hl
        have := b3 r (b1.neg r g1 g2 hl)
        rw [g1] at this; cases this

/-! ## Counting the resolvents -/

/-- The state while counting.  After deriving the empty clause only the proof matters. -/
structure Counts (orig : List (List Nat)) (x : Nat) (s s' : State) : Prop where
  fine : Fine orig s'
  ok : s'.inconsistent = false → Same s s' ∧ Stable x s s'

theorem Counts.refl {orig : List (List Nat)} {s : State} (x : Nat) (h : Inv orig none s) : Counts orig x s s :=
  ⟨h.fine, fun _ => ⟨.refl _, .refl _ _⟩⟩

theorem Counts.of {orig : List (List Nat)} {x : Nat} {s s' : State} (h : Step orig s s') (h' : Stable x s s') :
    Counts orig x s s' := ⟨h.inv.fine, fun _ => ⟨h.same, h'⟩⟩

theorem Counts.trans {orig : List (List Nat)} {x : Nat} {a b c : State} (h : Counts orig x a b)
    (hi : b.inconsistent = false) (h' : Counts orig x b c) : Counts orig x a c :=
  ⟨h'.fine, fun e => ⟨(h.ok hi).1.trans (h'.ok e).1, (h.ok hi).2.trans (h'.ok e).2⟩⟩

/-- Adding a resolvent. -/
theorem step_addResolvent {orig : List (List Nat)} {s : State} (h : Inv orig none s) {x c d : Nat}
    (ha : Ante s x c d) {R : List Nat} (hR : Resolvent s x (s.clause c).lits (s.clause d).lits R) :
    Step orig s (s.addResolvent R) ∧ Stable x s (s.addResolvent R) ∧
      ((s.addResolvent R).inconsistent = false → ∀ σ, SatFormula σ ((s.addResolvent R).irr) → SatClause σ R) := by
  have hS := h.struct
  have hrup := hR.rup hS ha
  match R, hR, hrup with
  | [], hR, hrup =>
    exact ⟨.empty h hrup, ⟨Nat.le_refl _, fun _ _ => Or.inl rfl, rfl, rfl, rfl⟩, fun e => (by cases e)⟩
  | [u], hR, hrup =>
    obtain ⟨l1, l2, l3⟩ := hR.lit hS ha (l := u) (by simp)
    exact ⟨.unit h (hR.zero u (by simp)) l1 l2 hrup, stable_unit l3, fun _ σ hσ =>
      hσ [u] (irr_learnedUnit.2 (Or.inl rfl))⟩
  | a :: b :: R, hR, hrup =>
    exact ⟨.new h (fun l hl => (hR.lit hS ha hl).1) hR.nodup hR.taut (by simp) (fun l hl => (hR.lit hS ha hl).2.1) hrup,
      stable_new _, fun _ σ hσ => hσ _ (irr_new.2 (Or.inl ⟨rfl, Or.inl rfl⟩))⟩

theorem counts_canBinaries {orig : List (List Nat)} {s : State} (h : Inv orig none s) {x c d a b : Nat}
    (ha : Ante s x c d) (hca : s.binaryOther x c = some a) (hdb : s.binaryOther (Spec.neg x) d = some b) :
    Counts orig x s (s.canBinaries a b).1 := by
  have hp := fastBinaries_spec h.struct ha hca hdb
  unfold State.canBinaries
  cases hw : s.fastBinaries a b with
  | satisfied => exact .refl x h
  | tautological => exact .refl x h
  | lits R =>
    rw [hw] at hp
    cases hp with
    | lits hR =>
      have k := step_addResolvent h ha hR
      match R, k with
      | [], k => exact .of k.1 k.2.1
      | [_], k => exact .of k.1 k.2.1
      | [_, _], k => exact .refl x h
      | _ :: _ :: _ :: _, k => exact .of k.1 k.2.1

theorem findLit_spec (s : State) (lit : Nat) : ∀ (c : List Nat) (found : Bool),
    (s.findLit lit c found = .satisfied → ∃ l ∈ c, 0 < s.values l) ∧
    (∀ f, s.findLit lit c found = .scanned f → (f = true → found = true ∨ lit ∈ c) ∧
      ∀ l ∈ c, l ≠ Spec.neg lit ∧ s.values l ≤ 0)
  | [], found => ⟨fun h => (by cases h), fun f h => by cases h; exact ⟨Or.inl, fun l hl => (by cases hl)⟩⟩
  | other :: rest, found => by
    unfold State.findLit
    split
    · exact ⟨fun h => (by cases h), fun f h => (by cases h)⟩
    · rename_i h1
      split
      · rename_i h2
        exact ⟨fun _ => ⟨other, by simp, h2⟩, fun f h => (by cases h)⟩
      · rename_i h2
        obtain ⟨i1, i2⟩ := findLit_spec s lit rest (found || decide (other = lit))
        refine ⟨fun h => ?_, fun f h => ?_⟩
        · obtain ⟨l, l1, l2⟩ := i1 h
          exact ⟨l, List.mem_cons_of_mem _ l1, l2⟩
        · obtain ⟨j1, j2⟩ := i2 f h
          refine ⟨fun e => ?_, fun l hl => ?_⟩
          · rcases j1 e with h3 | h3
            · rcases Bool.or_eq_true_iff.1 h3 with h3 | h3
              · exact Or.inl h3
              · exact Or.inr (by rw [of_decide_eq_true h3]; simp)
            · exact Or.inr (List.mem_cons_of_mem _ h3)
          · rcases List.mem_cons.1 hl with rfl | hl
            · exact ⟨h1, by omega⟩
            · exact j2 l hl

/-- After the empty clause has been derived further deletions do not matter. -/
theorem Fine.garbage {orig : List (List Nat)} {s : State} (h : Fine orig s) (hi : s.inconsistent = true) {r : Nat}
    (hr : (s.clause r).lits ≠ []) : Fine orig (s.markGarbage r) := by
  refine ⟨fun _ => ?_, fun e => ?_⟩
  · obtain ⟨db, d1, d2⟩ := h.unsat hi
    refine ⟨_, d1.delete, mem_deleteClause_of_not d2 fun hs => ?_⟩
    match hc : (s.clause r).lits, hr with
    | a :: l, _ =>
      rw [hc] at hs
      have := (hs (s.ext a)).1 (by simp)
      cases this
  · rw [show (s.markGarbage r).inconsistent = s.inconsistent from rfl, hi] at e
    cases e

/-- Large clause `c` with `x` and the binary clause `d` with the other literal `lit`. -/
theorem counts_canBinaryLarge {orig : List (List Nat)} {s : State} (h : Inv orig none s) {x c d lit : Nat}
    (hc : (s.clause c).garbage = false → Ante s x c d) (hb : s.binaryOther (Spec.neg x) d = some lit) :
    Counts orig x s (s.canBinaryLarge (x / 2) lit c).1 := by
  obtain ⟨b1, b2, b3⟩ := binaryOther_some hb
  unfold State.canBinaryLarge
  by_cases hg : (s.clause c).garbage = true
  · rw [if_pos hg]; exact .refl x h
  rw [if_neg hg]
  have ha := hc (by simpa using hg)
  by_cases hv : s.values lit > 0
  · rw [if_pos hv]; exact .refl x h
  rw [if_neg hv]
  have hlt := clause_lt ha.c1
  obtain ⟨f1, f2⟩ := findLit_spec s lit (s.clause c).lits false
  cases hw : s.findLit lit (s.clause c).lits false with
  | tautological => exact .refl x h
  | satisfied =>
    obtain ⟨l, l1, l2⟩ := f1 hw
    exact .of (.satisfied h ha.c1 l1 l2) (stable_garbage hlt)
  | scanned found =>
    cases found with
    | false => exact .refl x h
    | true =>
      obtain ⟨g1, g2⟩ := f2 true hw
      have hlit : lit ∈ (s.clause c).lits := (g1 rfl).resolve_left (by simp)
      have hct := h.struct.taut c ha.c1
      have hdt := h.struct.taut d ha.d1
      have hlx : lit ≠ x := by rintro rfl; exact hdt lit b2 ha.d3
      have md : ∀ {l}, l ∈ (s.clause d).lits ↔ l = Spec.neg x ∨ l = lit := fun {l} =>
        ⟨binary_lits b1 ha.d3 b2 b3, fun e => e.elim (fun e => e ▸ ha.d3) fun e => e ▸ b2⟩
      have vx : ∀ {l}, l ∈ (s.clause c).lits → (l / 2 ≠ x / 2 ↔ l ≠ x) := fun {l} hl => by
        rw [var_ne]
        refine ⟨fun h => h.1, fun h => ⟨h, ?_⟩⟩
        rintro rfl; exact hct x ha.c3 hl
      have hR : Resolvent s x (s.clause c).lits (s.clause d).lits
          ((s.clause c).lits.filter fun other => other / 2 ≠ x / 2 ∧ ¬ s.values other < 0) := by
        refine resolvent_mem ((h.struct.nodup c ha.c1).filter _) ha.c3 ha.d3 hct hdt ?_ ?_ ?_ ?_
        · intro l hl hne
          rw [md]
          rintro (e | e)
          · exact hne (neg_inj e)
          · exact (g2 l hl).1 (by rw [← e, neg_neg])
        · exact fun l hl _ => (g2 l hl).2
        · intro l hl hne
          rcases md.1 hl with rfl | rfl
          · exact absurd rfl hne
          · omega
        · intro l
          rw [List.mem_filter]
          simp only [decide_eq_true_eq]
          constructor
          · rintro ⟨h1, h2, h3⟩; exact ⟨Or.inl ⟨h1, (vx h1).1 h2⟩, h3⟩
          · rintro ⟨h1 | h1, h3⟩
            · exact ⟨h1.1, (vx h1.1).2 h1.2, h3⟩
            · rcases md.1 h1.1 with e | rfl
              · exact absurd e h1.2
              · exact ⟨hlit, (vx hlit).2 hlx, h3⟩
      have hsub : ((s.clause c).lits.filter fun other => other / 2 ≠ x / 2 ∧ ¬ s.values other < 0).Sublist
        (s.clause c).lits := List.filter_sublist
      dsimp only
      generalize ((s.clause c).lits.filter fun other => decide (other / 2 ≠ x / 2 ∧ ¬ s.values other < 0)) = R
        at hR hsub ⊢
      obtain ⟨k1, k2, k3⟩ := step_addResolvent h ha hR
      match R, hR, hsub, k1, k2, k3 with
      | [], hR, hsub, k1, k2, k3 =>
        refine ⟨k1.inv.fine.garbage rfl ?_, fun e => (by cases e)⟩
        exact List.ne_nil_of_mem ha.c3
      | [u], hR, hsub, k1, k2, k3 =>
        exact .of (k1.trans (Step.satisfied k1.inv (r := c) (o := u) ha.c1 (hsub.subset (by simp))
          (by show 0 < (s.learnedUnit u).values u; rw [values_learned, if_pos rfl]; omega)))
          (k2.trans (stable_garbage hlt))
      | a :: b :: R, hR, hsub, k1, k2, k3 =>
        exact .of (step_replace h ha.c1 ha.c2 hsub (by simp) (hR.rup h.struct ha))
          (k2.trans (stable_garbage (Nat.lt_of_lt_of_le hlt k2.len)))

theorem subsumedBy_spec {R c : List Nat} (hn : c.Nodup) (h : subsumedBy R c = true) :
    ∀ l ∈ R, l ∈ c := by
  unfold subsumedBy at h
  obtain ⟨_, h2⟩ := Bool.and_eq_true_iff.1 h
  have h2 := of_decide_eq_true h2
  intro l hl
  apply Classical.byContradiction
  intro hc
  have : (c.filter fun other => R.contains other).length ≤ (R.erase l).length := by
    refine nodup_length_le (hn.filter _) fun m hm => ?_
    obtain ⟨m1, m2⟩ := List.mem_filter.1 hm
    refine (List.mem_erase_of_ne ?_).2 (List.contains_iff_mem.1 m2)
    rintro rfl; exact hc m1
  rw [List.length_erase_of_mem hl] at this
  have : 0 < R.length := List.length_pos_of_mem hl
  omega

/-- Removing a clause which contains another one. -/
theorem step_contained {orig : List (List Nat)} {s : State} (h : Inv orig none s) {r k : Nat}
    (hg : (s.clause r).garbage = false) (hkr : k ≠ r) (hk : (s.clause k).garbage = false)
    (hki : (s.clause k).redundant = false) (hsub : ∀ l ∈ (s.clause k).lits, l ∈ (s.clause r).lits) :
    Step orig s (s.markGarbage r) :=
  .subsumed h hg ⟨k, hkr, hk, hki, fun m hm => Or.inl (hsub m hm)⟩

theorem counts_canLargeLarge {orig : List (List Nat)} {s : State} (h : Inv orig none s) {x c d : Nat}
    (hx : 2 * (x / 2) = x)
    (hc : (s.clause c).garbage = false → (s.clause d).garbage = false → Ante s x c d) :
    Counts orig x s (s.canLargeLarge (x / 2) c d).1 := by
  unfold State.canLargeLarge
  by_cases hg : (s.clause c).garbage = true
  · rw [if_pos hg]; exact .refl x h
  rw [if_neg hg]
  by_cases hg' : (s.clause d).garbage = true
  · rw [if_pos hg']; exact .refl x h
  rw [if_neg hg']
  have ha := hc (by simpa using hg) (by simpa using hg')
  by_cases hs : ((s.clause c).lits.any fun other => decide (other / 2 ≠ x / 2) && decide (s.values other > 0)) = true
  · rw [if_pos hs]
    obtain ⟨l, l1, l2⟩ := List.any_eq_true.1 hs
    exact .of (.satisfied h ha.c1 l1 (by simpa using (Bool.and_eq_true_iff.1 l2).2)) (stable_garbage (clause_lt ha.c1))
  rw [if_neg hs, hx]
  obtain ⟨w1, w2, w3⟩ := walk_pair h.struct ha hs
  cases hw : s.walk x (s.clause c).lits (s.clause d).lits [] with
  | satisfied =>
    obtain ⟨l, l1, l2⟩ := w2 hw
    exact .of (.satisfied h ha.d1 l1 l2) (stable_garbage (clause_lt ha.d1))
  | tautological => exact .refl x h
  | lits new =>
    have hR := w1 new hw
    dsimp only
    generalize (s.clause c).lits.filter (fun other => decide (other / 2 ≠ x / 2 ∧ ¬ s.values other < 0)) ++ new = R
      at hR ⊢
    obtain ⟨k1, k2, _⟩ := step_addResolvent h ha hR
    by_cases hl : R.length < 2
    · rw [if_pos hl]
      exact .of k1 k2
    rw [if_neg hl]
    have e : s.addResolvent R = s.newClause R false := by
      match R, hl with
      | [], hl => exact absurd (by simp) hl
      | [_], hl => exact absurd (by simp) hl
      | _ :: _ :: _, _ => rfl
    rw [e] at k1 k2
    by_cases hcd : (subsumedBy R (s.clause c).lits || subsumedBy R (s.clause d).lits) = true
    · rw [if_pos hcd]
      have hcl := clause_lt ha.c1
      have hdl := clause_lt ha.d1
      have n0 : (s.newClause R false).clause s.arena.length = ⟨R, false, false⟩ := by
        rw [clause_new, if_pos rfl]; rfl
      have nk : ∀ {k}, k < s.arena.length → (s.newClause R false).clause k = s.clause k := fun {k} hk => by
        rw [clause_new, if_neg (by omega)]
      have hne : d ≠ c := by
        rintro rfl
        exact h.struct.taut d ha.c1 x ha.c3 ha.d3
      have stepc : subsumedBy R (s.clause c).lits = true →
          Step orig (s.newClause R false) ((s.newClause R false).markGarbage c) := fun hsb =>
        step_contained k1.inv (r := c) (k := s.arena.length) (by rw [nk hcl]; exact ha.c1) (by omega)
          (by rw [n0]) (by rw [n0])
          (by rw [n0, nk hcl]; exact subsumedBy_spec (h.struct.nodup c ha.c1) hsb)
      cases h1 : subsumedBy R (s.clause c).lits with
      | true =>
        have s1 := stepc h1
        have t1 : Stable x (s.newClause R false) ((s.newClause R false).markGarbage c) :=
          stable_garbage (Nat.lt_of_lt_of_le hcl k2.len)
        rw [if_pos rfl]
        cases h2 : subsumedBy R (s.clause d).lits with
        | true =>
          rw [if_pos rfl]
          have m0 : ((s.newClause R false).markGarbage c).clause s.arena.length = ⟨R, false, false⟩ := by
            rw [clause_garbage (Nat.lt_of_lt_of_le hcl k2.len), if_neg (by omega), n0]
          have md : ((s.newClause R false).markGarbage c).clause d = s.clause d := by
            rw [clause_garbage (Nat.lt_of_lt_of_le hcl k2.len), if_neg hne, nk hdl]
          have s2 := step_contained s1.inv (r := d) (k := s.arena.length) (by rw [md]; exact ha.d1) (by omega)
            (by rw [m0]) (by rw [m0])
            (by rw [m0, md]; exact subsumedBy_spec (h.struct.nodup d ha.d1) h2)
          exact .of ((k1.trans s1).trans s2) ((k2.trans t1).trans (stable_garbage
            (Nat.lt_of_lt_of_le hdl (k2.trans t1).len)))
        | false =>
          rw [if_neg (by simp)]
          exact .of (k1.trans s1) (k2.trans t1)
      | false =>
        have h2 : subsumedBy R (s.clause d).lits = true := by
          rw [h1, Bool.false_or] at hcd; exact hcd
        rw [if_pos h2, if_neg (by simp)]
        have s2 := step_contained k1.inv (r := d) (k := s.arena.length) (by rw [nk hdl]; exact ha.d1) (by omega)
          (by rw [n0]) (by rw [n0])
          (by rw [n0, nk hdl]; exact subsumedBy_spec (h.struct.nodup d ha.d1) h2)
        exact .of (k1.trans s2) (k2.trans (stable_garbage (Nat.lt_of_lt_of_le hdl k2.len)))
    · rw [if_neg hcd]
      exact .refl x h

theorem Counts.symm {orig : List (List Nat)} {x : Nat} {s s' : State} (h : Counts orig (Spec.neg x) s s')
    (hs : Inv orig none s) : Counts orig x s s' := by
  refine ⟨h.fine, fun hi => ?_⟩
  obtain ⟨h1, h2⟩ := h.ok hi
  refine ⟨h1, h2.len, h2.old, ?_, h2.exports, h2.removed⟩
  have e := h2.val
  rw [(h.fine.inv hi).struct.neg, hs.struct.neg] at e
  omega

/-- An entry of a watch list. -/
def Entry (s : State) (x r : Nat) : Prop :=
  r < s.arena.length ∧ ((s.clause r).garbage = false → x ∈ (s.clause r).lits ∧ (s.clause r).redundant = false)

theorem Entry.stable {y : Nat} {s s' : State} {x r : Nat} (h : Entry s x r) (h' : Stable y s s') :
    Entry s' x r :=
  ⟨Nat.lt_of_lt_of_le h.1 h'.len, fun hg => by
    have e := h'.live h.1 hg
    rw [e] at hg ⊢
    exact h.2 hg⟩

theorem entry_occurrences {s : State} {x r : Nat} (h : r ∈ s.occurrences x) : Entry s x r :=
  have h := mem_occurrences.1 h
  ⟨clause_lt h.1, fun _ => ⟨h.2.2, h.2.1⟩⟩

theorem counts_canResolve {orig : List (List Nat)} {s : State} (h : Inv orig none s) {pivot c d : Nat}
    (hc : Entry s (2 * pivot) c) (hd : Entry s (Spec.neg (2 * pivot)) d) :
    Counts orig (2 * pivot) s (s.canResolve pivot c d).1 := by
  have e1 : 2 * pivot / 2 = pivot := by omega
  unfold State.canResolve
  by_cases hg : ((s.clause c).garbage || (s.clause d).garbage) = true
  · rw [if_pos hg]; exact .refl _ h
  rw [if_neg hg]
  have hg' : (s.clause c).garbage = false ∧ (s.clause d).garbage = false := by
    cases h1 : (s.clause c).garbage <;> cases h2 : (s.clause d).garbage <;> simp_all
  have ha : Ante s (2 * pivot) c d := ⟨hg'.1, (hc.2 hg'.1).2, (hc.2 hg'.1).1, hg'.2, (hd.2 hg'.2).2, (hd.2 hg'.2).1⟩
  cases hca : s.binaryOther (2 * pivot) c with
  | some a =>
    cases hdb : s.binaryOther (Spec.neg (2 * pivot)) d with
    | some b => exact counts_canBinaries h ha hca hdb
    | none =>
      have := counts_canBinaryLarge h (x := Spec.neg (2 * pivot)) (c := d) (d := c) (lit := a) (fun _ => ha.symm)
        (by rw [neg_neg]; exact hca)
      rw [neg_div, e1] at this
      exact this.symm h
  | none =>
    cases hdb : s.binaryOther (Spec.neg (2 * pivot)) d with
    | some b =>
      have := counts_canBinaryLarge h (c := c) (fun _ => ha) hdb
      rw [e1] at this
      exact this
    | none =>
      have := counts_canLargeLarge h (x := 2 * pivot) (by omega) fun _ _ => ha
      rw [e1] at this
      exact this

theorem counts_limitedInner {orig : List (List Nat)} {pivot : Nat} (limit : Nat) {c : Nat} :
    ∀ (ds : List Nat) (n : Nat) {s : State}, Inv orig none s → Entry s (2 * pivot) c →
    (∀ d ∈ ds, Entry s (Spec.neg (2 * pivot)) d) →
    Counts orig (2 * pivot) s (s.limitedInner pivot limit c ds n).1 ∧
    ((s.limitedInner pivot limit c ds n).2 ≠ none → s.inconsistent = false →
      (s.limitedInner pivot limit c ds n).1.inconsistent = false)
  | [], n, s, h, _, _ => ⟨.refl _ h, fun _ e => e⟩
  | d :: ds, n, s, h, hc, hds => by
    have k := counts_canResolve h hc (hds d (by simp))
    unfold State.limitedInner
    cases hr : s.canResolve pivot c d with
    | mk s1 b =>
      rw [hr] at k
      dsimp only at k ⊢
      by_cases hb : (b && decide ((if b = true then n + 1 else n) > limit)) = true
      · rw [if_pos hb]; exact ⟨k, fun e => absurd rfl e⟩
      rw [if_neg hb]
      cases hi : s1.inconsistent with
      | true => rw [if_pos rfl]; exact ⟨k, fun e => absurd rfl e⟩
      | false =>
        rw [if_neg (by simp)]
        obtain ⟨_, k2⟩ := k.ok hi
        obtain ⟨i1, i2⟩ := counts_limitedInner limit ds (if b = true then n + 1 else n) (k.fine.inv hi)
          (hc.stable k2) fun q hq => (hds q (List.mem_cons_of_mem _ hq)).stable k2
        exact ⟨k.trans hi i1, fun e _ => i2 e hi⟩

theorem counts_limitedOuter {orig : List (List Nat)} {pivot : Nat} (limit : Nat) {ds : List Nat} :
    ∀ (cs : List Nat) (n : Nat) {s : State}, Inv orig none s → s.inconsistent = false →
    (∀ c ∈ cs, Entry s (2 * pivot) c) → (∀ d ∈ ds, Entry s (Spec.neg (2 * pivot)) d) →
    Counts orig (2 * pivot) s (s.limitedOuter pivot limit ds cs n).1 ∧
    ((s.limitedOuter pivot limit ds cs n).2 = true → (s.limitedOuter pivot limit ds cs n).1.inconsistent = false)
  | [], n, s, h, hi, _, _ => ⟨.refl _ h, fun _ => hi⟩
  | c :: cs, n, s, h, hi, hcs, hds => by
    obtain ⟨k1, k2⟩ := counts_limitedInner limit ds n h (hcs c (by simp)) hds
    unfold State.limitedOuter
    cases hr : s.limitedInner pivot limit c ds n with
    | mk s1 o =>
      rw [hr] at k1 k2
      cases o with
      | none => exact ⟨k1, fun e => (by cases e)⟩
      | some m =>
        dsimp only at k1 k2 ⊢
        have hi1 := k2 (by simp) hi
        obtain ⟨_, k3⟩ := k1.ok hi1
        obtain ⟨i1, i2⟩ := counts_limitedOuter limit cs m (k1.fine.inv hi1) hi1
          (fun q hq => (hcs q (List.mem_cons_of_mem _ hq)).stable k3) fun q hq => (hds q hq).stable k3
        exact ⟨k1.trans hi1 i1, i2⟩

/-! ## Eliminating variables -/

theorem Fine.fastDecide {orig : List (List Nat)} {s : State} (h : Inv orig none s) (hi : s.inconsistent = false)
    (o : FastOptions) {pivot : Nat} (pos neg' : Nat)
    (hr : pivot < s.exports.length) (hrem : s.removed pivot = false) (hval : s.values (2 * pivot) = 0) :
    Fine orig (s.fastDecide o pivot pos neg') := by
  unfold State.fastDecide
  split
  · exact h.fine
  · split
    · exact Fine.fastEliminate h hr hrem hval
    · obtain ⟨k1, k2⟩ := counts_limitedOuter o.elim (pivot := pivot) (ds := s.occurrences (Spec.neg (2 * pivot)))
        (s.occurrences (2 * pivot)) 0 h hi (fun _ => entry_occurrences) fun _ => entry_occurrences
      cases hl : s.limitedOuter pivot o.elim (s.occurrences (Spec.neg (2 * pivot))) (s.occurrences (2 * pivot)) 0 with
      | mk s1 b =>
        rw [hl] at k1 k2
        cases b with
        | false => exact k1.fine
        | true =>
          have hi1 := k2 rfl
          obtain ⟨_, k3⟩ := k1.ok hi1
          exact Fine.fastEliminate (k1.fine.inv hi1) (by rw [k3.exports]; exact hr) (by rw [k3.removed]; exact hrem)
            (by rw [k3.val]; exact hval)

theorem Fine.tryFast {orig : List (List Nat)} {s : State} (h : Inv orig none s) (hi : s.inconsistent = false)
    (o : FastOptions) (pivot : Nat) : Fine orig (s.tryFast o pivot) := by
  unfold State.tryFast
  cases ha : s.active pivot with
  | false => rw [if_pos (by simp)]; exact h.fine
  | true =>
    rw [if_neg (by simp)]
    unfold State.active at ha
    simp only [Bool.and_eq_true, decide_eq_true_eq, Bool.not_eq_true'] at ha
    obtain ⟨⟨a1, a2⟩, a3⟩ := ha
    obtain ⟨k1, k2, k3⟩ := flushOccurrences_spec o (x := 2 * pivot) (lit := 2 * pivot) (s.occurrences (2 * pivot)) 0 h
      fun r hr _ => (mem_occurrences.1 hr).2.2
    cases hf : s.flushOccurrences o (2 * pivot) (s.occurrences (2 * pivot)) 0 with
    | mk s1 pos =>
      rw [hf] at k1 k2 k3
      dsimp only at k1 k2 k3 ⊢
      split
      · exact k1.inv.fine
      · obtain ⟨m1, m2, m3⟩ := flushOccurrences_spec o (x := 2 * pivot) (lit := Spec.neg (2 * pivot))
          (s1.occurrences (Spec.neg (2 * pivot))) 0 k1.inv fun r hr _ => (mem_occurrences.1 hr).2.2
        cases hf' : s1.flushOccurrences o (Spec.neg (2 * pivot)) (s1.occurrences (Spec.neg (2 * pivot))) 0 with
        | mk s2 neg' =>
          rw [hf'] at m1 m2 m3
          dsimp only at m1 m2 m3 ⊢
          split
          · exact m1.inv.fine
          · have m := k2.trans m2
            exact Fine.fastDecide m1.inv (by rw [m3, k3]; exact hi) o pos neg' (by rw [m.exports]; exact a1)
              (by rw [m.removed]; exact a2) (by rw [m.val]; exact a3)

theorem step_fastGather {orig : List (List Nat)} : ∀ (gs : List (FastOptions × Nat)) {s : State},
    Inv orig none s → Step orig s (s.fastGather gs) ∧ (s.fastGather gs).inconsistent = s.inconsistent
  | [], s, h => ⟨.refl h, rfl⟩
  | (o, pivot) :: rest, s, h => by
    unfold State.fastGather
    split
    · exact step_fastGather rest h
    · obtain ⟨k1, _, k3⟩ := flushOccurrences_spec o (x := 0) (lit := 2 * pivot) (s.occurrences (2 * pivot)) 0 h
        fun r hr _ => (mem_occurrences.1 hr).2.2
      cases hf : s.flushOccurrences o (2 * pivot) (s.occurrences (2 * pivot)) 0 with
      | mk s1 pos =>
        rw [hf] at k1 k3
        dsimp only at k1 k3 ⊢
        split
        · obtain ⟨i1, i2⟩ := step_fastGather rest k1.inv
          exact ⟨k1.trans i1, i2.trans k3⟩
        · obtain ⟨m1, _, m3⟩ := flushOccurrences_spec o (x := 0) (lit := 2 * pivot) (s1.occurrences (2 * pivot)) 0 k1.inv
            fun r hr _ => (mem_occurrences.1 hr).2.2
          obtain ⟨i1, i2⟩ := step_fastGather rest m1.inv
          exact ⟨(k1.trans m1).trans i1, (i2.trans m3).trans k3⟩

theorem Fine.fastLoop {orig : List (List Nat)} : ∀ (cs : List (FastOptions × Nat)) {s : State},
    Fine orig s → s.inconsistent = false → Fine orig (s.fastLoop cs)
  | [], s, h, _ => h
  | (o, pivot) :: rest, s, h, hi => by
    have k := Fine.tryFast (h.inv hi) hi o pivot
    unfold State.fastLoop
    generalize s.tryFast o pivot = s1 at k ⊢
    dsimp only
    cases hi1 : s1.inconsistent with
    | true => rw [if_pos rfl]; exact k
    | false =>
      rw [if_neg (by simp)]
      have f := ((k.inv hi1).flushUnitsWhileConnected).1
      cases hi2 : s1.flushUnitsWhileConnected.inconsistent with
      | true => rw [if_pos rfl]; exact f.fine
      | false =>
        rw [if_neg (by simp)]
        exact Fine.fastLoop rest f.fine hi2

theorem Fine.fastRounds {orig : List (List Nat)} :
    ∀ (rounds : List (List (FastOptions × Nat) × List (FastOptions × Nat))) {s : State},
    Fine orig s → s.inconsistent = false → Fine orig (s.fastRounds rounds)
  | [], s, h, _ => h
  | (gathered, candidates) :: rounds, s, h, hi => by
    obtain ⟨g1, g2⟩ := step_fastGather gathered (h.inv hi)
    have k := Fine.fastLoop candidates g1.inv.fine (by rw [g2]; exact hi)
    unfold State.fastRounds
    generalize (s.fastGather gathered).fastLoop candidates = s1 at k ⊢
    dsimp only
    cases hi1 : s1.inconsistent with
    | true => rw [if_pos rfl]; exact k
    | false =>
      rw [if_neg (by simp)]
      exact Fine.fastRounds rounds k hi1

theorem flushCandidates_inconsistent : ∀ (rs : List Nat) (s : State),
    (s.flushCandidates rs).inconsistent = s.inconsistent
  | [], s => rfl
  | r :: rs, s => by
    unfold State.flushCandidates
    split
    · exact flushCandidates_inconsistent rs s
    · split
      · exact flushCandidates_inconsistent rs _
      · exact flushCandidates_inconsistent rs s

theorem Fine.fastElimination {orig : List (List Nat)} {s : State} (h : Fine orig s)
    (rounds : List (List (FastOptions × Nat) × List (FastOptions × Nat))) :
    Fine orig (s.fastElimination rounds) := by
  unfold State.fastElimination
  cases hi : s.inconsistent with
  | true => rw [if_pos rfl]; exact h
  | false =>
    rw [if_neg (by simp)]
    have st := step_flushCandidates (List.range s.arena.length) (h.inv hi)
    have k := Fine.fastRounds rounds st.inv.fine (by rw [flushCandidates_inconsistent]; exact hi)
    generalize (s.flushCandidates (List.range s.arena.length)).fastRounds rounds = s1 at k ⊢
    dsimp only
    cases hi1 : s1.inconsistent with
    | true => rw [if_pos rfl]; exact k
    | false =>
      rw [if_neg (by simp)]
      exact ((k.inv hi1).flushEliminated _).fine

end Verif.Simp
