import Verif.Proofs.Collect.Root

/-! # Sweeping garbage clauses -/

namespace Verif.Core

open Verif.Spec

/-- The clause survives garbage collection. -/
def Solver.Stays (s : Solver) (r : Nat) : Prop := s.Live r ∧ ¬ s.RootSat (s.clause r).lits

/-- The clause without literals falsified by units. -/
def Solver.shrunk (s : Solver) (r : Nat) : Clause :=
  { s.clause r with lits := s.reduct (s.clause r).lits, searched := 2 }

/-- The state `t` while sweeping reached the clause `n` of `s`. -/
structure Sweeping (s t : Solver) (start n : Nat) : Prop where
  framed : Framed s t
  len : start ≤ t.arena.length
  low : ∀ r, r < start → t.arena[r]? = s.arena[r]?
  back : ∀ r c, start ≤ r → t.arena[r]? = some c → ∃ r', start ≤ r' ∧ r' < n ∧ s.Stays r' ∧
    c = s.shrunk r' ∧ 3 ≤ (s.reduct (s.clause r').lits).length
  fwd : ∀ r, start ≤ r → r < n → s.Stays r → 3 ≤ (s.reduct (s.clause r).lits).length →
    ∃ r', start ≤ r' ∧ t.arena[r']? = some (s.shrunk r)
  bins : ∀ a b, Watch.binary b ∈ t.watches a ↔
    (Watch.binary b ∈ s.watches a ∧ ¬ s.RootSat [a, b]) ∨
    ∃ r, start ≤ r ∧ r < n ∧ s.Stays r ∧
      (s.reduct (s.clause r).lits = [a, b] ∨ s.reduct (s.clause r).lits = [b, a])
  large : ∀ w b r, Watch.large b r ∈ t.watches w ↔
    Watch.large b r ∈ s.watches w ∧ s.fixed w = 0 ∧ r < start
  once : ∀ w, ((t.watches w).filterMap Watch.ref?).Nodup
  last : ∀ x ∈ t.lastLearned, x = none
  keptReason : ∀ l, s.values l = 1 →
    (∀ r, (s.assigned (l / 2)).reason = .large r → r < start ∨ n ≤ r) →
    (t.assigned (l / 2)).reason = (s.assigned (l / 2)).reason
  newReason : ∀ l r, s.values l = 1 → (s.assigned (l / 2)).reason = .large r → start ≤ r → r < n →
    (∃ r', start ≤ r' ∧ (t.assigned (l / 2)).reason = .large r' ∧ t.arena[r']? = some (s.shrunk r)) ∨
    ∃ o, (t.assigned (l / 2)).reason = .binary o ∧
      (s.reduct (s.clause r).lits = [l, o] ∨ s.reduct (s.clause r).lits = [o, l])

theorem Sweeping.emit {s t : Solver} {start n : Nat} (h : Sweeping s t start n) (x : Spec.Line) :
    Sweeping s (t.emit x) start n := by
  obtain ⟨h1, h2, h3, h4, h5, h6, h7, h8, h9, h10, h11⟩ := h
  exact ⟨⟨h1.1, h1.2, h1.3, h1.4, h1.5, h1.6, h1.7, h1.8, h1.9, h1.10, h1.11, h1.12, h1.13,
    h1.14, h1.15, h1.16⟩,
    h2, h3, h4, h5, h6, h7, h8, h9, h10, h11⟩

theorem lt_succ_cases {r n : Nat} (h : r < n + 1) : r < n ∨ r = n := by omega

theorem Sweeping.skip {s t : Solver} {start n : Nat} (hs : Settled s) (h : Sweeping s t start n)
    (hn : ¬ s.Stays n) : Sweeping s t start (n + 1) := by
  refine ⟨h.framed, h.len, h.low, fun r c hr hc => ?_, fun r h1 h2 h3 h4 => ?_, fun a b => ?_, h.large,
    h.once, h.last, fun l hv hr => ?_, fun l r hv hr h1 h2 => ?_⟩
  · obtain ⟨r', g1, g2, g3⟩ := h.back r c hr hc
    exact ⟨r', g1, by omega, g3⟩
  · rcases lt_succ_cases h2 with h2 | rfl
    · exact h.fwd r h1 h2 h3 h4
    · exact absurd h3 hn
  · rw [h.bins]
    constructor
    · rintro (h1 | ⟨r, g1, g2, g3⟩)
      · exact .inl h1
      · exact .inr ⟨r, g1, by omega, g3⟩
    · rintro (h1 | ⟨r, g1, g2, g3, g4⟩)
      · exact .inl h1
      · rcases lt_succ_cases g2 with g2 | rfl
        · exact .inr ⟨r, g1, g2, g3, g4⟩
        · exact absurd g3 hn
  · exact h.keptReason l hv fun r hr' => by have := hr r hr'; omega
  · rcases lt_succ_cases h2 with h2 | rfl
    · exact h.newReason l r hv hr h1 h2
    · obtain ⟨f1, f2, _⟩ := hs.inv.forces hv hr
      exact absurd ⟨f1, f2.not_rootSat⟩ hn

theorem isReason_iff {s : Solver} (h : Inv s) (r : Nat) :
    s.isReason r = true ↔ ∃ l, s.values l = 1 ∧ (s.assigned (l / 2)).reason = .large r := by
  unfold Solver.isReason
  rw [List.any_eq_true]
  constructor
  · rintro ⟨l, hl, he⟩; exact ⟨l, h.trail.tval l hl, by simpa using he⟩
  · rintro ⟨l, hv, he⟩
    refine ⟨l, ?_, by simpa using he⟩
    by_cases hm : l ∈ s.trail
    · exact hm
    · rw [h.reason.root l hv (h.trail.flushed l hv hm)] at he
      cases he

/-- Equal variables of true literals. -/
theorem true_unique {s : Solver} (ht : TrailInv s) {l m : Nat} (hl : s.values l = 1)
    (hm : s.values m = 1) (e : l / 2 = m / 2) : l = m := by
  rcases Spec.eq_or_eq_neg e with h | h
  · exact h
  · rw [h, ht.anti, hm] at hl; cases hl

theorem shrunk_live {s : Solver} {r : Nat} (h : s.Stays r) : (s.shrunk r).garbage = false := h.1

/-- The reason is updated after the clause `n`. -/
theorem Sweeping.reasons {s t t' : Solver} {start n : Nat} (hs : Settled s) (h : Sweeping s t start n)
    (hst : start ≤ n)
    (harena : ∀ (r : Nat) (c : Clause), t.arena[r]? = some c → t'.arena[r]? = some c)
    (hno : s.isReason n = false → t'.assigned = t.assigned)
    (hyes : ∀ l, s.values l = 1 → (s.assigned (l / 2)).reason = .large n → ∃ x,
      (∀ v, (t'.assigned v).reason = if v = l / 2 then x else (t.assigned v).reason) ∧
      ((∃ r', start ≤ r' ∧ x = .large r' ∧ t'.arena[r']? = some (s.shrunk n)) ∨
       ∃ o, x = .binary o ∧
        (s.reduct (s.clause n).lits = [l, o] ∨ s.reduct (s.clause n).lits = [o, l]))) :
    (∀ l, s.values l = 1 →
      (∀ r, (s.assigned (l / 2)).reason = .large r → r < start ∨ n + 1 ≤ r) →
      (t'.assigned (l / 2)).reason = (s.assigned (l / 2)).reason) ∧
    (∀ l r, s.values l = 1 → (s.assigned (l / 2)).reason = .large r → start ≤ r → r < n + 1 →
      (∃ r', start ≤ r' ∧ (t'.assigned (l / 2)).reason = .large r' ∧
        t'.arena[r']? = some (s.shrunk r)) ∨
      ∃ o, (t'.assigned (l / 2)).reason = .binary o ∧
        (s.reduct (s.clause r).lits = [l, o] ∨ s.reduct (s.clause r).lits = [o, l])) := by
  have same : ∀ l, s.values l = 1 → (s.assigned (l / 2)).reason ≠ .large n →
      (t'.assigned (l / 2)).reason = (t.assigned (l / 2)).reason := by
    intro l hv hne
    cases hr : s.isReason n with
    | false => rw [hno hr]
    | true =>
      obtain ⟨m, hm, hmr⟩ := (isReason_iff hs.inv n).1 hr
      obtain ⟨x, hx, _⟩ := hyes m hm hmr
      rw [hx, if_neg]
      intro e
      rw [true_unique hs.inv.trail hv hm e] at hne
      exact hne hmr
  constructor
  · intro l hv hr
    have hne : (s.assigned (l / 2)).reason ≠ .large n := fun e => by have := hr n e; omega
    rw [same l hv hne]
    exact h.keptReason l hv fun r hr' => by have := hr r hr'; omega
  · intro l r hv hr h1 h2
    rcases lt_succ_cases h2 with h2 | rfl
    · have hne : (s.assigned (l / 2)).reason ≠ .large n := fun e => by
        rw [hr] at e; cases e; omega
      rw [same l hv hne]
      rcases h.newReason l r hv hr h1 h2 with ⟨r', g1, g2, g3⟩ | g
      · exact .inl ⟨r', g1, g2, harena _ _ g3⟩
      · exact .inr g
    · obtain ⟨x, hx, h3⟩ := hyes l hv hr
      rw [hx, if_pos rfl]
      exact h3

theorem Sweeping.binary {s t : Solver} {start n a b : Nat} (hs : Settled s) (h : Sweeping s t start n)
    (hst : start ≤ n) (hn : s.Stays n) (hab : s.reduct (s.clause n).lits = [a, b]) :
    Sweeping s ((t.watchBinary a b).binaryReason [a, b] (s.isReason n)) start (n + 1) := by
  have hne : a ≠ b := by
    have := (hs.inv.clause.nodup n hn.1).filter (fun l => Decidable.decide (¬ s.fixed l < 0))
    have e : (s.clause n).lits.filter (fun l => Decidable.decide (¬ s.fixed l < 0)) = [a, b] := hab
    rw [e] at this
    simpa using this
  have hfr : Framed s ((t.watchBinary a b).binaryReason [a, b] (s.isReason n)) := by
    have h0 : Framed s (t.watchBinary a b) := by
      obtain ⟨h1⟩ := h.framed
      constructor <;> assumption
    unfold Solver.binaryReason
    split
    · split
      · exact h0.trans (setReason_framed _ _ _)
      · exact h0
    · exact h0
  have hrest : ((t.watchBinary a b).binaryReason [a, b] (s.isReason n)).arena = t.arena ∧
      ((t.watchBinary a b).binaryReason [a, b] (s.isReason n)).watches = (t.watchBinary a b).watches ∧
      ((t.watchBinary a b).binaryReason [a, b] (s.isReason n)).lastLearned = t.lastLearned := by
    unfold Solver.binaryReason
    split
    · split <;> exact ⟨rfl, rfl, rfl⟩
    · exact ⟨rfl, rfl, rfl⟩
  obtain ⟨e1, e2, e3⟩ := hrest
  have hre := h.reasons (t' := (t.watchBinary a b).binaryReason [a, b] (s.isReason n)) hs hst
    (fun r c hc => by rw [e1]; exact hc)
    (fun hf => by unfold Solver.binaryReason; rw [if_neg (by simp [hf])]; rfl)
    (fun l hv hr => by
      obtain ⟨_, f2, _⟩ := hs.inv.forces hv hr
      have f3 := f2.reduct hs.inv.trail
      rw [hab] at f3
      obtain ⟨o, f4, f5, _⟩ := f3.two hne
      refine ⟨.binary o, fun v => ?_, .inr ⟨o, rfl, ?_⟩⟩
      · unfold Solver.binaryReason
        rw [if_pos ((isReason_iff hs.inv n).2 ⟨l, hv, hr⟩)]
        have g1 : (t.watchBinary a b).forced [a, b] = some l := by
          have : (t.watchBinary a b).forced [a, b] = t.forced [a, b] := rfl
          rw [this, h.framed.forced, f3.forced hs.inv.trail]
        have g2 : (t.watchBinary a b).lastFalse [a, b] = some o := by
          have : (t.watchBinary a b).lastFalse [a, b] = t.lastFalse [a, b] := rfl
          rw [this, h.framed.lastFalse, f4]
        rw [g1, g2]
        exact setReason_reason _ _ _ _
      · rw [hab]
        rcases f5 with ⟨rfl, rfl⟩ | ⟨rfl, rfl⟩
        · exact .inl rfl
        · exact .inr rfl)
  refine ⟨hfr, by rw [e1]; exact h.len, by rw [e1]; exact h.low, ?_, ?_, ?_, ?_, ?_, ?_, hre.1, hre.2⟩
  · intro r c hr hc
    rw [e1] at hc
    obtain ⟨r', g1, g2, g3⟩ := h.back r c hr hc
    exact ⟨r', g1, by omega, g3⟩
  · intro r h1 h2 h3 h4
    rw [e1]
    rcases lt_succ_cases h2 with h2 | rfl
    · exact h.fwd r h1 h2 h3 h4
    · rw [hab] at h4; simp at h4
  · intro x y
    rw [e2, watchBinary_mem, h.bins]
    constructor
    · rintro ((g | ⟨r, g1, g2, g3⟩) | ⟨rfl, g⟩ | ⟨rfl, g⟩)
      · exact .inl g
      · exact .inr ⟨r, g1, by omega, g3⟩
      · cases g; exact .inr ⟨n, hst, by omega, hn, .inl hab⟩
      · cases g; exact .inr ⟨n, hst, by omega, hn, .inr hab⟩
    · rintro (g | ⟨r, g1, g2, g3, g4⟩)
      · exact .inl (.inl g)
      · rcases lt_succ_cases g2 with g2 | rfl
        · exact .inl (.inr ⟨r, g1, g2, g3, g4⟩)
        · rw [hab] at g4
          rcases g4 with g4 | g4 <;> cases g4
          · exact .inr (.inl ⟨rfl, rfl⟩)
          · exact .inr (.inr ⟨rfl, rfl⟩)
  · intro w x r
    rw [e2, watchBinary_mem, h.large]
    simp
  · intro w
    rw [e2, watchBinary_refs]
    exact h.once w
  · rw [e3]; exact h.last

theorem Sweeping.place {s t : Solver} {start n : Nat} (hs : Settled s) (h : Sweeping s t start n)
    (hst : start ≤ n) (hn : s.Stays n) (h3 : 3 ≤ (s.reduct (s.clause n).lits).length) :
    Sweeping s (t.placeClause (s.shrunk n) (s.isReason n)) start (n + 1) := by
  have hfr : Framed s (t.placeClause (s.shrunk n) (s.isReason n)) := by
    have h0 : Framed s ({ t with arena := t.arena ++ [s.shrunk n] } : Solver) := by
      obtain ⟨h1⟩ := h.framed
      constructor <;> assumption
    unfold Solver.placeClause
    simp only
    split
    · split
      · exact h0.trans (setReason_framed _ _ _)
      · exact h0
    · exact h0
  have hrest : (t.placeClause (s.shrunk n) (s.isReason n)).arena = t.arena ++ [s.shrunk n] ∧
      (t.placeClause (s.shrunk n) (s.isReason n)).watches = t.watches ∧
      (t.placeClause (s.shrunk n) (s.isReason n)).lastLearned = t.lastLearned := by
    unfold Solver.placeClause
    simp only
    split
    · split <;> exact ⟨rfl, rfl, rfl⟩
    · exact ⟨rfl, rfl, rfl⟩
  obtain ⟨e1, e2, e3⟩ := hrest
  have hget : ∀ r c, t.arena[r]? = some c → (t.arena ++ [s.shrunk n])[r]? = some c := fun r c hc => by
    rw [List.getElem?_append_left (List.getElem?_eq_some_iff.1 hc).1]; exact hc
  have hre := h.reasons (t' := t.placeClause (s.shrunk n) (s.isReason n)) hs hst
    (fun r c hc => by rw [e1]; exact hget r c hc)
    (fun hf => by unfold Solver.placeClause; simp only; rw [if_neg (by simp [hf])])
    (fun l hv hr => by
      obtain ⟨_, f2, _⟩ := hs.inv.forces hv hr
      have f3 := f2.reduct hs.inv.trail
      refine ⟨.large t.arena.length, fun v => ?_, .inl ⟨_, h.len, rfl, ?_⟩⟩
      · unfold Solver.placeClause
        simp only
        rw [if_pos ((isReason_iff hs.inv n).2 ⟨l, hv, hr⟩)]
        have g1 : t.forced (s.shrunk n).lits = some l := by
          rw [h.framed.forced]; exact f3.forced hs.inv.trail
        rw [g1]
        exact setReason_reason _ _ _ _
      · rw [e1]; simp)
  refine ⟨hfr, by rw [e1]; simp; have := h.len; omega, ?_, ?_, ?_, ?_, ?_, ?_, ?_, hre.1, hre.2⟩
  · intro r hr
    rw [e1, List.getElem?_append_left (Nat.lt_of_lt_of_le hr h.len)]
    exact h.low r hr
  · intro r c hr hc
    rw [e1] at hc
    by_cases hl : r < t.arena.length
    · rw [List.getElem?_append_left hl] at hc
      obtain ⟨r', g1, g2, g3⟩ := h.back r c hr hc
      exact ⟨r', g1, by omega, g3⟩
    · rw [List.getElem?_append_right (by omega)] at hc
      have := List.mem_of_getElem? hc
      exact ⟨n, hst, by omega, hn, List.mem_singleton.1 this, h3⟩
  · intro r h1 h2 h3 h4
    rw [e1]
    rcases lt_succ_cases h2 with h2 | rfl
    · obtain ⟨r', g1, g2⟩ := h.fwd r h1 h2 h3 h4
      exact ⟨r', g1, hget _ _ g2⟩
    · exact ⟨t.arena.length, h.len, by simp⟩
  · intro x y
    rw [e2, h.bins]
    constructor
    · rintro (g | ⟨r, g1, g2, g3⟩)
      · exact .inl g
      · exact .inr ⟨r, g1, by omega, g3⟩
    · rintro (g | ⟨r, g1, g2, g3, g4⟩)
      · exact .inl g
      · rcases lt_succ_cases g2 with g2 | rfl
        · exact .inr ⟨r, g1, g2, g3, g4⟩
        · rcases g4 with g4 | g4 <;> rw [g4] at h3 <;> simp at h3
  · rw [e2]; exact h.large
  · rw [e2]; exact h.once
  · rw [e3]; exact h.last

theorem Settled.reduct_length {s : Solver} (h : Settled s) {r : Nat} (hr : s.Stays r) :
    2 ≤ (s.reduct (s.clause r).lits).length := by
  obtain ⟨a, b, rest, _, e⟩ := h.reduct_two hr.1 hr.2
  rw [e]; simp

theorem Sweeping.step {s t : Solver} {start n : Nat} (hs : Settled s) (h : Sweeping s t start n)
    (hst : start ≤ n) :
    Sweeping s (sweepClause t (s.clause n) (s.isReason n)) start (n + 1) := by
  unfold sweepClause
  have htt := h.framed.trailInv hs.inv.trail
  by_cases hg : (s.clause n).garbage = true
  · rw [if_pos hg]
    exact h.skip hs fun h' => by have : (s.clause n).garbage = false := h'.1; rw [hg] at this; cases this
  rw [if_neg hg]
  have hl : s.Live n := by simpa [Solver.Live] using hg
  by_cases hr : s.RootSat (s.clause n).lits
  · rw [if_pos ((rootSat_any htt _).2 ((h.framed.rootSat _).2 hr))]
    exact (h.skip hs fun h' => h'.2 hr).emit _
  rw [if_neg fun h' => hr ((h.framed.rootSat _).1 ((rootSat_any htt _).1 h'))]
  have hn : s.Stays n := ⟨hl, hr⟩
  have he : ((s.clause n).lits.filter fun l => Decidable.decide (¬ t.fixed l < 0)) =
      s.reduct (s.clause n).lits := h.framed.reduct _
  simp only [he]
  have key : Sweeping s (match s.reduct (s.clause n).lits with
      | [a, b] => (t.watchBinary a b).binaryReason (s.reduct (s.clause n).lits) (s.isReason n)
      | _ => t.placeClause { s.clause n with lits := s.reduct (s.clause n).lits, searched := 2 }
          (s.isReason n)) start (n + 1) := by
    have h2 := hs.reduct_length hn
    split
    · rename_i a b hab
      rw [hab]
      exact h.binary hs hst hn hab
    · rename_i hx
      refine h.place hs hst hn ?_
      match hq : s.reduct (s.clause n).lits with
      | [] => rw [hq] at h2; simp at h2
      | [a] => rw [hq] at h2; simp at h2
      | [a, b] => exact absurd hq (hx a b)
      | a :: b :: c :: q => simp
  split
  · exact (key.emit _).emit _
  · exact key

theorem Sweeping.loop {s : Solver} {start : Nat} (hs : Settled s) :
    ∀ (cs : List Clause) (n : Nat) (t : Solver), start ≤ n → n ≤ s.arena.length → s.arena.drop n = cs →
    Sweeping s t start n → Sweeping s
      ((cs.mapIdx fun i c => (c, s.isReason (n + i))).foldl (fun t p => sweepClause t p.1 p.2) t)
      start s.arena.length
  | [], n, t, _, hle, hd, h => by
    have := List.drop_eq_nil_iff.1 hd
    have e : n = s.arena.length := by omega
    rw [← e]; exact h
  | c :: cs, n, t, h1, hle, hd, h => by
    have hn : n < s.arena.length := by
      refine Nat.lt_of_not_le fun h' => ?_
      rw [List.drop_eq_nil_iff.2 h'] at hd; cases hd
    have hc : c = s.clause n := by
      rw [List.drop_eq_getElem_cons hn] at hd
      have := (List.cons.inj hd).1
      have h2 := clause_get hn
      rw [List.getElem?_eq_getElem hn] at h2
      rw [← this]; exact Option.some.inj h2
    have hd' : s.arena.drop (n + 1) = cs := by
      rw [List.drop_eq_getElem_cons hn] at hd
      exact (List.cons.inj hd).2
    rw [List.mapIdx_cons, List.foldl_cons]
    have := Sweeping.loop (start := start) hs cs (n + 1) (sweepClause t c (s.isReason (n + 0))) (by omega) hn hd'
      (by rw [hc]; exact h.step hs h1)
    simp only [Nat.add_assoc, Nat.add_comm 1] at this
    exact this

theorem Sweeping.init {s : Solver} {start : Nat} (hs : Settled s) (h : start ≤ s.arena.length) :
    Sweeping s { s.flushWatches start with
      arena := (s.flushWatches start).arena.take start
      lastLearned := (s.flushWatches start).lastLearned.map fun _ => none } start start := by
  have ht := hs.inv.trail
  have hw : ∀ l x, x ∈ (s.flushWatches start).watches l ↔ x ∈ s.watches l ∧ s.keepWatch start l x = true :=
    fun l x => List.mem_filter
  refine ⟨⟨rfl, rfl, rfl, rfl, rfl, rfl, rfl, rfl, rfl, rfl, rfl, fun _ => rfl, fun _ => rfl, rfl, rfl, rfl⟩,
    ?_, ?_, ?_, fun r h1 h2 => by omega, ?_, ?_, ?_, ?_, fun l _ _ => rfl, fun l r _ _ h1 h2 => by omega⟩
  · show start ≤ (s.arena.take start).length
    rw [List.length_take]; omega
  · intro r hr
    show (s.arena.take start)[r]? = _
    rw [List.getElem?_take, if_pos hr]
  · intro r c hr hc
    have hc : (s.arena.take start)[r]? = some c := hc
    rw [List.getElem?_take, if_neg (by omega)] at hc
    cases hc
  · intro a b
    refine (hw a _).trans ?_
    unfold Solver.keepWatch Solver.rootSatBinary
    simp only [Bool.not_eq_true', decide_eq_false_iff_not, fixed_pos ht]
    constructor
    · rintro ⟨h1, h2⟩
      refine .inl ⟨h1, fun ⟨l, hl, g⟩ => h2 ?_⟩
      simp only [List.mem_cons, List.not_mem_nil, or_false] at hl
      rcases hl with rfl | rfl
      · exact .inl g
      · exact .inr g
    · rintro (⟨h1, h2⟩ | ⟨r, h1, h2, _⟩)
      · refine ⟨h1, fun g => h2 ?_⟩
        rcases g with g | g
        · exact ⟨a, by simp, g⟩
        · exact ⟨b, by simp, g⟩
      · omega
  · intro w b r
    refine (hw w _).trans ?_
    unfold Solver.keepWatch
    simp
  · intro w
    show (((s.watches w).filter (s.keepWatch start w)).filterMap Watch.ref?).Nodup
    exact List.Nodup.sublist (List.Sublist.filterMap _ List.filter_sublist) (hs.inv.watch.once w)
  · intro x hx
    obtain ⟨_, _, h⟩ := List.mem_map.1 hx
    exact h.symm

/-- The state after sweeping. -/
theorem Settled.sweep {s : Solver} {start : Nat} (hs : Settled s) (h : start ≤ s.arena.length) :
    Sweeping s ((s.flushWatches start).sweepGarbage start) start s.arena.length :=
  Sweeping.loop hs _ start _ (Nat.le_refl _) h rfl (Sweeping.init hs h)

end Verif.Core
