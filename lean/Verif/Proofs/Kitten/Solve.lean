import Verif.Proofs.Kitten.Fail

/-! # Decisions and the search loop of kitten -/

namespace Verif.Kitten

open Verif.Spec
open Verif.Core (upd)

/-- A state between calls. -/
structure Rest (k : Kitten) : Prop where
  inv : Inv k
  valid : ∀ a ∈ k.assumptions, a / 2 < k.n
  position : k.inconsistent = none → k.propagated = k.trail.length
  semi : k.inconsistent = none → AllSemi k k.trail.length
  flushed : k.inconsistent = none → k.level = 0 → k.trail = []

/-- The clauses and assumptions are satisfied. -/
def Satisfied (k : Kitten) : Prop :=
  (∀ kl ∈ k.klauses, ∃ l ∈ kl.lits, k.values l = 1) ∧ ∀ a ∈ k.assumptions, k.values a = 1

theorem bump_ok {k : Kitten} {level : Nat} (h : Inv k) (hp : k.propagated = k.trail.length)
    (ht : k.level = 0 → k.trail = []) (hl : k.level ≤ level) : Inv { k with level := level } :=
  ⟨⟨⟨h.vals.dom, h.vals.anti, h.vals.valid, h.vals.count, h.vals.nodup, h.vals.tval, h.vals.flushed,
      fun l hv => Nat.le_trans (h.vals.levle l hv) hl, h.vals.sorted, fun _ l hm => (by
        have hm : l ∈ k.trail := hm
        by_cases h0 : k.level = 0
        · rw [ht h0] at hm; cases hm
        · exact h.vals.high (by omega) l hm), fun l hm => (by
        have hm : l ∈ k.trail.drop k.propagated := hm
        rw [hp, List.drop_length] at hm; cases hm)⟩, ⟨h.why.root, h.why.decision, h.why.first, h.why.reason⟩,
      ⟨h.store.valid, h.store.distinct, h.store.learned, h.store.flag, h.store.empty, h.store.units, h.store.unit,
        h.store.inconsistent⟩⟩, ⟨h.watch.watched, h.watch.back, h.watch.once⟩⟩

theorem flush_ok {k : Kitten} (h : Inv k) (hp : k.propagated = k.trail.length) (hs : AllSemi k k.trail.length) :
    Inv k.flush ∧ k.flush.propagated = k.flush.trail.length ∧ AllSemi k.flush k.flush.trail.length ∧
      (k.flush.level = 0 → k.flush.trail = []) ∧ k.flush.level = k.level ∧ k.flush.values = k.values ∧
      k.flush.vars = k.vars ∧ k.flush.klauses = k.klauses ∧ Keeps k k.flush := by
  unfold Kitten.flush
  by_cases h0 : k.level = 0
  · rw [if_pos h0]
    refine ⟨⟨⟨⟨h.vals.dom, h.vals.anti, h.vals.valid, h.vals.count, (by simp), fun l hm => (by cases hm),
      fun l hv _ => (by have := h.vals.levle l hv; show k.lev l = 0; omega),
      h.vals.levle, .nil, fun _ l hm => (by cases hm), fun l hm => (by cases hm)⟩,
      ⟨h.why.root, h.why.decision, fun a l b e => ?_, fun a l b r e => ?_⟩,
      ⟨h.store.valid, h.store.distinct, h.store.learned, h.store.flag, h.store.empty, h.store.units, h.store.unit,
        h.store.inconsistent⟩⟩, ⟨h.watch.watched, h.watch.back, h.watch.once⟩⟩, rfl, ?_, fun _ => rfl, rfl, rfl, rfl, rfl,
        ⟨rfl, rfl, rfl, rfl, rfl, rfl, rfl, rfl, rfl, rfl, .refl _⟩⟩
    · have e : ([] : List Nat) = a ++ l :: b := e
      simp at e
    · have e : ([] : List Nat) = a ++ l :: b := e
      simp at e
    · intro r kl hr h2
      obtain ⟨w, hw, hsem⟩ := hs r kl hr h2
      exact ⟨w, hw, fun q _ => hsem q (by simp)⟩
  · rw [if_neg h0]
    exact ⟨h, hp, hs, fun hc => absurd hc h0, rfl, rfl, rfl, rfl,
      ⟨rfl, rfl, rfl, rfl, rfl, rfl, rfl, rfl, rfl, rfl, .refl _⟩⟩

/-- The assumptions passed by the loop are true. -/
theorem assumeLoop_ok {values : Nat → Int} : ∀ (as : List Nat) (level : Nat) {level' : Nat} {o : Assume},
    Kitten.assumeLoop values as level = (level', o) → ∃ p q, as = p ++ q ∧ level' = level + p.length ∧
      (∀ a ∈ p, 0 < values a) ∧
      (match o with
       | .failing => ∃ a q', q = a :: q' ∧ values a < 0
       | .decision a => ∃ q', q = a :: q' ∧ ¬ values a < 0 ∧ ¬ 0 < values a
       | .all => q = []) := by
  intro as
  induction as with
  | nil => intro level level' o h; unfold Kitten.assumeLoop at h; cases h; exact ⟨[], [], rfl, rfl, by simp, rfl⟩
  | cons a as ih =>
    intro level level' o h
    unfold Kitten.assumeLoop at h
    by_cases h1 : values a < 0
    · rw [if_pos h1] at h; cases h
      exact ⟨[], a :: as, rfl, rfl, by simp, a, as, rfl, h1⟩
    · rw [if_neg h1] at h
      by_cases h2 : 0 < values a
      · rw [if_pos h2] at h
        obtain ⟨p, q, e, hl, hp, ho⟩ := ih _ h
        refine ⟨a :: p, q, by rw [e]; rfl, by rw [hl, List.length_cons]; omega, ?_, ho⟩
        intro x hx
        rcases List.mem_cons.1 hx with rfl | hx
        · exact h2
        · exact hp x hx
      · rw [if_neg h2] at h; cases h
        exact ⟨[], a :: as, rfl, rfl, by simp, as, rfl, h1, h2⟩

/-- After all variables are assigned all clauses are satisfied. -/
theorem satisfied_ok {k : Kitten} (h : Inv k) (hs : AllSemi k k.trail.length) (hu : UnitsTrue k)
    (hi : k.inconsistent = none) (h0 : k.unassigned = 0) : ∀ kl ∈ k.klauses, ∃ l ∈ kl.lits, k.values l = 1 := by
  have hall : ∀ l, l / 2 < k.n → k.values l ≠ 0 := by
    intro l hl hz
    have := freeCount_pos hl ((h.vals.even_zero l).2 hz)
    rw [← h.vals.count, h0] at this
    omega
  intro kl hk
  obtain ⟨r, hr⟩ := List.getElem?_of_mem hk
  match hl : kl.lits with
  | [] => exact absurd hi (h.store.empty kl hk hl)
  | [l] => exact ⟨l, by simp, (hu r kl l hr hl).1⟩
  | a :: b :: rest =>
    obtain ⟨w, hw, hsem⟩ := hs r kl hr (by rw [hl]; simp)
    have hin : w ∈ kl.lits := by
      rcases hw.2 with h' | h' <;> exact List.mem_of_getElem? h'
    rw [← hl]
    rcases h.vals.dom w with q | q | q
    · exact ⟨w, hin, q⟩
    · exact absurd q (hall w (h.store.valid kl hk w hin))
    · obtain ⟨t, ht, h1, _⟩ := hsem q (by simp)
      exact ⟨t, ht, h1⟩

/-- The outcome of a decision. -/
def DecideOk (k : Kitten) : Decide → Prop
  | .go k' => Search k' ∧ Keeps k k'
  | .result res k' => Rest k' ∧ ((res = 10 ∧ Satisfied k' ∧ Keeps k k') ∨ (res = 20 ∧
      Keeps { k with failed := k'.failed, failing := k'.failing } k' ∧ (∀ l, k'.failed l = true → l ∈ k.assumptions) ∧
      (∀ r, k'.failing = some r → ∃ kl : Klause, k'.klauses[r]? = some kl ∧ ∀ m ∈ kl.lits, k'.failed (neg m) = true) ∧
      (k'.failing = none → ∃ a, k'.failed a = true ∧ k'.failed (neg a) = true)))
  | .stopped k' => Rest k' ∧ Keeps k k'

theorem decideLit_ok {k : Kitten} {level lit : Nat} (h : Inv k) (hp : k.propagated = k.trail.length)
    (hs : AllSemi k k.trail.length) (ht : k.level = 0 → k.trail = []) (hu : UnitsTrue k) (hl : k.level ≤ level)
    (hva : ∀ a ∈ k.assumptions, a / 2 < k.n)
    (has : ∀ (i a : Nat), i < level → k.assumptions[i]? = some a → k.values a = 1 ∧ k.lev a ≤ i + 1)
    (hz : k.values lit = 0) (hn : lit / 2 < k.n) (hnext : k.assumptions[level]? = some lit ∨ k.assumptions.length ≤ level) :
    ∃ k', Kitten.decideLit { k with level := level } lit = some (.go k') ∧ Search k' ∧ Keeps k k' := by
  have h3 := bump_ok (level := level + 1) h hp ht (by omega)
  obtain ⟨k', e, hA, hB, hw, hk⟩ := assign_decision (k := { k with level := level + 1 }) (lit := lit) h3.toBase hz hn
    (by show 0 < level + 1; omega)
    (fun m hm => by
      have := h.vals.levle m (h.vals.tval m hm)
      show k.lev m < level + 1
      omega)
    (fun hc => by
      have hc : level + 1 ≤ k.assumptions.length := hc
      show lit ∈ k.assumptions
      rcases hnext with h' | h'
      · exact List.mem_of_getElem? h'
      · omega)
  have hg := hA.grows hz h3.vals
  refine ⟨k', ?_, ⟨⟨hB, ?_⟩, ?_, ?_, ?_, ?_, ?_⟩, ?_⟩
  · unfold Kitten.decideLit
    show Option.map _ (Kitten.assign { k with level := level + 1 } lit none) = _
    rw [e]; rfl
  · have hw : k'.watches = k.watches := hw
    have hk : k'.klauses = k.klauses := hk
    constructor
    · rw [hw, hk]; exact h.watch.watched
    · rw [hw, hk]; exact h.watch.back
    · rw [hw]; exact h.watch.once
  · rw [hA.propagated, hA.trail]
    show k.propagated ≤ (k.trail ++ [lit]).length
    rw [hp]; simp
  · intro r kl hr h2
    rw [hk] at hr
    have : Semi { k with level := level + 1 } k.trail.length kl.lits := hs r kl hr h2
    rw [hA.propagated]
    show Semi k' k.propagated kl.lits
    rw [hp]
    exact this.grows hg (Nat.le_refl _)
  · exact hg.units hu (extra := []) (by rw [hk]; simp) (fun c hc => by cases hc)
  · intro i a hi ha
    rw [hg.frame.level] at hi
    rw [hg.frame.assumptions] at ha
    have hi : i < level + 1 := hi
    have ha : k.assumptions[i]? = some a := ha
    by_cases hil : i < level
    · obtain ⟨g1, g2⟩ := has i a hil ha
      obtain ⟨q1, q2, _⟩ := hg.keep a (by show k.values a ≠ 0; omega)
      have q2 : k'.lev a = k.lev a := q2
      have q1 : k'.values a = k.values a := q1
      exact ⟨by omega, by omega⟩
    · have : i = level := by omega
      subst this
      rcases hnext with h' | h'
      · rw [ha] at h'
        have h' : a = lit := by simpa using h'
        rw [h']
        refine ⟨hB.vals.tval lit (by rw [hA.trail]; simp), ?_⟩
        rw [hA.lev_self]
        exact Nat.le_refl _
      · have : i < k.assumptions.length := (List.getElem?_eq_some_iff.1 ha).1
        omega
  · intro a ha
    rw [hg.frame.assumptions] at ha
    show a / 2 < k'.exports.length
    rw [hg.frame.exports]
    exact hva a ha
  · exact ⟨rfl, hg.frame.2, hg.frame.3, hg.frame.4, hg.frame.5, hg.frame.6, hg.frame.7, hg.frame.8, hg.frame.9,
      hg.frame.10, hg.frame.11⟩

theorem pick_ok {k : Kitten} {lit : Nat} (h : Vals k) (hu : k.unassigned ≠ 0) :
    ∃ l, k.pick lit = some l ∧ l / 2 < k.n ∧ k.values l = 0 := by
  unfold Kitten.pick
  by_cases hc : lit / 2 < k.exports.length ∧ k.values lit = 0
  · rw [if_pos hc]; exact ⟨lit, rfl, hc.1, hc.2⟩
  · rw [if_neg hc]
    cases hf : (List.range k.exports.length).find? fun v => k.values (2 * v) = 0 with
    | none =>
      exfalso
      apply hu
      rw [h.count]
      unfold freeCount
      rw [List.countP_eq_zero]
      intro v hv
      have := List.find?_eq_none.1 hf v hv
      simpa using this
    | some v =>
      refine ⟨2 * v, rfl, ?_, by simpa using List.find?_some hf⟩
      have := List.mem_range.1 (List.mem_of_find?_eq_some hf)
      show 2 * v / 2 < k.exports.length
      omega

theorem decide_ok {k : Kitten} {c : Choice} (h : Inv k) (hp : k.propagated = k.trail.length)
    (hs : AllSemi k k.trail.length) (hu : UnitsTrue k) (ha : Assumed k) (hva : ∀ a ∈ k.assumptions, a / 2 < k.n)
    (hi : k.inconsistent = none) (hfailed : ∀ l, k.failed l = false) (hfail : k.failing = none) :
    ∃ d, k.decide c = some d ∧ DecideOk k d := by
  obtain ⟨f1, f2, f3, f4, f5, f6, f7, f8, fK⟩ := flush_ok h hp hs
  unfold Kitten.decide
  simp only
  have hu : UnitsTrue k.flush := by
    intro r kl l hr hl
    rw [f8] at hr
    unfold Kitten.lev
    rw [f6, f7]
    exact hu r kl l hr hl
  have ha : Assumed k.flush := by
    intro i a hi' ha'
    rw [f5] at hi'
    rw [fK.assumptions] at ha'
    unfold Kitten.lev
    rw [f6, f7]
    exact ha i a hi' ha'
  have hva : ∀ a ∈ k.flush.assumptions, a / 2 < k.flush.n := by
    intro a ha'
    rw [fK.assumptions] at ha'
    show a / 2 < k.flush.exports.length
    rw [fK.exports]
    exact hva a ha'
  have hi : k.flush.inconsistent = none := fK.inconsistent.trans hi
  have hfailed : ∀ l, k.flush.failed l = false := by intro l; rw [fK.failed]; exact hfailed l
  have hfail : k.flush.failing = none := fK.failing.trans hfail
  have hkas := fK.assumptions
  generalize k.flush = k1 at *
  cases hal : Kitten.assumeLoop k1.values (k1.assumptions.drop k1.level) k1.level with
  | mk level o =>
  obtain ⟨p, q, e, hlev, hpos, ho⟩ := assumeLoop_ok _ _ hal
  have hle : k1.level ≤ level := by omega
  have hidx : ∀ i, k1.level ≤ i → k1.assumptions[i]? = (p ++ q)[i - k1.level]? := by
    intro i hge
    rw [← e, List.getElem?_drop]
    congr 1
    omega
  have has : ∀ (i a : Nat), i < level → k1.assumptions[i]? = some a → k1.values a = 1 ∧ k1.lev a ≤ i + 1 := by
    intro i a hil hia
    by_cases h' : i < k1.level
    · exact ha i a h' hia
    · rw [hidx i (by omega), List.getElem?_append_left (by omega)] at hia
      have hv := f1.vals.pos.1 (hpos a (List.mem_of_getElem? hia))
      exact ⟨hv, by have := f1.vals.levle a hv; omega⟩
  have hI := bump_ok f1 f2 f4 hle
  have hK : Keeps k { k1 with level := level } :=
    ⟨rfl, fK.2, fK.3, fK.4, fK.5, fK.6, fK.7, fK.8, fK.9, fK.10, fK.11⟩
  have hR : Rest { k1 with level := level } := ⟨hI, hva, fun _ => f2, fun _ => f3, fun _ h0 => f4 (by
    have h0 : level = 0 := h0
    omega)⟩
  cases o with
  | failing =>
    obtain ⟨a, q', hq, hneg⟩ := ho
    have hget : k1.assumptions[level]? = some a := by
      rw [hidx level hle, hq, List.getElem?_append_right (by omega), show level - k1.level - p.length = 0 by omega]
      rfl
    have hlen := lt_of_get hget
    obtain ⟨k', e', hF⟩ := fail_ok hI f2 f3 (by show level ≤ k1.assumptions.length; omega)
      ⟨a, List.mem_of_getElem? hget, hneg⟩ hva hfailed hfail
    refine ⟨.result 20 k', by simp only; rw [e']; rfl, ⟨hF.inv, ?_, fun _ => hF.position, fun _ => hF.semi, fun _ h0 => ?_⟩,
      Or.inr ⟨rfl, ?_, ?_, hF.failing, hF.clash⟩⟩
    · intro x hx
      rw [hF.keeps.assumptions] at hx
      show x / 2 < k'.exports.length
      rw [hF.keeps.exports]
      exact hva x hx
    · rw [hF.trail]
      rw [hF.level] at h0
      have h0 : level = 0 := h0
      exact f4 (by omega)
    · have := hF.keeps
      exact ⟨rfl, this.2.trans fK.2, this.3.trans fK.3, this.4.trans fK.4, this.5.trans fK.5, rfl, rfl, this.8.trans fK.8,
        this.9.trans fK.9, this.10.trans fK.10, fK.11.trans this.11⟩
    · intro l hl
      rw [← hkas]
      exact hF.assumed l hl
  | decision a =>
    obtain ⟨q', hq, hn1, hn2⟩ := ho
    have hget : k1.assumptions[level]? = some a := by
      rw [hidx level hle, hq, List.getElem?_append_right (by omega), show level - k1.level - p.length = 0 by omega]
      rfl
    have hz : k1.values a = 0 := by omega
    have hav := hva a (List.mem_of_getElem? hget)
    have hun : k1.unassigned ≠ 0 := by
      rw [f1.vals.count]
      exact Nat.ne_of_gt (freeCount_pos hav ((f1.vals.even_zero a).2 hz))
    simp only
    unfold Kitten.decideNext
    rw [if_neg hun]
    by_cases hst : c.stop = true
    · rw [if_pos hst]; exact ⟨_, rfl, hR, hK⟩
    · rw [if_neg hst]
      obtain ⟨k', e', g1, g2⟩ := decideLit_ok f1 f2 f3 f4 hu hle hva has hz hav (Or.inl hget)
      exact ⟨_, e', g1, fK.trans g2⟩
  | all =>
    have hq : q = [] := ho
    have hbig : k1.assumptions.length ≤ level := by
      have : (k1.assumptions.drop k1.level).length = p.length := by rw [e, hq]; simp
      rw [List.length_drop] at this
      omega
    simp only
    unfold Kitten.decideNext
    by_cases h0 : k1.unassigned = 0
    · rw [if_pos h0]
      refine ⟨_, rfl, hR, Or.inl ⟨rfl, ⟨satisfied_ok hI f3 hu hi h0, fun a ha' => ?_⟩, hK⟩⟩
      obtain ⟨i, hia⟩ := List.getElem?_of_mem ha'
      exact (has i a (by have := lt_of_get hia; have this : i < k1.assumptions.length := this; omega) hia).1
    · rw [if_neg h0]
      by_cases hst : c.stop = true
      · rw [if_pos hst]; exact ⟨_, rfl, hR, hK⟩
      · rw [if_neg hst]
        obtain ⟨l, e1, e2, e3⟩ := pick_ok (lit := c.lit) hI.vals h0
        rw [e1]
        obtain ⟨k', e', g1, g2⟩ := decideLit_ok f1 f2 f3 f4 hu hle hva has e3 e2 (Or.inr hbig)
        exact ⟨_, e', g1, fK.trans g2⟩

/-- The outcome of the search before it is finished. -/
structure Outcome (k k' : Kitten) (res : Nat) : Prop where
  rest : Rest k'
  keeps : Keeps { k with failed := k'.failed, failing := k'.failing, inconsistent := k'.inconsistent } k'
  cases : (res = 10 ∧ k'.inconsistent = none ∧ Satisfied k' ∧ k'.failed = k.failed ∧ k'.failing = k.failing) ∨
    (res = 0 ∧ k'.inconsistent = none ∧ k'.failed = k.failed ∧ k'.failing = k.failing) ∨
    (res = 20 ∧ k'.inconsistent ≠ none ∧ k'.failed = k.failed ∧ k'.failing = k.failing ∧ k'.level = 0) ∨
    (res = 20 ∧ k'.inconsistent = none ∧ (∀ l, k'.failed l = true → l ∈ k.assumptions) ∧
      (∀ r, k'.failing = some r → ∃ kl : Klause, k'.klauses[r]? = some kl ∧ ∀ m ∈ kl.lits, k'.failed (neg m) = true) ∧
      (k'.failing = none → ∃ a, k'.failed a = true ∧ k'.failed (neg a) = true))

/-- What the loop of the search returns. -/
def LoopOk (k : Kitten) : Result → Prop
  | .undefined => False
  | .unfinished => True
  | r => ∃ res k', r = k'.finish res ∧ Outcome k k' res

theorem LoopOk.intro {k k' : Kitten} {res : Nat} (h : Outcome k k' res) : LoopOk k (k'.finish res) :=
  ⟨res, k', rfl, h⟩

theorem LoopOk.back {k k1 : Kitten} (hK : Keeps k k1) {r : Result} (h : LoopOk k1 r) : LoopOk k r := by
  cases r with
  | undefined => exact h
  | unfinished => trivial
  | done res k2 =>
    obtain ⟨res', k', e, g1, g2, g3⟩ := h
    refine ⟨res', k', e, g1, ⟨rfl, g2.2.trans hK.2, g2.3.trans hK.3, g2.4.trans hK.4, g2.5.trans hK.5, rfl, rfl,
      g2.8.trans hK.8, g2.9.trans hK.9, rfl, hK.11.trans g2.11⟩, ?_⟩
    rw [hK.failed, hK.failing, hK.assumptions] at g3
    exact g3

theorem solveLoop_ok {choice : Nat → Choice} : ∀ (n : Nat) (k : Kitten), Search k → k.inconsistent = none →
    (∀ l, k.failed l = false) → k.failing = none → LoopOk k (Kitten.solveLoop choice n k) := by
  intro n
  induction n with
  | zero => intro k _ _ _ _; trivial
  | succ n ih =>
    intro k h hi hf hg
    unfold Kitten.solveLoop
    obtain ⟨k1, conflict, e, g1, g2, g3, g4, g5, g6⟩ := propagate_ok h.inv h.position h.semi
    rw [e]
    have gK := g2.frame.keeps
    have hva : ∀ a ∈ k1.assumptions, a / 2 < k1.n := by
      intro a ha
      rw [gK.assumptions] at ha
      show a / 2 < k1.exports.length
      rw [gK.exports]
      exact h.valid a ha
    have hi1 : k1.inconsistent = none := gK.inconsistent.trans hi
    cases conflict with
    | some c =>
      simp only
      obtain ⟨hb, hfa⟩ := g6 c rfl
      by_cases hl : k1.level ≠ 0
      · rw [if_pos hl]
        obtain ⟨k2, e2, q1, q2, _⟩ := analyze_ok g1 hb hfa (by omega) (g3 h.units) (h.assumed.grows g2) hva
        rw [e2]
        have hK := gK.trans q2
        exact (ih k2 q1 (hK.inconsistent.trans hi) (fun l => by rw [hK.failed]; exact hf l) (hK.failing.trans hg)).back hK
      · rw [if_neg hl]
        obtain ⟨kl, hc, hc2, _⟩ := hfa
        obtain ⟨k2, e2, q1, q2, q3, q4⟩ := falsify_ok g1 (by omega) hi1 hc hc2
        rw [e2]
        have hK := gK.closes q2
        refine LoopOk.intro ⟨⟨q1, ?_, fun hn => absurd hn q3, fun hn => absurd hn q3, fun hn => absurd hn q3⟩,
          ⟨rfl, hK.2, hK.3, hK.4, hK.5, rfl, rfl, hK.8, hK.9, rfl, hK.11⟩,
          Or.inr (Or.inr (Or.inl ⟨rfl, q3, hK.failed, hK.failing, q4⟩))⟩
        intro a ha
        rw [hK.assumptions] at ha
        show a / 2 < k2.exports.length
        rw [hK.exports]
        exact h.valid a ha
    | none =>
      simp only
      obtain ⟨p1, p2⟩ := g5 rfl
      obtain ⟨d, e2, hd⟩ := decide_ok (c := choice n) g1 p1 p2 (g3 h.units) (h.assumed.grows g2) hva hi1
        (fun l => by rw [gK.failed]; exact hf l) (gK.failing.trans hg)
      rw [e2]
      cases d with
      | go k2 =>
        obtain ⟨q1, q2⟩ := hd
        have hK := gK.trans q2
        exact (ih k2 q1 (hK.inconsistent.trans hi) (fun l => by rw [hK.failed]; exact hf l) (hK.failing.trans hg)).back hK
      | stopped k2 =>
        obtain ⟨q1, q2⟩ := hd
        have hK := gK.trans q2
        exact LoopOk.intro ⟨q1, ⟨rfl, hK.2, hK.3, hK.4, hK.5, rfl, rfl, hK.8, hK.9, rfl, hK.11⟩,
          Or.inr (Or.inl ⟨rfl, hK.inconsistent.trans hi, hK.failed, hK.failing⟩)⟩
      | result res k2 =>
        obtain ⟨q1, ⟨rfl, q2, q3⟩ | ⟨rfl, q2, q3, q4, q5⟩⟩ := hd
        · have hK := gK.trans q3
          exact LoopOk.intro ⟨q1, ⟨rfl, hK.2, hK.3, hK.4, hK.5, rfl, rfl, hK.8, hK.9, rfl, hK.11⟩,
            Or.inl ⟨rfl, hK.inconsistent.trans hi, q2, hK.failed, hK.failing⟩⟩
        · rw [gK.assumptions] at q3
          exact LoopOk.intro ⟨q1, ⟨rfl, q2.2.trans gK.2, q2.3.trans gK.3, q2.4.trans gK.4, q2.5.trans gK.5, rfl, rfl,
            q2.8.trans gK.8, q2.9.trans gK.9, rfl, gK.11.trans q2.11⟩,
            Or.inr (Or.inr (Or.inr ⟨rfl, q2.inconsistent.trans hi1, q3, q4, q5⟩))⟩

/-- The search from the root level. -/
theorem search_ok {k : Kitten} {choice : Nat → Choice} {rounds : Nat} (h : Rest k) (hl : k.level = 0)
    (hf : ∀ l, k.failed l = false) (hg : k.failing = none) :
    LoopOk k (match k.propagateUnits with
      | none => .undefined
      | some (k, true) => k.finish 20
      | some (k, false) => Kitten.solveLoop choice rounds k) := by
  unfold Kitten.propagateUnits
  by_cases hi : k.inconsistent ≠ none
  · rw [if_pos hi]
    exact LoopOk.intro ⟨h, ⟨rfl, rfl, rfl, rfl, rfl, rfl, rfl, rfl, rfl, rfl, .refl _⟩,
      Or.inr (Or.inr (Or.inl ⟨rfl, hi, rfl, rfl, hl⟩))⟩
  · rw [if_neg hi]
    have hi : k.inconsistent = none := by
      cases hx : k.inconsistent with
      | none => rfl
      | some r => exact absurd (by rw [hx]; simp) hi
    obtain ⟨k', b, e, q1, q2, q3, q4⟩ := unitLoop_ok (k.units.length + k.exports.length + 1) 0 k h.inv hl hi
      (h.position hi) (h.semi hi) (by omega) (fun i r kl l hc => by omega) (by
        have : k.unassigned ≤ k.exports.length := by
          rw [h.inv.vals.count]
          unfold freeCount
          have := List.countP_le_length (p := fun v => k.values (2 * v) == 0) (l := List.range k.n)
          rw [List.length_range] at this
          exact this
        omega)
    rw [e]
    cases b with
    | false =>
      simp only
      obtain ⟨g1, g2, g3, g4⟩ := q3 rfl
      have gK := g1.frame.keeps
      refine LoopOk.back gK (solveLoop_ok rounds k' ⟨q1, by omega, by rw [g3]; exact g4, g2, fun i a hc => by
        omega, ?_⟩ (gK.inconsistent.trans hi) (fun l => by rw [gK.failed]; exact hf l) (gK.failing.trans hg))
      intro a ha
      rw [gK.assumptions] at ha
      show a / 2 < k'.exports.length
      rw [gK.exports]
      exact h.valid a ha
    | true =>
      simp only
      obtain ⟨g1, g2⟩ := q4 rfl
      refine LoopOk.intro ⟨⟨q1, ?_, fun hn => absurd hn g2, fun hn => absurd hn g2, fun hn => absurd hn g2⟩,
        ⟨rfl, g1.2, g1.3, g1.4, g1.5, rfl, rfl, g1.8, g1.9, rfl, g1.11⟩,
        Or.inr (Or.inr (Or.inl ⟨rfl, g2, g1.failed, g1.failing, q2⟩))⟩
      intro a ha
      rw [g1.assumptions] at ha
      show a / 2 < k'.exports.length
      rw [g1.exports]
      exact h.valid a ha

end Verif.Kitten
