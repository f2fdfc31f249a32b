import Verif.Proofs.Kitten.Solve

/-! # States of kitten between calls -/

namespace Verif.Kitten

open Verif.Spec
open Verif.Core (upd)

/-- The state at root level. -/
def Kitten.root (k : Kitten) : Kitten := if k.level ≠ 0 then k.restart else k

/-- The state at root level without assumptions. -/
def Kitten.calm (k : Kitten) : Kitten := { k.root with assumptions := [] }

/-- A clause without its flag for the core. -/
def strip (c : Klause) : Klause := { c with core := false }

theorem strip_eq {a b : Klause} (h : strip a = strip b) :
    a.lits = b.lits ∧ a.learned = b.learned ∧ a.id = b.id ∧ a.ants = b.ants := by
  unfold strip at h
  injection h with h1 h2 h3 h4 h5
  exact ⟨h4, h1, h3, h5⟩

/-- The same clauses up to flags. -/
abbrev SameKs (a b : List Klause) : Prop := a.map strip = b.map strip

theorem SameKs.get {a b : List Klause} (h : SameKs a b) {r : Nat} {x : Klause} (hr : a[r]? = some x) :
    ∃ y, b[r]? = some y ∧ y.lits = x.lits ∧ y.learned = x.learned ∧ y.id = x.id ∧ y.ants = x.ants := by
  have h1 : (a.map strip)[r]? = (b.map strip)[r]? := by rw [h]
  rw [List.getElem?_map, List.getElem?_map, hr] at h1
  cases hb : b[r]? with
  | none => rw [hb] at h1; cases h1
  | some y =>
    rw [hb] at h1
    exact ⟨y, rfl, strip_eq (by simpa using h1.symm)⟩

theorem SameKs.mem {a b : List Klause} (h : SameKs a b) {x : Klause} (hx : x ∈ a) :
    ∃ y ∈ b, y.lits = x.lits ∧ y.learned = x.learned ∧ y.id = x.id ∧ y.ants = x.ants := by
  obtain ⟨r, hr⟩ := List.getElem?_of_mem hx
  obtain ⟨y, h1, h2⟩ := h.get hr
  exact ⟨y, List.mem_of_getElem? h1, h2⟩

theorem SameKs.fml {a b : List Klause} (h : SameKs a b) (A : Nat → Prop) : ∀ c, Fml a A c → Fml b A c := by
  rintro c ⟨r, kl, hA, hr, rfl⟩
  obtain ⟨y, h1, h2, _⟩ := h.get hr
  exact ⟨r, y, hA, h1, h2.symm⟩

theorem SameKs.orig {a b : List Klause} (h : SameKs a b) : ∀ c, Orig a c → Orig b c := by
  rintro c ⟨kl, hm, hl, rfl⟩
  obtain ⟨y, h1, h2, h3, _⟩ := h.mem hm
  exact ⟨y, h1, h3.trans hl, h2.symm⟩

/-- States which differ in assumptions, failed assumptions, status and core. -/
structure Alike (k k' : Kitten) : Prop where
  values : k'.values = k.values
  vars : k'.vars = k.vars
  trail : k'.trail = k.trail
  level : k'.level = k.level
  propagated : k'.propagated = k.propagated
  unassigned : k'.unassigned = k.unassigned
  exports : k'.exports = k.exports
  imports : k'.imports = k.imports
  watches : k'.watches = k.watches
  units : k'.units = k.units
  inconsistent : k'.inconsistent = k.inconsistent
  antecedents : k'.antecedents = k.antecedents
  learned : k'.learned = k.learned
  klauses : SameKs k'.klauses k.klauses

theorem Alike.refl (k : Kitten) : Alike k k := ⟨rfl, rfl, rfl, rfl, rfl, rfl, rfl, rfl, rfl, rfl, rfl, rfl, rfl, rfl⟩

theorem Alike.trans {a b c : Kitten} (h : Alike a b) (h' : Alike b c) : Alike a c :=
  ⟨h'.1.trans h.1, h'.2.trans h.2, h'.3.trans h.3, h'.4.trans h.4, h'.5.trans h.5, h'.6.trans h.6, h'.7.trans h.7,
    h'.8.trans h.8, h'.9.trans h.9, h'.10.trans h.10, h'.11.trans h.11, h'.12.trans h.12, h'.13.trans h.13,
    h'.14.trans h.14⟩

theorem Alike.symm {a b : Kitten} (h : Alike a b) : Alike b a :=
  ⟨h.1.symm, h.2.symm, h.3.symm, h.4.symm, h.5.symm, h.6.symm, h.7.symm, h.8.symm, h.9.symm, h.10.symm, h.11.symm,
    h.12.symm, h.13.symm, h.14.symm⟩

theorem Alike.ite {k k' : Kitten} {c : Prop} [Decidable c] (h : Alike k k') : Alike k (if c then k' else k) := by
  split
  · exact h
  · exact .refl _

theorem Inv.alike {k k' : Kitten} (h : Inv k) (a : Alike k k')
    (hd : k.level = 0 ∨ k'.assumptions = k.assumptions ∨ k'.assumptions = []) : Inv k' := by
  have hlev : ∀ l, k'.lev l = k.lev l := fun l => by unfold Kitten.lev; rw [a.vars]
  have hwhy : ∀ l, k'.why l = k.why l := fun l => by unfold Kitten.why; rw [a.vars]
  have hn : k'.n = k.n := by show k'.exports.length = k.exports.length; rw [a.exports]
  have back : ∀ {r : Nat} {kl : Klause}, k'.klauses[r]? = some kl → ∃ y, k.klauses[r]? = some y ∧ y.lits = kl.lits ∧
      y.learned = kl.learned ∧ y.id = kl.id ∧ y.ants = kl.ants := fun hr => a.klauses.get hr
  have fwd : ∀ {r : Nat} {kl : Klause}, k.klauses[r]? = some kl → ∃ y, k'.klauses[r]? = some y ∧ y.lits = kl.lits ∧
      y.learned = kl.learned ∧ y.id = kl.id ∧ y.ants = kl.ants := fun hr => SameKs.get a.klauses.symm hr
  have hroot : ∀ l, k.values l = 1 → k.lev l = 0 → k.why l ≠ none := by
    intro l h1 h2
    obtain ⟨r, kl, q, _⟩ := h.why.root l h1 h2
    rw [q]; simp
  refine ⟨⟨⟨?_, ?_, ?_, ?_, ?_, ?_, ?_, ?_, ?_, ?_, ?_⟩, ⟨?_, ?_, ?_, ?_⟩, ⟨?_, ?_, ?_, ?_, ?_, ?_, ?_, ?_⟩⟩, ⟨?_, ?_, ?_⟩⟩
  · rw [a.values]; exact h.vals.dom
  · rw [a.values]; exact h.vals.anti
  · rw [a.values, hn]; exact h.vals.valid
  · rw [a.values, hn, a.unassigned]; exact h.vals.count
  · rw [a.trail]; exact h.vals.nodup
  · rw [a.trail, a.values]; exact h.vals.tval
  · intro l; rw [a.trail, a.values, hlev]; exact h.vals.flushed l
  · intro l; rw [a.values, hlev, a.level]; exact h.vals.levle l
  · rw [a.trail]
    exact h.vals.sorted.imp fun {x y} hxy => by rw [hlev, hlev]; exact hxy
  · rw [a.level, a.trail]; intro h0 l; rw [hlev]; exact h.vals.high h0 l
  · rw [a.level, a.trail, a.propagated]; intro l; rw [hlev]; exact h.vals.pending l
  · intro l h1 h2
    rw [a.values] at h1
    rw [hlev] at h2
    obtain ⟨r, kl, q1, q2, q3⟩ := h.why.root l h1 h2
    obtain ⟨y, e1, e2, _⟩ := fwd q2
    exact ⟨r, y, (hwhy l).trans q1, e1, e2.trans q3⟩
  · intro l h1 h2 h3
    rw [a.values] at h1
    rw [hwhy] at h2
    rw [hlev] at h3
    rcases hd with hd | hd | hd
    · exact absurd h2 (hroot l h1 (by have := h.vals.levle l h1; omega))
    · rw [hd] at h3 ⊢; exact h.why.decision l h1 h2 h3
    · rw [hd] at h3
      exact absurd h2 (hroot l h1 (by simpa using h3))
  · intro x l b e h1 m hm
    rw [a.trail] at e
    rw [hwhy] at h1
    rw [hlev, hlev]
    exact h.why.first x l b e h1 m hm
  · intro x l b r e h1 h2
    rw [a.trail] at e
    rw [hlev] at h1
    rw [hwhy] at h2
    obtain ⟨kl, q1, q2, q3⟩ := h.why.reason x l b r e h1 h2
    obtain ⟨y, e1, e2, _⟩ := fwd q1
    refine ⟨y, e1, by rw [e2]; exact q2, fun m hm hne => ?_⟩
    rw [e2] at hm
    rw [a.values, hlev]
    exact q3 m hm hne
  · intro kl hk l hl
    obtain ⟨y, e1, e2, _⟩ := a.klauses.mem hk
    rw [hn]
    exact h.store.valid y e1 l (by rw [e2]; exact hl)
  · intro kl hk
    obtain ⟨y, e1, e2, _⟩ := a.klauses.mem hk
    rw [← e2]
    exact h.store.distinct y e1
  · intro r kl hr hl
    obtain ⟨y, e1, e2, e3, e4, e5⟩ := back hr
    obtain ⟨A, g1, g2, g3⟩ := h.store.learned r y e1 (e3.trans hl)
    rw [a.antecedents, ← e2]
    exact ⟨A, g1, fun ha => (g2 ha).trans e5, g3.mono_sub (SameKs.fml a.klauses.symm _)⟩
  · intro hl kl hk
    obtain ⟨y, e1, e2, e3, _⟩ := a.klauses.mem hk
    rw [a.learned] at hl
    rw [← e3]
    exact h.store.flag hl y e1
  · intro kl hk hl
    obtain ⟨y, e1, e2, _⟩ := a.klauses.mem hk
    rw [a.inconsistent]
    exact h.store.empty y e1 (e2.trans hl)
  · intro r kl l hr hl
    obtain ⟨y, e1, e2, _⟩ := back hr
    rw [a.units]
    exact h.store.units r y l e1 (e2.trans hl)
  · intro r hr
    rw [a.units] at hr
    obtain ⟨kl, l, q1, q2⟩ := h.store.unit r hr
    obtain ⟨y, e1, e2, _⟩ := fwd q1
    exact ⟨y, l, e1, e2.trans q2⟩
  · intro r hr
    rw [a.inconsistent] at hr
    obtain ⟨⟨kl, q1, q2⟩, q3⟩ := h.store.inconsistent r hr
    obtain ⟨y, e1, e2, _⟩ := fwd q1
    rw [a.antecedents]
    refine ⟨⟨y, e1, fun ha => e2.trans (q2 ha)⟩, ?_⟩
    rintro ⟨σ, hs⟩
    exact q3 ⟨σ, fun c hc => hs c (SameKs.orig a.klauses.symm c hc)⟩
  · intro r kl w hr hw
    obtain ⟨y, e1, e2, _⟩ := back hr
    rw [a.watches]
    exact h.watch.watched r y w e1 (by rw [e2]; exact hw)
  · intro w x hx
    rw [a.watches] at hx
    obtain ⟨kl, q1, q2, q3, q4, q5⟩ := h.watch.back w x hx
    obtain ⟨y, e1, e2, _⟩ := fwd q1
    exact ⟨y, e1, by rw [e2]; exact q2, by rw [e2]; exact q3, q4, by rw [e2]; exact q5⟩
  · rw [a.watches]; exact h.watch.once

theorem Inv.noAssumptions {k : Kitten} (h : Inv k) : Inv { k with assumptions := [] } :=
  h.alike ⟨rfl, rfl, rfl, rfl, rfl, rfl, rfl, rfl, rfl, rfl, rfl, rfl, rfl, rfl⟩ (Or.inr (Or.inr rfl))

theorem AllSemi.alike {k k' : Kitten} {p : Nat} (h : AllSemi k p) (a : Alike k k') : AllSemi k' p := by
  intro r kl hr h2
  obtain ⟨y, e1, e2, _⟩ := a.klauses.get hr
  obtain ⟨w, hw, hs⟩ := h r y e1 (by rw [e2]; exact h2)
  rw [e2] at hw hs
  refine ⟨w, hw, fun q1 q2 => ?_⟩
  rw [a.values] at q1
  rw [a.trail] at q2
  unfold Kitten.lev
  rw [a.values, a.vars]
  exact hs q1 q2

/-! ## The state at root level -/

theorem root_level (k : Kitten) : k.root.level = 0 := by
  unfold Kitten.root
  split
  · rfl
  · rename_i h; simpa using h

theorem root_zero {k : Kitten} (h : k.level = 0) : k.root = k := by
  unfold Kitten.root; rw [if_neg (by omega)]

theorem root_pos {k : Kitten} (h : k.level ≠ 0) : k.root = k.restart := by
  unfold Kitten.root; rw [if_pos h]

/-- Everything else is not touched. -/
theorem root_same (k : Kitten) : k.root.klauses = k.klauses ∧ k.root.exports = k.exports ∧ k.root.imports = k.imports ∧
    k.root.inconsistent = k.inconsistent ∧ k.root.status = k.status ∧ k.root.assumptions = k.assumptions ∧
    k.root.failed = k.failed ∧ k.root.failing = k.failing ∧ k.root.core = k.core ∧ k.root.antecedents = k.antecedents ∧
    k.root.learned = k.learned ∧ k.root.vars = k.vars ∧ k.root.units = k.units ∧ k.root.watches = k.watches := by
  unfold Kitten.root
  split <;> exact ⟨rfl, rfl, rfl, rfl, rfl, rfl, rfl, rfl, rfl, rfl, rfl, rfl, rfl, rfl⟩

theorem calm_root (k : Kitten) : Alike k.calm k.root :=
  ⟨rfl, rfl, rfl, rfl, rfl, rfl, rfl, rfl, rfl, rfl, rfl, rfl, rfl, rfl⟩

/-- Imported variables. -/
def Names (k : Kitten) : Prop := ∀ (v i : Nat), k.exports[i]? = some v ↔ k.imports v = i + 1

/-- The invariant between calls. -/
structure Good (k : Kitten) : Prop where
  inv : Inv k.calm
  valid : ∀ a ∈ k.assumptions, a / 2 < k.n
  semi : k.inconsistent = none → AllSemi k.calm 0 ∧ k.calm.trail = [] ∧ k.calm.propagated = 0
  failed : ∀ l, k.failed l = true → l ∈ k.assumptions
  failing : k.failing ≠ none → k.assumptions ≠ []
  idle : (k.status = 0 ∨ k.inconsistent ≠ none) → (∀ l, k.failed l = false) ∧ k.failing = none
  core : k.status ≠ 21 → k.core = [] ∧ ∀ kl ∈ k.klauses, kl.core = false
  names : Names k

theorem init_good : Good Kitten.init := by
  have hc : Kitten.init.calm = Kitten.init := rfl
  refine ⟨?_, fun a h => (by cases h), fun _ => ⟨fun r kl hr => (by cases hr), rfl, rfl⟩, fun l h => (by cases h), fun h => absurd rfl h,
    fun _ => ⟨fun _ => rfl, rfl⟩, fun _ => ⟨rfl, fun kl h => (by cases h)⟩, fun v i => ?_⟩
  · rw [hc]
    refine ⟨⟨⟨fun _ => Or.inr (Or.inl rfl), fun _ => rfl, fun l h => absurd rfl h, rfl, .nil, fun l h => (by cases h),
      fun l h => (by cases h), fun l h => (by cases h), .nil, fun h => (by cases h), fun l h => (by cases h)⟩,
      ⟨fun l h => (by cases h), fun l h => (by cases h), fun a l b h => ?_, fun a l b r h => ?_⟩,
      ⟨fun l h => (by cases h), fun l h => (by cases h), fun r kl h => (by cases h), fun _ kl h => (by cases h),
        fun kl h => (by cases h), fun r kl l h => (by cases h), fun r h => (by cases h), fun r h => (by cases h)⟩⟩,
      ⟨fun r kl w h => (by cases h), fun w x h => (by cases h), fun w => .nil⟩⟩
    · have h : ([] : List Nat) = a ++ l :: b := h
      simp at h
    · have h : ([] : List Nat) = a ++ l :: b := h
      simp at h
  · show ([] : List Nat)[i]? = some v ↔ 0 = i + 1
    simp

/-- The state at root level can be searched. -/
theorem Good.root {k : Kitten} (h : Good k) : Rest k.root := by
  obtain ⟨r1, r2, r3, r4, r5, r6, r7, r8, r9, r10, r11, r12, r13, r14⟩ := root_same k
  refine ⟨h.inv.alike (calm_root k) (Or.inl (root_level k)), ?_, ?_, ?_, ?_⟩
  · intro a ha
    rw [r6] at ha
    show a / 2 < k.root.exports.length
    rw [r2]
    exact h.valid a ha
  · intro hi
    rw [r4] at hi
    obtain ⟨_, h1, h2⟩ := h.semi hi
    have h1 : k.root.trail = [] := h1
    have h2 : k.root.propagated = 0 := h2
    rw [h1, h2]; rfl
  · intro hi
    rw [r4] at hi
    obtain ⟨h0, h1, _⟩ := h.semi hi
    have h1 : k.root.trail = [] := h1
    rw [h1]
    exact h0.alike (calm_root k)
  · intro hi _
    rw [r4] at hi
    exact (h.semi hi).2.1

theorem foldl_false (as : List Nat) : ∀ (f : Nat → Bool) (l : Nat), (f l = true → l ∈ as) →
    as.foldl (fun f a => upd f a false) f l = false := by
  induction as with
  | nil =>
    intro f l h
    cases hf : f l with
    | false => exact hf
    | true => cases h hf
  | cons a as ih =>
    intro f l h
    refine ih _ l fun hl => ?_
    have hl : upd f a false l = true := hl
    unfold upd at hl
    split at hl
    · cases hl
    · rename_i hne
      rcases List.mem_cons.1 (h hl) with h' | h'
      · exact absurd h' hne
      · exact h'

theorem resetAssumptions_alike (k : Kitten) : Alike k k.resetAssumptions :=
  ⟨rfl, rfl, rfl, rfl, rfl, rfl, rfl, rfl, rfl, rfl, rfl, rfl, rfl, rfl⟩

theorem resetCore_alike (k : Kitten) : Alike k k.resetCore := by
  refine ⟨rfl, rfl, rfl, rfl, rfl, rfl, rfl, rfl, rfl, rfl, rfl, rfl, rfl, ?_⟩
  show (k.klauses.map fun c => { c with core := false }).map strip = k.klauses.map strip
  rw [List.map_map]
  rfl

theorem status_alike (k : Kitten) (n : Nat) : Alike k { k with status := n } :=
  ⟨rfl, rfl, rfl, rfl, rfl, rfl, rfl, rfl, rfl, rfl, rfl, rfl, rfl, rfl⟩

/-- The steps of a reset. -/
def Kitten.reset1 (k : Kitten) : Kitten := if k.assumptions ≠ [] then k.resetAssumptions else k
def Kitten.reset2 (k : Kitten) : Kitten := if k.status = 21 then k.resetCore else k

theorem reset_eq (k : Kitten) : k.reset = { k.root.reset1.reset2 with status := 0 } := rfl

theorem reset_alike (k : Kitten) : Alike k.root k.reset := by
  rw [reset_eq]
  refine Alike.trans ?_ (status_alike _ 0)
  refine Alike.trans (b := k.root.reset1) ?_ ?_
  · exact Alike.ite (resetAssumptions_alike _)
  · exact Alike.ite (resetCore_alike _)

/-- Assumptions and core are gone. -/
theorem reset_clean {k : Kitten} (h : Good k) : k.reset.assumptions = [] ∧ (∀ l, k.reset.failed l = false) ∧
    k.reset.failing = none ∧ k.reset.core = [] ∧ (∀ kl ∈ k.reset.klauses, kl.core = false) ∧ k.reset.status = 0 := by
  obtain ⟨r1, r2, r3, r4, r5, r6, r7, r8, r9, r10, r11, r12, r13, r14⟩ := root_same k
  have s1 : k.root.reset1.assumptions = [] ∧ (∀ l, k.root.reset1.failed l = false) ∧ k.root.reset1.failing = none ∧
      k.root.reset1.core = k.core ∧ k.root.reset1.klauses = k.klauses ∧ k.root.reset1.status = k.status := by
    unfold Kitten.reset1
    by_cases ha : k.root.assumptions ≠ []
    · rw [if_pos ha]
      refine ⟨rfl, fun l => foldl_false _ _ _ fun hl => ?_, rfl, r9, r1, r5⟩
      rw [r7] at hl
      rw [r6]
      exact h.failed l hl
    · rw [if_neg ha]
      have ha : k.root.assumptions = [] := Classical.not_not.1 ha
      refine ⟨ha, fun l => ?_, ?_, r9, r1, r5⟩
      · rw [r7]
        cases hf : k.failed l with
        | false => rfl
        | true =>
          have := h.failed l hf
          rw [← r6, ha] at this
          cases this
      · rw [r8]
        cases hf : k.failing with
        | none => rfl
        | some r => exact absurd (r6.symm.trans ha) (h.failing (by rw [hf]; simp))
  rw [reset_eq]
  generalize k.root.reset1 = k1 at *
  obtain ⟨a1, a2, a3, a4, a5, a6⟩ := s1
  unfold Kitten.reset2
  by_cases hs : k1.status = 21
  · rw [if_pos hs]
    refine ⟨a1, a2, a3, rfl, fun kl hk => ?_, rfl⟩
    have hk : kl ∈ k1.klauses.map (fun c => { c with core := false }) := hk
    obtain ⟨c, _, rfl⟩ := List.mem_map.1 hk
    rfl
  · rw [if_neg hs]
    obtain ⟨g1, g2⟩ := h.core (by omega)
    refine ⟨a1, a2, a3, a4.trans g1, fun kl hk => ?_, rfl⟩
    have hk : kl ∈ k1.klauses := hk
    rw [a5] at hk
    exact g2 kl hk

theorem Names.congr {k k' : Kitten} (h : Names k) (h1 : k'.exports = k.exports) (h2 : k'.imports = k.imports) : Names k' := by
  unfold Names
  rw [h1, h2]
  exact h

/-- A root-level state. -/
theorem good_of_rest {k : Kitten} (h : Rest k) (hl : k.level = 0) (hf : ∀ l, k.failed l = false) (hg : k.failing = none)
    (hc : k.core = []) (hk : ∀ kl ∈ k.klauses, kl.core = false) (hn : Names k) : Good k := by
  have hr := root_zero hl
  refine ⟨?_, h.valid, fun hi => ?_, fun l hl => (by rw [hf] at hl; cases hl), fun hc => absurd hg hc, fun _ => ⟨hf, hg⟩,
    fun _ => ⟨hc, hk⟩, hn⟩
  · unfold Kitten.calm
    rw [hr]
    exact h.inv.noAssumptions
  · have ht := h.flushed hi hl
    unfold Kitten.calm
    rw [hr]
    have hs := h.semi hi
    rw [ht] at hs
    have hp := h.position hi
    rw [ht] at hp
    exact ⟨hs, ht, hp⟩

theorem Rest.alike {k k' : Kitten} (h : Rest k) (a : Alike k k') (hl : k.level = 0) (hv : ∀ x ∈ k'.assumptions, x / 2 < k.n) : Rest k' := by
  refine ⟨h.inv.alike a (Or.inl hl), ?_, ?_, ?_, ?_⟩
  · intro x hx; show x / 2 < k'.exports.length; rw [a.exports]; exact hv x hx
  · rw [a.inconsistent, a.propagated, a.trail]; exact h.position
  · rw [a.inconsistent, a.trail]; intro hi; exact (h.semi hi).alike a
  · rw [a.inconsistent, a.trail, a.level]; exact h.flushed

theorem reset_ok {k : Kitten} (h : Good k) : Rest k.reset ∧ k.reset.level = 0 ∧ Good k.reset := by
  obtain ⟨c1, c2, c3, c4, c5, c6⟩ := reset_clean h
  have ha := reset_alike k
  have hR : Rest k.reset := h.root.alike ha (root_level k) (by rw [c1]; intro x hx; cases hx)
  have hl : k.reset.level = 0 := ha.level.trans (root_level k)
  obtain ⟨r1, r2, r3, _⟩ := root_same k
  exact ⟨hR, hl, good_of_rest hR hl c2 c3 c4 c5 (h.names.congr (ha.exports.trans r2) (ha.imports.trans r3))⟩

/-- A call which changes the problem. -/
theorem ready_ok {k : Kitten} (h : Good k) : Good k.ready ∧ k.ready.status = 0 ∧ k.ready.exports = k.exports ∧
    k.ready.imports = k.imports ∧ SameKs k.ready.klauses k.klauses ∧ k.ready.inconsistent = k.inconsistent ∧
    k.ready.antecedents = k.antecedents ∧ k.ready.assumptions = (if k.status ≠ 0 then [] else k.assumptions) := by
  obtain ⟨r1, r2, r3, r4, r5, r6, r7, r8, r9, r10, r11, r12, r13, r14⟩ := root_same k
  unfold Kitten.ready
  by_cases hs : k.status ≠ 0
  · rw [if_pos hs, if_pos hs]
    have ha := reset_alike k
    obtain ⟨c1, _, _, _, _, c6⟩ := reset_clean h
    exact ⟨(reset_ok h).2.2, c6, ha.exports.trans r2, ha.imports.trans r3, by rw [← r1]; exact ha.klauses,
      ha.inconsistent.trans r4, ha.antecedents.trans r10, c1⟩
  · rw [if_neg hs, if_neg hs]
    exact ⟨h, Classical.not_not.1 hs, rfl, rfl, rfl, rfl, rfl, rfl⟩

/-- The state before a search. -/
theorem prepare_ok {k : Kitten} (h : Good k) : Rest k.prepare ∧ k.prepare.level = 0 ∧ (∀ l, k.prepare.failed l = false) ∧
    k.prepare.failing = none ∧ k.prepare.core = [] ∧ (∀ kl ∈ k.prepare.klauses, kl.core = false) ∧
    k.prepare.exports = k.exports ∧ k.prepare.imports = k.imports ∧ SameKs k.prepare.klauses k.klauses ∧
    k.prepare.inconsistent = k.inconsistent ∧ k.prepare.antecedents = k.antecedents ∧
    k.prepare.assumptions = (if k.status ≠ 0 then [] else k.assumptions) ∧ k.prepare.status = 0 := by
  obtain ⟨r1, r2, r3, r4, r5, r6, r7, r8, r9, r10, r11, r12, r13, r14⟩ := root_same k
  unfold Kitten.prepare
  by_cases hs : k.status ≠ 0
  · rw [if_pos hs, if_pos hs]
    have ha := reset_alike k
    obtain ⟨c1, c2, c3, c4, c5, c6⟩ := reset_clean h
    exact ⟨(reset_ok h).1, (reset_ok h).2.1, c2, c3, c4, c5, ha.exports.trans r2, ha.imports.trans r3, by
      rw [← r1]; exact ha.klauses, ha.inconsistent.trans r4, ha.antecedents.trans r10, c1, c6⟩
  · rw [if_neg hs, if_neg hs]
    have hs : k.status = 0 := Classical.not_not.1 hs
    show Rest k.root ∧ k.root.level = 0 ∧ (∀ l, k.root.failed l = false) ∧
      k.root.failing = none ∧ k.root.core = [] ∧ (∀ kl ∈ k.root.klauses, kl.core = false) ∧
      k.root.exports = k.exports ∧ k.root.imports = k.imports ∧ SameKs k.root.klauses k.klauses ∧
      k.root.inconsistent = k.inconsistent ∧ k.root.antecedents = k.antecedents ∧ k.root.assumptions = k.assumptions ∧
      k.root.status = 0
    obtain ⟨i1, i2⟩ := h.idle (Or.inl hs)
    obtain ⟨g1, g2⟩ := h.core (by omega)
    exact ⟨h.root, root_level k, fun l => by rw [r7]; exact i1 l, r8.trans i2, r9.trans g1, fun kl hk => g2 kl (by
      rw [r1] at hk; exact hk), r2, r3, by rw [r1], r4, r10, r6, r5.trans hs⟩

/-- A state after a search. -/
theorem Rest.calm {k : Kitten} (h : Rest k) : Inv k.calm ∧
    (k.inconsistent = none → AllSemi k.calm 0 ∧ k.calm.trail = [] ∧ k.calm.propagated = 0) := by
  by_cases hl : k.level = 0
  · unfold Kitten.calm
    rw [root_zero hl]
    refine ⟨h.inv.noAssumptions, fun hi => ?_⟩
    have ht := h.flushed hi hl
    have hs := h.semi hi
    rw [ht] at hs
    have hp := h.position hi
    rw [ht] at hp
    exact ⟨hs, ht, hp⟩
  · have hu := restart_undo h.inv.vals (by omega)
    unfold Kitten.calm
    rw [root_pos hl]
    refine ⟨(hu.inv h.inv).noAssumptions, fun hi => ⟨?_, rfl, rfl⟩⟩
    have hb : AllBelow k := fun r kl hr h2 => (h.semi hi r kl hr h2).below (by simp)
    exact hu.allSemi h.inv.vals hb

end Verif.Kitten
