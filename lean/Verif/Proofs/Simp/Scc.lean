import Verif.Model.Simp.Scc
import Verif.Proofs.Cnf

/-!
# Strongly connected components: Tarjan's algorithm is correct
-/

namespace Verif.Simp

open Verif.Spec

/-- Reachability. -/
inductive Path (succ : Nat → List Nat) : Nat → Nat → Prop
  | refl (a : Nat) : Path succ a a
  | step {a b c : Nat} : b ∈ succ a → Path succ b c → Path succ a c

theorem Path.trans {succ : Nat → List Nat} {a b c : Nat} (h : Path succ a b) (h' : Path succ b c) :
    Path succ a c := by
  induction h with
  | refl => exact h'
  | step h1 _ ih => exact .step h1 (ih h')

theorem Path.one {succ : Nat → List Nat} {a b : Nat} (h : b ∈ succ a) : Path succ a b := .step h (.refl _)

theorem Path.closed {succ : Nat → List Nat} {p : Nat → Prop} (hp : ∀ a b, p a → b ∈ succ a → p b)
    {a b : Nat} (h : Path succ a b) (ha : p a) : p b := by
  induction h with
  | refl => exact ha
  | step h1 _ ih => exact ih (hp _ _ ha h1)

/-- The graph of the active literals: successors are active, and there is an edge from `a` to `b` if and only if
there is one from `¬b` to `¬a`. -/
structure Graph (succ : Nat → List Nat) (act : Nat → Prop) : Prop where
  closed : ∀ a b, b ∈ succ a → act b
  actNeg : ∀ a, act a → act (neg a)
  skew : ∀ a b, act a → b ∈ succ a → neg a ∈ succ (neg b)

theorem Path.skew {succ : Nat → List Nat} {act : Nat → Prop} (hg : Graph succ act) {a b : Nat}
    (h : Path succ a b) (ha : act a) : Path succ (neg b) (neg a) := by
  induction h with
  | refl => exact .refl _
  | @step a b c h1 h2 ih => exact (ih (hg.closed _ _ h1)).trans (.one (hg.skew _ _ ha h1))

/-- The negation of `u` implies both a literal and its negation. -/
def Good (succ : Nat → List Nat) (act : Nat → Prop) (u : Nat) : Prop :=
  act u ∧ ∃ x, Path succ (neg u) x ∧ Path succ (neg u) (neg x)

/-! ## Minimum -/

theorem upd_same {α : Type} (f : Nat → α) (i : Nat) (a : α) : upd f i a i = a := if_pos rfl

theorem upd_ne {α : Type} (f : Nat → α) {i k : Nat} (a : α) (h : k ≠ i) : upd f i a k = f k := if_neg h

/-- Order of the numbers where `none` is the largest one. -/
def LeR (a b : Option Nat) : Prop := ∀ k, b = some k → ∃ j, a = some j ∧ j ≤ k

theorem LeR.refl (a : Option Nat) : LeR a a := fun k h => ⟨k, h, Nat.le_refl _⟩

theorem LeR.trans {a b c : Option Nat} (h : LeR a b) (h' : LeR b c) : LeR a c := by
  intro k hk
  obtain ⟨j, h1, h2⟩ := h' k hk
  obtain ⟨i, h3, h4⟩ := h j h1
  exact ⟨i, h3, by omega⟩

theorem minReach_spec (a b : Option Nat) : LeR (minReach a b) a ∧ LeR (minReach a b) b ∧
    (minReach a b = a ∨ minReach a b = b) := by
  unfold minReach
  cases a with
  | none =>
    exact ⟨fun k h => (by cases h), .refl _, Or.inr rfl⟩
  | some a =>
    cases b with
    | none => exact ⟨.refl _, fun k h => (by cases h), Or.inl rfl⟩
    | some b =>
      dsimp only
      split
      · exact ⟨.refl _, fun k h => ⟨a, rfl, by cases h; omega⟩, Or.inl rfl⟩
      · exact ⟨fun k h => ⟨b, rfl, by cases h; omega⟩, .refl _, Or.inr rfl⟩

theorem foldReach_spec (reach : Nat → Option Nat) : ∀ (os : List Nat) (r : Option Nat),
    LeR (os.foldl (fun r o => minReach (reach o) r) r) r ∧
    (∀ o ∈ os, LeR (os.foldl (fun r o => minReach (reach o) r) r) (reach o)) ∧
    (os.foldl (fun r o => minReach (reach o) r) r = r ∨
      ∃ o ∈ os, os.foldl (fun r o => minReach (reach o) r) r = reach o)
  | [], r => ⟨.refl _, fun o ho => (by cases ho), Or.inl rfl⟩
  | o :: os, r => by
    obtain ⟨h1, h2, h3⟩ := foldReach_spec reach os (minReach (reach o) r)
    obtain ⟨m1, m2, m3⟩ := minReach_spec (reach o) r
    simp only [List.foldl_cons]
    refine ⟨h1.trans m2, fun p hp => ?_, ?_⟩
    · rcases List.mem_cons.1 hp with rfl | hp
      · exact h1.trans m1
      · exact h2 p hp
    · rcases h3 with h3 | ⟨p, hp, h3⟩
      · rcases m3 with m3 | m3
        · exact Or.inr ⟨o, by simp, h3.trans m3⟩
        · exact Or.inl (h3.trans m3)
      · exact Or.inr ⟨p, List.mem_cons_of_mem _ hp, h3⟩

theorem minLit_spec : ∀ (seg : List Nat) (lit : Nat),
    (minLit lit seg = lit ∨ minLit lit seg ∈ seg) ∧ minLit lit seg ≤ lit ∧ ∀ x ∈ seg, minLit lit seg ≤ x
  | [], lit => ⟨Or.inl rfl, Nat.le_refl _, fun x hx => (by cases hx)⟩
  | o :: seg, lit => by
    have e : minLit lit (o :: seg) = minLit (if o < lit then o else lit) seg := rfl
    obtain ⟨h1, h2, h3⟩ := minLit_spec seg (if o < lit then o else lit)
    have m1 : (if o < lit then o else lit) ≤ lit := by split <;> omega
    have m2 : (if o < lit then o else lit) ≤ o := by split <;> omega
    rw [e]
    refine ⟨?_, ?_, fun x hx => ?_⟩
    · rcases h1 with h1 | h1
      · rw [h1]
        split
        · exact Or.inr (by simp)
        · exact Or.inl rfl
      · exact Or.inr (List.mem_cons_of_mem _ h1)
    · exact Nat.le_trans h2 m1
    · rcases List.mem_cons.1 hx with rfl | hx
      · exact Nat.le_trans h2 m2
      · exact h3 x hx

/-! ## One component -/

theorem assign_spec (root min : Nat) : ∀ (seg : List Nat) (t : Scc), t.clash = false →
    (t.assign root min seg).mark = t.mark ∧ (t.assign root min seg).scc = t.scc ∧
    (t.assign root min seg).work = t.work ∧ (t.assign root min seg).reached = t.reached ∧
    ((t.assign root min seg).clash = false →
      (∀ a, (t.assign root min seg).repr a = if a ∈ seg then some min else t.repr a) ∧
      (∀ a, (t.assign root min seg).reach a = if a ∈ seg then none else t.reach a) ∧
      (∀ o ∈ seg, (t.assign root min seg).repr (neg o) ≠ some min)) ∧
    ((t.assign root min seg).clash = true → ∃ us, (t.assign root min seg).units = min :: us ∧
      ∃ o ∈ seg, t.repr (neg o) = some min ∨ neg o ∈ seg) ∧
    (∀ u ∈ (t.assign root min seg).units, u ∈ t.units ∨
      ((t.assign root min seg).clash = true ∧ u = min) ∨
      (u = neg root ∧ ∃ o ∈ seg, (t.repr (neg o) ≠ none ∨ neg o ∈ seg) ∧ t.mark root ≤ t.mark (neg o)))
  | [], t, hc => by
    refine ⟨rfl, rfl, rfl, rfl, fun _ => ⟨fun a => by simp [Scc.assign], fun a => by simp [Scc.assign],
      fun o ho => (by cases ho)⟩, fun h => ?_, fun u hu => Or.inl hu⟩
    have : t.clash = true := h
    rw [hc] at this; cases this
  | other :: rest, t, hc => by
    unfold Scc.assign
    dsimp only
    -- after the update
    have go : ∀ t1 : Scc, t1.clash = false → t1.mark = t.mark → t1.scc = t.scc → t1.work = t.work →
        t1.reached = t.reached → t1.repr = upd t.repr other (some min) →
        t1.reach = upd t.reach other none →
        (∀ u ∈ t1.units, u ∈ t.units ∨ (u = neg root ∧ t1.repr (neg other) ≠ none ∧ t.mark root ≤ t.mark (neg other))) →
        t1.repr (neg other) ≠ some min →
        (t1.assign root min rest).mark = t.mark ∧ (t1.assign root min rest).scc = t.scc ∧
        (t1.assign root min rest).work = t.work ∧ (t1.assign root min rest).reached = t.reached ∧
        ((t1.assign root min rest).clash = false →
          (∀ a, (t1.assign root min rest).repr a = if a ∈ other :: rest then some min else t.repr a) ∧
          (∀ a, (t1.assign root min rest).reach a = if a ∈ other :: rest then none else t.reach a) ∧
          (∀ o ∈ other :: rest, (t1.assign root min rest).repr (neg o) ≠ some min)) ∧
        ((t1.assign root min rest).clash = true → ∃ us, (t1.assign root min rest).units = min :: us ∧
          ∃ o ∈ other :: rest, t.repr (neg o) = some min ∨ neg o ∈ other :: rest) ∧
        (∀ u ∈ (t1.assign root min rest).units, u ∈ t.units ∨
          ((t1.assign root min rest).clash = true ∧ u = min) ∨
          (u = neg root ∧ ∃ o ∈ other :: rest, (t.repr (neg o) ≠ none ∨ neg o ∈ other :: rest) ∧
            t.mark root ≤ t.mark (neg o))) := by
      intro t1 c1 c2 c3 c4 c5 c6 c7 c8 c9
      obtain ⟨i1, i2, i3, i4, i5, i6, i7⟩ := assign_spec root min rest t1 c1
      have split1 : ∀ a, t1.repr a ≠ none → t.repr a ≠ none ∨ a ∈ other :: rest := by
        intro a ha
        by_cases e : a = other
        · exact Or.inr (by simp [e])
        · rw [c6, upd_ne _ _ e] at ha; exact Or.inl ha
      refine ⟨i1.trans c2, i2.trans c3, i3.trans c4, i4.trans c5, fun h => ?_, fun h => ?_, fun u hu => ?_⟩
      · obtain ⟨j1, j2, j3⟩ := i5 h
        refine ⟨fun a => ?_, fun a => ?_, fun o ho => ?_⟩
        · rw [j1, c6]
          by_cases e : a ∈ rest
          · simp [e]
          · by_cases e2 : a = other
            · subst e2; simp [upd_same]
            · rw [upd_ne _ _ e2]; simp [e, e2]
        · rw [j2, c7]
          by_cases e : a ∈ rest
          · simp [e]
          · by_cases e2 : a = other
            · subst e2; simp [upd_same]
            · rw [upd_ne _ _ e2]; simp [e, e2]
        · rcases List.mem_cons.1 ho with rfl | ho
          · rw [j1]
            by_cases e : neg o ∈ rest
            · have := j3 _ e
              rw [neg_neg, j1] at this
              split at this
              · exact absurd rfl this
              · rw [c6, upd_same] at this; exact absurd rfl this
            · rw [if_neg e]; exact c9
          · exact j3 o ho
      · obtain ⟨us, h1, o, h2, h3⟩ := i6 h
        refine ⟨us, h1, o, List.mem_cons_of_mem _ h2, ?_⟩
        rcases h3 with h3 | h3
        · by_cases e : neg o = other
          · exact Or.inr (by simp [e])
          · rw [c6, upd_ne _ _ e] at h3; exact Or.inl h3
        · exact Or.inr (List.mem_cons_of_mem _ h3)
      · rcases i7 u hu with h | h | ⟨h1, o, h2, h3, h4⟩
        · rcases c8 u h with h | ⟨h1, h2, h3⟩
          · exact Or.inl h
          · exact Or.inr (Or.inr ⟨h1, other, by simp, split1 _ h2, h3⟩)
        · exact Or.inr (Or.inl h)
        · rw [c2] at h4
          refine Or.inr (Or.inr ⟨h1, o, List.mem_cons_of_mem _ h2, ?_, h4⟩)
          rcases h3 with h3 | h3
          · exact split1 _ h3
          · exact Or.inr (List.mem_cons_of_mem _ h3)
    cases hr : upd t.repr other (some min) (neg other) with
    | none =>
      dsimp only
      exact go _ hc rfl rfl rfl rfl rfl rfl (fun u hu => Or.inl hu) (by dsimp only; rw [hr]; simp)
    | some q =>
      dsimp only
      by_cases e : min = q
      · rw [if_pos e]
        subst e
        have ho : t.repr (neg other) = some min := by
          by_cases e : neg other = other
          · exact absurd e (neg_ne _)
          · rw [upd_ne _ _ e] at hr; exact hr
        refine ⟨rfl, rfl, rfl, rfl, fun h => (by cases h), fun _ => ⟨_, rfl, other, by simp, Or.inl ho⟩,
          fun u hu => ?_⟩
        rcases List.mem_cons.1 hu with rfl | hu
        · exact Or.inr (Or.inl ⟨rfl, rfl⟩)
        · exact Or.inl hu
      · rw [if_neg e]
        have c9 : upd t.repr other (some min) (neg other) ≠ some min := by
          rw [hr]; intro h; cases h; exact e rfl
        by_cases hf : t.failed = true
        · rw [if_pos hf]
          exact go _ hc rfl rfl rfl rfl rfl rfl (fun u hu => Or.inl hu) c9
        · rw [if_neg hf]
          by_cases hm : t.mark root > t.mark (neg other)
          · rw [if_pos hm]
            exact go _ hc rfl rfl rfl rfl rfl rfl (fun u hu => Or.inl hu) c9
          · rw [if_neg hm]
            refine go _ hc rfl rfl rfl rfl rfl rfl (fun u hu => ?_) c9
            rcases List.mem_cons.1 hu with rfl | hu
            · exact Or.inr ⟨rfl, by dsimp only; rw [hr]; simp, by omega⟩
            · exact Or.inl hu

/-! ## The invariant of the inner loop -/

/-- The stack `work` for open literals with pending successors. -/
def flat : List (Nat × List Nat) → List (Option Nat)
  | [] => []
  | (f, ps) :: st => ps.map some ++ none :: some f :: flat st

/-- Facts about finished components. -/
structure Finished (succ : Nat → List Nat) (act : Nat → Prop) (t : Scc) : Prop where
  closed : ∀ a b, t.repr a ≠ none → b ∈ succ a → t.repr b ≠ none
  cls : ∀ a r, t.repr a = some r → Path succ a r ∧ Path succ r a ∧ r ≤ a ∧ t.repr r = some r
  max : ∀ a b r q, t.repr a = some r → t.repr b = some q → Path succ a b → Path succ b a → r = q
  free : ∀ a r, t.repr a = some r → t.repr (neg a) ≠ some r
  reach : ∀ a, t.repr a ≠ none → t.reach a = none
  mark : ∀ a, t.repr a ≠ none → t.mark a ≠ 0 ∧ act a
  le : ∀ a, t.mark a ≤ t.reached
  units : ∀ u ∈ t.units, Good succ act u
  ok : t.clash = false

structure SInv (succ : Nat → List Nat) (act : Nat → Prop) (root : Nat) (t : Scc)
    (st : List (Nat × List Nat)) : Prop where
  fin : Finished succ act t
  work : t.work = flat st
  scc : ∀ a ∈ t.scc, t.mark a ≠ 0 ∧ t.repr a = none ∧ act a
  marked : ∀ a, t.mark a ≠ 0 → t.repr a ≠ none ∨ a ∈ t.scc
  sorted : t.scc.Pairwise fun x y => t.mark y < t.mark x
  frame : ∀ f ∈ st.map Prod.fst, f ∈ t.scc ∧ t.reach f = some (t.mark f)
  fsorted : (st.map Prod.fst).Pairwise fun x y => t.mark y < t.mark x
  pend : ∀ e ∈ st, (∀ y ∈ e.2, y ∈ succ e.1) ∧ ∀ y ∈ succ e.1, t.mark y ≠ 0 ∨ y ∈ e.2
  down : ∀ f ∈ st.map Prod.fst, ∀ x ∈ t.scc, t.mark f ≤ t.mark x → Path succ f x
  low : ∀ x ∈ t.scc, x ∉ st.map Prod.fst →
    ∃ k, t.reach x = some k ∧ k < t.mark x ∧ ∃ y ∈ t.scc, t.mark y = k ∧ Path succ x y
  seen : ∀ x ∈ t.scc, x ∉ st.map Prod.fst → ∀ y ∈ succ x,
    t.mark y ≠ 0 ∧ (y ∈ t.scc → LeR (t.reach x) (some (t.mark y)))
  parent : ∀ x ∈ t.scc, x ≠ root → ∃ p ∈ t.scc, x ∈ succ p ∧ t.mark p < t.mark x ∧
    (x ∈ st.map Prod.fst → p ∈ st.map Prod.fst) ∧
    (p ∉ st.map Prod.fst → LeR (t.reach p) (t.reach x)) ∧
    ∀ f ∈ st.map Prod.fst, t.mark f < t.mark x → t.mark f ≤ t.mark p
  rootp : t.mark root ≠ 0 ∧ (∀ x, t.mark root ≤ t.mark x → Path succ root x) ∧ act root ∧
    ∀ x ∈ t.scc, t.mark root ≤ t.mark x

theorem pairwise_inj {α : Type} {l : List α} {f : α → Nat} (h : l.Pairwise fun x y => f y < f x) {x y : α}
    (hx : x ∈ l) (hy : y ∈ l) (e : f x = f y) : x = y := by
  induction l with
  | nil => cases hx
  | cons a l ih =>
    obtain ⟨h1, h2⟩ := List.pairwise_cons.1 h
    rcases List.mem_cons.1 hx with ex | hx'
    · rcases List.mem_cons.1 hy with ey | hy'
      · rw [ex, ey]
      · have := h1 y hy'; rw [← ex] at this; omega
    · rcases List.mem_cons.1 hy with ey | hy'
      · have := h1 x hx'; rw [← ey] at this; omega
      · exact ih h2 hx' hy'

/-- An entry which was visited in the meantime. -/
theorem SInv.pop {succ : Nat → List Nat} {act : Nat → Prop} {root : Nat} {t : Scc} {f y : Nat} {ps : List Nat}
    {st : List (Nat × List Nat)} (h : SInv succ act root t ((f, y :: ps) :: st)) (hy : t.mark y ≠ 0) :
    SInv succ act root { t with work := flat ((f, ps) :: st) } ((f, ps) :: st) := by
  obtain ⟨a1, _, a3, a4, a5, a6, a7, a8, a9, a10, a11, a12, a13⟩ := h
  refine ⟨⟨a1.closed, a1.cls, a1.max, a1.free, a1.reach, a1.mark, a1.le, a1.units, a1.ok⟩, rfl, a3, a4, a5, a6, a7, ?_, a9,
    a10, a11, a12, a13⟩
  intro e he
  rcases List.mem_cons.1 he with rfl | he
  · obtain ⟨b1, b2⟩ := a8 (f, y :: ps) (by simp)
    refine ⟨fun z hz => b1 z (List.mem_cons_of_mem _ hz), fun z hz => ?_⟩
    rcases b2 z hz with h | h
    · exact Or.inl h
    · rcases List.mem_cons.1 h with rfl | h
      · exact Or.inl hy
      · exact Or.inr h
  · exact a8 e (List.mem_cons_of_mem _ he)

/-- A literal visited first.  `st₀` is the stack without the literal. -/
theorem SInv.expand {succ : Nat → List Nat} {act : Nat → Prop} {root : Nat} {t : Scc} {f y : Nat} {ps : List Nat}
    {st : List (Nat × List Nat)} (hg : Graph succ act) (h : SInv succ act root t ((f, y :: ps) :: st))
    (hy : t.mark y = 0) :
    SInv succ act root (t.expand succ y)
      ((y, ((succ y).filter fun o => upd t.mark y (t.reached + 1) o = 0).reverse) :: (f, ps) :: st) := by
  obtain ⟨a1, a2, a3, a4, a5, a6, a7, a8, a9, a10, a11, a12, a13⟩ := h
  have hfy : y ∈ succ f := (a8 (f, y :: ps) (by simp)).1 y (by simp)
  have hysc : y ∉ t.scc := fun hh => (a3 y hh).1 hy
  have hyr : t.repr y = none := by
    cases e : t.repr y with
    | none => rfl
    | some r => exact absurd hy (a1.mark y (by rw [e]; simp)).1
  have hm : ∀ x, x ≠ y → (t.expand succ y).mark x = t.mark x := fun x hx => upd_ne _ _ hx
  have hmy : (t.expand succ y).mark y = t.reached + 1 := upd_same _ _ _
  have hr : ∀ x, x ≠ y → (t.expand succ y).reach x = t.reach x := fun x hx => upd_ne _ _ hx
  have hry : (t.expand succ y).reach y = some (t.reached + 1) := upd_same _ _ _
  have hsc : (t.expand succ y).scc = y :: t.scc := rfl
  have hne : ∀ x ∈ t.scc, x ≠ y := fun x hx e => hysc (e ▸ hx)
  have hst : ∀ x ∈ ((f, ps) :: st).map Prod.fst, x ∈ t.scc := fun x hx => (a6 x hx).1
  have hfs : f ∈ ((f, ps) :: st).map Prod.fst := by simp
  have hmark : ∀ x ∈ t.scc, (t.expand succ y).mark x = t.mark x := fun x hx => hm x (hne x hx)
  have hact : act y := hg.closed _ _ hfy
  have hmono : ∀ x, t.mark x ≠ 0 → (t.expand succ y).mark x ≠ 0 := by
    intro x hx
    by_cases e : x = y
    · rw [e, hmy]; omega
    · rw [hm x e]; exact hx
  have hroot : root ≠ y := fun e => a13.1 (e ▸ hy)
  refine ⟨⟨a1.closed, a1.cls, a1.max, a1.free, fun a ha => ?_, fun a ha => ⟨hmono a (a1.mark a ha).1, (a1.mark a ha).2⟩,
    fun a => ?_, a1.units, a1.ok⟩, ?_, ?_, ?_, ?_, ?_, ?_, ?_, ?_, ?_, ?_, ?_, ?_⟩
  · rw [hr a (by rintro rfl; exact ha hyr)]; exact a1.reach a ha
  · show _ ≤ t.reached + 1
    by_cases e : a = y
    · rw [e, hmy]; omega
    · rw [hm a e]; have := a1.le a; omega
  · show _ ++ none :: t.work = _
    rw [a2]
    rfl
  · intro a ha
    rcases List.mem_cons.1 ha with rfl | ha
    · exact ⟨by rw [hmy]; omega, hyr, hact⟩
    · exact ⟨by rw [hmark a ha]; exact (a3 a ha).1, (a3 a ha).2⟩
  · intro a ha
    by_cases e : a = y
    · exact Or.inr (by rw [e]; exact List.mem_cons_self)
    · rw [hm a e] at ha
      exact (a4 a ha).imp id fun h => List.mem_cons_of_mem _ h
  · rw [hsc]
    refine List.pairwise_cons.2 ⟨fun x hx => ?_, a5.imp_of_mem fun {a b} ha hb h => ?_⟩
    · rw [hmy, hmark x hx]; have := a1.le x; omega
    · rw [hmark a ha, hmark b hb]; exact h
  · intro x hx
    rw [List.map_cons] at hx
    rcases List.mem_cons.1 hx with rfl | hx
    · exact ⟨List.mem_cons_self, by rw [hry, hmy]⟩
    · have := a6 x hx
      exact ⟨List.mem_cons_of_mem _ this.1, by rw [hr x (hne x this.1), hmark x this.1]; exact this.2⟩
  · rw [List.map_cons]
    refine List.pairwise_cons.2 ⟨fun x hx => ?_, (show (((f, ps) :: st).map Prod.fst).Pairwise _ from a7).imp_of_mem
      fun {a b} ha hb h => ?_⟩
    · rw [hmy, hmark x (hst x hx)]; have := a1.le x; omega
    · rw [hmark a (hst a ha), hmark b (hst b hb)]; exact h
  · intro e he
    rcases List.mem_cons.1 he with rfl | he
    · refine ⟨fun z hz => (List.mem_filter.1 (List.mem_reverse.1 hz)).1, fun z hz => ?_⟩
      by_cases e : (t.expand succ y).mark z = 0
      · exact Or.inr (List.mem_reverse.2 (List.mem_filter.2 ⟨hz, decide_eq_true e⟩))
      · exact Or.inl e
    · rcases List.mem_cons.1 he with rfl | he
      · obtain ⟨b1, b2⟩ := a8 (f, y :: ps) (by simp)
        refine ⟨fun z hz => b1 z (List.mem_cons_of_mem _ hz), fun z hz => ?_⟩
        rcases b2 z hz with h | h
        · exact Or.inl (hmono z h)
        · rcases List.mem_cons.1 h with rfl | h
          · exact Or.inl (by rw [hmy]; omega)
          · exact Or.inr h
      · obtain ⟨b1, b2⟩ := a8 e (List.mem_cons_of_mem _ he)
        exact ⟨b1, fun z hz => (b2 z hz).imp (hmono z) id⟩
  · intro g hg' x hx hle
    rw [List.map_cons] at hg'
    rcases List.mem_cons.1 hg' with rfl | hg'
    · rcases List.mem_cons.1 hx with rfl | hx
      · exact .refl _
      · rw [hmark x hx, hmy] at hle
        have := a1.le x; omega
    · have hf' : Path succ g f := by
        refine a9 g hg' f (hst f hfs) ?_
        rcases List.mem_cons.1 hg' with e | h1
        · exact Nat.le_of_eq (congrArg t.mark e)
        · exact Nat.le_of_lt ((List.pairwise_cons.1 a7).1 g h1)
      rcases List.mem_cons.1 hx with rfl | hx
      · exact hf'.trans (.one hfy)
      · rw [hmark x hx, hmark g (hst g hg')] at hle
        exact a9 g hg' x hx hle
  · intro x hx hnf
    rcases List.mem_cons.1 hx with rfl | hx
    · exact absurd (by simp) hnf
    · obtain ⟨k, k1, k2, z, k3, k4, k5⟩ := a10 x hx fun hh => hnf (List.mem_cons_of_mem _ hh)
      exact ⟨k, by rw [hr x (hne x hx)]; exact k1, by rw [hmark x hx]; exact k2, z, List.mem_cons_of_mem _ k3,
        by rw [hmark z k3]; exact k4, k5⟩
  · intro x hx hnf z hz
    rcases List.mem_cons.1 hx with rfl | hx
    · exact absurd (by simp) hnf
    · obtain ⟨b1, b2⟩ := a11 x hx (fun hh => hnf (List.mem_cons_of_mem _ hh)) z hz
      refine ⟨hmono z b1, fun hzs => ?_⟩
      rcases List.mem_cons.1 hzs with rfl | hzs
      · exact absurd hy b1
      · rw [hr x (hne x hx), hmark z hzs]; exact b2 hzs
  · intro x hx hxr
    rcases List.mem_cons.1 hx with rfl | hx
    · refine ⟨f, List.mem_cons_of_mem _ (hst f hfs), hfy, ?_, fun _ => List.mem_cons_of_mem _ hfs,
        fun hh => absurd (List.mem_cons_of_mem _ hfs) hh, fun g hg' hlt => ?_⟩
      · rw [hmark f (hst f hfs), hmy]; have := a1.le f; omega
      · rw [List.map_cons] at hg'
        rcases List.mem_cons.1 hg' with rfl | hg'
        · omega
        · rw [hmark g (hst g hg'), hmark f (hst f hfs)]
          rcases List.mem_cons.1 hg' with rfl | h1
          · exact Nat.le_refl _
          · exact Nat.le_of_lt ((List.pairwise_cons.1 a7).1 g h1)
    · obtain ⟨p, p1, p2, p3, p4, p5, p6⟩ := a12 x hx hxr
      refine ⟨p, List.mem_cons_of_mem _ p1, p2, by rw [hmark p p1, hmark x hx]; exact p3, fun hh => ?_, fun hh => ?_,
        fun g hg' hlt => ?_⟩
      · refine List.mem_cons_of_mem _ (p4 ?_)
        rw [List.map_cons] at hh
        rcases List.mem_cons.1 hh with e | hh
        · exact absurd e (hne x hx)
        · exact hh
      · rw [hr p (hne p p1), hr x (hne x hx)]
        exact p5 fun h => hh (List.mem_cons_of_mem _ h)
      · rw [List.map_cons] at hg'
        rcases List.mem_cons.1 hg' with e | hg'
        · rw [show g = y from e, hmy, hmark x hx] at hlt
          have := a1.le x; omega
        · rw [hmark g (hst g hg'), hmark x hx] at hlt
          rw [hmark g (hst g hg'), hmark p p1]
          exact p6 g hg' hlt
  · refine ⟨hmono root a13.1, fun x hx => ?_, a13.2.2.1, fun x hx => ?_⟩
    · by_cases e : x = y
      · subst e
        exact (a13.2.1 f (a13.2.2.2 f (hst f hfs))).trans (.one hfy)
      · rw [hm x e, hm root hroot] at hx
        exact a13.2.1 x hx
    · rw [hm root hroot]
      rcases List.mem_cons.1 hx with rfl | hx
      · rw [hmy]; have := a1.le root; omega
      · rw [hmark x hx]; exact a13.2.2.2 x hx

/-- Numbers of the literals on the stack. -/
theorem SInv.reach_le {succ : Nat → List Nat} {act : Nat → Prop} {root : Nat} {t : Scc} {st : List (Nat × List Nat)}
    (h : SInv succ act root t st) {y : Nat} (hy : y ∈ t.scc) : LeR (t.reach y) (some (t.mark y)) := by
  intro k hk
  cases hk
  by_cases hf : y ∈ st.map Prod.fst
  · exact ⟨_, (h.frame y hf).2, Nat.le_refl _⟩
  · obtain ⟨k, k1, k2, _⟩ := h.low y hy hf
    exact ⟨k, k1, by omega⟩

/-- Every literal on the stack reaches an open one. -/
theorem SInv.reaches {succ : Nat → List Nat} {act : Nat → Prop} {root : Nat} {t : Scc} {st : List (Nat × List Nat)}
    (h : SInv succ act root t st) : ∀ (n x : Nat), t.mark x ≤ n → x ∈ t.scc →
    ∃ f ∈ st.map Prod.fst, Path succ x f
  | 0, x, hn, hx => absurd (Nat.le_zero.1 hn) (h.scc x hx).1
  | n + 1, x, hn, hx => by
    by_cases hf : x ∈ st.map Prod.fst
    · exact ⟨x, hf, .refl _⟩
    · obtain ⟨k, _, k2, y, k3, k4, k5⟩ := h.low x hx hf
      obtain ⟨f, f1, f2⟩ := h.reaches n y (by omega) k3
      exact ⟨f, f1, k5.trans f2⟩

theorem SInv.empty {succ : Nat → List Nat} {act : Nat → Prop} {root : Nat} {t : Scc}
    (h : SInv succ act root t []) : t.scc = [] := by
  cases e : t.scc with
  | nil => rfl
  | cons x l =>
    obtain ⟨f, f1, _⟩ := h.reaches _ x (Nat.le_refl _) (by rw [e]; simp)
    cases f1

/-- A literal which reaches a smaller one. -/
theorem SInv.lower {succ : Nat → List Nat} {act : Nat → Prop} {root : Nat} {t : Scc} {lit : Nat}
    {st : List (Nat × List Nat)} (h : SInv succ act root t ((lit, []) :: st)) {r : Option Nat}
    (hr : r = (succ lit).foldl (fun r other => minReach (t.reach other) r) (t.reach lit))
    (hne : r ≠ some (t.mark lit)) :
    SInv succ act root { t with work := flat st, reach := upd t.reach lit r } st := by
  obtain ⟨s1, s2, s3⟩ := foldReach_spec t.reach (succ lit) (t.reach lit)
  rw [← hr] at s1 s2 s3
  have hrl := fun {y} => h.reach_le (y := y)
  obtain ⟨a1, a2, a3, a4, a5, a6, a7, a8, a9, a10, a11, a12, a13⟩ := h
  have hlit := a6 lit (by simp)
  rw [hlit.2] at s1 s3
  have hsub : ∀ x, x ∈ st.map Prod.fst → x ∈ ((lit, []) :: st).map Prod.fst := fun x hx => List.mem_cons_of_mem _ hx
  have hlt : ∀ x ∈ st.map Prod.fst, t.mark x < t.mark lit := (List.pairwise_cons.1 a7).1
  have hnl : lit ∉ st.map Prod.fst := fun hh => absurd (hlt lit hh) (Nat.lt_irrefl _)
  have hnf : ∀ x, x ≠ lit → x ∉ st.map Prod.fst → x ∉ ((lit, []) :: st).map Prod.fst := by
    intro x h1 h2 h3
    rcases List.mem_cons.1 h3 with e | e
    · exact h1 e
    · exact h2 e
  have hu : ∀ x, x ≠ lit → upd t.reach lit r x = t.reach x := fun x hx => upd_ne _ _ hx
  have hul : upd t.reach lit r lit = r := upd_same _ _ _
  have hpend : ∀ y ∈ succ lit, t.mark y ≠ 0 := fun y hy =>
    ((a8 (lit, []) (by simp)).2 y hy).resolve_right (by simp)
  -- the literal with the smaller number
  obtain ⟨k, hk, hkl⟩ := s1 _ rfl
  have hklt : k < t.mark lit := by
    rcases Nat.lt_or_ge k (t.mark lit) with h | h
    · exact h
    · exact absurd (by rw [hk]; congr 1; omega) hne
  obtain ⟨o, o1, o2⟩ := s3.resolve_left hne
  have hosc : o ∈ t.scc := by
    refine (a4 o (hpend o o1)).resolve_left fun hh => ?_
    have := a1.reach o hh
    rw [← o2, hk] at this; cases this
  have hlow : ∃ y ∈ t.scc, t.mark y = k ∧ Path succ lit y := by
    by_cases hf : o ∈ ((lit, []) :: st).map Prod.fst
    · refine ⟨o, hosc, ?_, .one o1⟩
      have := (a6 o hf).2
      rw [← o2, hk] at this
      cases this; rfl
    · obtain ⟨j, j1, _, y, j3, j4, j5⟩ := a10 o hosc hf
      rw [← o2, hk] at j1
      cases j1
      exact ⟨y, j3, j4, .step o1 j5⟩
  refine ⟨⟨a1.closed, a1.cls, a1.max, a1.free, fun a ha => ?_, a1.mark, a1.le, a1.units, a1.ok⟩, rfl, a3, a4, a5,
    fun f hf => ?_, (List.pairwise_cons.1 a7).2, fun e he => a8 e (List.mem_cons_of_mem _ he),
    fun f hf => a9 f (hsub f hf), fun x hx hf => ?_, fun x hx hf y hy => ?_, fun x hx hxr => ?_, a13⟩
  · dsimp only
    rw [hu a (by rintro rfl; exact ha (a3 a hlit.1).2.1)]
    exact a1.reach a ha
  · dsimp only
    have := a6 f (hsub f hf)
    rw [hu f (by rintro rfl; exact hnl hf)]
    exact this
  · dsimp only
    by_cases e : x = lit
    · subst e
      rw [hul]
      exact ⟨k, hk, hklt, hlow⟩
    · rw [hu x e]
      exact a10 x hx (hnf x e hf)
  · dsimp only
    by_cases e : x = lit
    · subst e
      rw [hul]
      exact ⟨hpend y hy, fun hys => (s2 y hy).trans (hrl hys)⟩
    · rw [hu x e]
      exact a11 x hx (hnf x e hf) y hy
  · dsimp only
    obtain ⟨p, p1, p2, p3, p4, p5, p6⟩ := a12 x hx hxr
    refine ⟨p, p1, p2, p3, fun hh => ?_, fun hh => ?_, fun f hf => p6 f (hsub f hf)⟩
    · rcases List.mem_cons.1 (p4 (hsub x hh)) with e | e
      · have := hlt x hh
        rw [show p = lit from e] at p3; omega
      · exact e
    · by_cases e : x = lit
      · subst e
        rcases List.mem_cons.1 (p4 (by simp)) with e | e
        · rw [show p = x from e] at p3; omega
        · exact absurd e hh
      · rw [hu x e]
        by_cases e2 : p = lit
        · subst e2
          rw [hul]
          exact s2 x p2
        · rw [hu p e2]
          exact p5 (hnf p e2 hh)

/-- The literals above `lit` on the stack. -/
theorem scc_split {mark : Nat → Nat} {lit : Nat} : ∀ {l : List Nat}, l.Pairwise (fun x y => mark y < mark x) → lit ∈ l →
    (∀ x, x ∈ lit :: (l.takeWhile (· ≠ lit)).reverse ↔ x ∈ l ∧ mark lit ≤ mark x) ∧
    (∀ x, x ∈ (l.dropWhile (· ≠ lit)).tail ↔ x ∈ l ∧ mark x < mark lit) ∧
    (l.dropWhile (· ≠ lit)).tail.Pairwise (fun x y => mark y < mark x)
  | [], _, h => by cases h
  | a :: l, hp, h => by
    obtain ⟨h1, h2⟩ := List.pairwise_cons.1 hp
    by_cases e : a = lit
    · subst e
      have t1 : (a :: l).takeWhile (· ≠ a) = [] := by simp
      have t2 : (a :: l).dropWhile (· ≠ a) = a :: l := by simp
      rw [t1, t2]
      refine ⟨fun x => ?_, fun x => ?_, h2⟩
      · simp only [List.reverse_nil, List.mem_cons, List.not_mem_nil, or_false]
        constructor
        · rintro rfl; exact ⟨Or.inl rfl, Nat.le_refl _⟩
        · rintro ⟨rfl | hx, hle⟩
          · rfl
          · have := h1 x hx; omega
      · simp only [List.tail_cons, List.mem_cons]
        constructor
        · exact fun hx => ⟨Or.inr hx, h1 x hx⟩
        · rintro ⟨rfl | hx, hlt⟩
          · omega
          · exact hx
    · have hl : lit ∈ l := (List.mem_cons.1 h).resolve_left fun hh => e hh.symm
      obtain ⟨i1, i2, i3⟩ := scc_split h2 hl
      have t1 : (a :: l).takeWhile (· ≠ lit) = a :: l.takeWhile (· ≠ lit) := by simp [e]
      have t2 : (a :: l).dropWhile (· ≠ lit) = l.dropWhile (· ≠ lit) := by simp [e]
      rw [t1, t2]
      refine ⟨fun x => ?_, fun x => ?_, i3⟩
      · have := i1 x
        simp only [List.reverse_cons, List.mem_cons, List.mem_append, List.not_mem_nil, or_false] at this ⊢
        constructor
        · rintro (rfl | hx | rfl)
          · exact ⟨Or.inr hl, Nat.le_refl _⟩
          · exact ⟨Or.inr (this.1 (Or.inr hx)).1, (this.1 (Or.inr hx)).2⟩
          · exact ⟨Or.inl rfl, Nat.le_of_lt (h1 lit hl)⟩
        · rintro ⟨rfl | hx, hle⟩
          · exact Or.inr (Or.inr rfl)
          · rcases this.2 ⟨hx, hle⟩ with h | h
            · exact Or.inl h
            · exact Or.inr (Or.inl h)
      · rw [i2]
        simp only [List.mem_cons]
        constructor
        · exact fun ⟨hx, hlt⟩ => ⟨Or.inr hx, hlt⟩
        · rintro ⟨rfl | hx, hlt⟩
          · have := h1 lit hl; omega
          · exact ⟨hx, hlt⟩

/-- What is known after a clash. -/
structure Clash (succ : Nat → List Nat) (act : Nat → Prop) (t : Scc) : Prop where
  units : ∀ u ∈ t.units, Good succ act u
  top : ∃ u us, t.units = u :: us ∧ Path succ u (neg u)

/-- A component is complete. -/
theorem SInv.component {succ : Nat → List Nat} {act : Nat → Prop} {root : Nat} {t : Scc} {lit : Nat}
    {st : List (Nat × List Nat)} (hgr : Graph succ act) (h : SInv succ act root t ((lit, []) :: st))
    (hr : (succ lit).foldl (fun r other => minReach (t.reach other) r) (t.reach lit) = some (t.mark lit))
    {seg : List Nat} (hseg : seg = lit :: (t.scc.takeWhile (· ≠ lit)).reverse) {t' : Scc}
    (ht : t' = { t with work := flat st, scc := (t.scc.dropWhile (· ≠ lit)).tail }.assign root (minLit lit seg) seg) :
    (t'.clash = true → Clash succ act t') ∧ (t'.clash = false → SInv succ act root t' st) := by
  have hreaches := h.reaches
  have hrl := fun {y} => h.reach_le (y := y)
  obtain ⟨_, s2, _⟩ := foldReach_spec t.reach (succ lit) (t.reach lit)
  rw [hr] at s2
  obtain ⟨a1, a2, a3, a4, a5, a6, a7, a8, a9, a10, a11, a12, a13⟩ := h
  have hlit := a6 lit (by simp)
  have hsub : ∀ x, x ∈ st.map Prod.fst → x ∈ ((lit, []) :: st).map Prod.fst := fun x hx => List.mem_cons_of_mem _ hx
  have hlt : ∀ x ∈ st.map Prod.fst, t.mark x < t.mark lit := (List.pairwise_cons.1 a7).1
  have hle : ∀ x ∈ ((lit, []) :: st).map Prod.fst, t.mark x ≤ t.mark lit := by
    intro x hx
    rcases List.mem_cons.1 hx with e | e
    · exact Nat.le_of_eq (congrArg t.mark e)
    · exact Nat.le_of_lt (hlt x e)
  have hpend : ∀ y ∈ succ lit, t.mark y ≠ 0 := fun y hy =>
    ((a8 (lit, []) (by simp)).2 y hy).resolve_right (by simp)
  obtain ⟨g1, g2, g3⟩ := scc_split a5 hlit.1
  rw [← hseg] at g1
  -- the segment is strongly connected
  have hdown : ∀ x ∈ seg, Path succ lit x := fun x hx => a9 lit (by simp) x ((g1 x).1 hx).1 ((g1 x).1 hx).2
  have hup : ∀ x ∈ seg, Path succ x lit := by
    intro x hx
    obtain ⟨f, f1, f2⟩ := hreaches _ x (Nat.le_refl _) ((g1 x).1 hx).1
    exact f2.trans (a9 f f1 lit hlit.1 (hle f f1))
  have hall : ∀ x ∈ seg, ∀ y ∈ seg, Path succ x y := fun x hx y hy => (hup x hx).trans (hdown y hy)
  -- its literals do not reach below
  have hlow : ∀ (n x : Nat), t.mark x ≤ n → x ∈ t.scc → t.mark lit < t.mark x →
      ∀ k, t.reach x = some k → t.mark lit ≤ k := by
    intro n
    induction n with
    | zero => intro x h1 _ h3; omega
    | succ n ih =>
      intro x h1 h2 h3 k hk
      have hxr : x ≠ root := by
        rintro rfl
        have := a13.2.2.2 lit hlit.1; omega
      obtain ⟨p, p1, p2, p3, p4, p5, p6⟩ := a12 x h2 hxr
      have hpl := p6 lit (by simp) h3
      by_cases e : p = lit
      · subst e
        obtain ⟨j, j1, j2⟩ := s2 x p2 k hk
        cases j1; exact j2
      · have hne : t.mark p ≠ t.mark lit := fun hh => e (pairwise_inj a5 p1 hlit.1 hh)
        obtain ⟨j, j1, j2⟩ := p5 (fun hh => by have := hle p hh; omega) k hk
        have := ih p (by omega) p1 (by omega) j j1
        omega
  have hclosed : ∀ x ∈ seg, ∀ y ∈ succ x, t.repr y ≠ none ∨ y ∈ seg := by
    intro x hx y hy
    obtain ⟨x1, x2⟩ := (g1 x).1 hx
    by_cases e : x = lit
    · subst e
      rcases a4 y (hpend y hy) with h | h
      · exact Or.inl h
      · refine Or.inr ((g1 y).2 ⟨h, ?_⟩)
        obtain ⟨j, j1, j2⟩ := hrl h _ rfl
        obtain ⟨i, i1, i2⟩ := s2 y hy j j1
        cases i1; omega
    · have hne : t.mark x ≠ t.mark lit := fun hh => e (pairwise_inj a5 x1 hlit.1 hh)
      have hxf : x ∉ ((lit, []) :: st).map Prod.fst := fun hh => by have := hle x hh; omega
      obtain ⟨b1, b2⟩ := a11 x x1 hxf y hy
      rcases a4 y b1 with h | h
      · exact Or.inl h
      · refine Or.inr ((g1 y).2 ⟨h, ?_⟩)
        obtain ⟨k, k1, k2⟩ := b2 h _ rfl
        have := hlow _ x (Nat.le_refl _) x1 (by omega) k k1
        omega
  have hlseg : lit ∈ seg := (g1 lit).2 ⟨hlit.1, Nat.le_refl _⟩
  have hmin : minLit lit seg ∈ seg := by
    rcases (minLit_spec seg lit).1 with h | h
    · rw [h]; exact hlseg
    · exact h
  have hfree : ∀ x ∈ seg, t.repr x = none ∧ act x := fun x hx => (a3 x ((g1 x).1 hx).1).2
  obtain ⟨i1, i2, i3, i4, i5, i6, i7⟩ := assign_spec root (minLit lit seg) seg
    { t with work := flat st, scc := (t.scc.dropWhile (· ≠ lit)).tail } a1.ok
  rw [← ht] at i1 i2 i3 i4 i5 i6 i7
  dsimp only at i1 i2 i3 i4 i5 i6 i7
  generalize hm : minLit lit seg = min at *
  -- a clash
  have hclash : t'.clash = true → act min ∧ Path succ (neg min) min ∧ Path succ min (neg min) := by
    intro hc
    obtain ⟨us, u1, o, u2, u3⟩ := i6 hc
    have e1 : Path succ (neg o) min ∧ Path succ min (neg o) := by
      rcases u3 with u3 | u3
      · exact ⟨(a1.cls _ _ u3).1, (a1.cls _ _ u3).2.1⟩
      · exact ⟨hall _ u3 _ hmin, hall _ hmin _ u3⟩
    have ha := (hfree min hmin).2
    have e2 := (hall o u2 min hmin).skew hgr (hfree o u2).2
    have e3 := (hall min hmin o u2).skew hgr ha
    exact ⟨ha, e2.trans e1.1, e1.2.trans e3⟩
  have hunits : ∀ u ∈ t'.units, Good succ act u := by
    intro u hu
    rcases i7 u hu with h | ⟨h1, rfl⟩ | ⟨rfl, o, o1, o2, o3⟩
    · exact a1.units u h
    · obtain ⟨c1, c2, _⟩ := hclash h1
      exact ⟨c1, u, c2, .refl _⟩
    · refine ⟨hgr.actNeg _ a13.2.2.1, o, ?_, ?_⟩
      · rw [neg_neg]
        exact a13.2.1 o (a13.2.2.2 o ((g1 o).1 o1).1)
      · rw [neg_neg]
        exact a13.2.1 _ o3
  refine ⟨fun hc => ?_, fun hc => ?_⟩
  · obtain ⟨us, u1, _⟩ := i6 hc
    exact ⟨hunits, min, us, u1, (hclash hc).2.2⟩
  · obtain ⟨j1, j2, j3⟩ := i5 hc
    have hnew : ∀ a, t'.repr a ≠ none ↔ (t.repr a ≠ none ∨ a ∈ seg) := by
      intro a
      rw [j1]
      by_cases e : a ∈ seg
      · simp [e]
      · simp [e]
    have hpc : ∀ {a b}, Path succ a b → t.repr a ≠ none → t.repr b ≠ none :=
      fun hp ha => hp.closed (p := fun a => t.repr a ≠ none) a1.closed ha
    have hB : ∀ x, x ∈ t'.scc ↔ x ∈ t.scc ∧ t.mark x < t.mark lit := by
      intro x; rw [i2]; exact g2 x
    have hBn : ∀ x ∈ t'.scc, x ∉ seg := fun x hx hs => by
      have := ((hB x).1 hx).2
      have := ((g1 x).1 hs).2; omega
    have hBr : ∀ x ∈ t'.scc, t'.reach x = t.reach x := fun x hx => by rw [j2, if_neg (hBn x hx)]
    have hnf : ∀ x ∈ t'.scc, x ∉ st.map Prod.fst → x ∉ ((lit, []) :: st).map Prod.fst := by
      intro x hx h2 h3
      rcases List.mem_cons.1 h3 with e | e
      · have := ((hB x).1 hx).2
        rw [show x = lit from e] at this; omega
      · exact h2 e
    have hfB : ∀ f ∈ st.map Prod.fst, f ∈ t'.scc := fun f hf => (hB f).2 ⟨(a6 f (hsub f hf)).1, hlt f hf⟩
    refine ⟨⟨fun a b ha hb => ?_, fun a r ha => ?_, fun a b r q ha hb p1 p2 => ?_, fun a r ha hna => ?_, fun a ha => ?_,
      fun a ha => ?_, fun a => ?_, hunits, hc⟩, i3, fun a ha => ?_, fun a ha => ?_, ?_, fun f hf => ?_, ?_, fun e he => ?_,
      fun f hf x hx hle => ?_, fun x hx hf => ?_, fun x hx hf y hy => ?_, fun x hx hxr => ?_, ?_⟩
    · rw [hnew] at ha ⊢
      rcases ha with ha | ha
      · exact Or.inl (a1.closed a b ha hb)
      · exact hclosed a ha b hb
    · rw [j1] at ha
      by_cases e : a ∈ seg
      · rw [if_pos e] at ha
        cases ha
        refine ⟨hall a e _ hmin, hall _ hmin a e, ?_, by rw [j1, if_pos hmin]⟩
        rw [← hm]; exact (minLit_spec seg lit).2.2 a e
      · rw [if_neg e] at ha
        obtain ⟨c1, c2, c3, c4⟩ := a1.cls a r ha
        refine ⟨c1, c2, c3, ?_⟩
        rw [j1, if_neg, c4]
        intro hh
        rw [(hfree r hh).1] at c4; cases c4
    · rw [j1] at ha hb
      by_cases e : a ∈ seg
      · by_cases e2 : b ∈ seg
        · rw [if_pos e] at ha
          rw [if_pos e2] at hb
          cases ha; cases hb; rfl
        · rw [if_neg e2] at hb
          exact absurd (hfree a e).1 (hpc p2 (by rw [hb]; simp))
      · rw [if_neg e] at ha
        by_cases e2 : b ∈ seg
        · exact absurd (hfree b e2).1 (hpc p1 (by rw [ha]; simp))
        · rw [if_neg e2] at hb
          exact a1.max a b r q ha hb p1 p2
    · rw [j1] at ha
      by_cases e : a ∈ seg
      · rw [if_pos e] at ha
        cases ha
        exact j3 a e hna
      · rw [if_neg e] at ha
        rw [j1] at hna
        by_cases e2 : neg a ∈ seg
        · rw [if_pos e2] at hna
          cases hna
          have := (a1.cls a _ ha).2.2.2
          rw [(hfree _ hmin).1] at this; cases this
        · rw [if_neg e2] at hna
          exact a1.free a r ha hna
    · rw [j2]
      rcases (hnew a).1 ha with h | h
      · split
        · rfl
        · exact a1.reach a h
      · rw [if_pos h]
    · rw [i1]
      rcases (hnew a).1 ha with h | h
      · exact a1.mark a h
      · exact ⟨(a3 a ((g1 a).1 h).1).1, (hfree a h).2⟩
    · rw [i1, i4]; exact a1.le a
    · have hs := ((hB a).1 ha).1
      rw [i1, j1, if_neg (hBn a ha)]
      exact a3 a hs
    · rw [i1] at ha
      rcases a4 a ha with h | h
      · exact Or.inl ((hnew a).2 (Or.inl h))
      · by_cases e : t.mark a < t.mark lit
        · exact Or.inr ((hB a).2 ⟨h, e⟩)
        · exact Or.inl ((hnew a).2 (Or.inr ((g1 a).2 ⟨h, by omega⟩)))
    · rw [i2, i1]; exact g3
    · rw [i1, hBr f (hfB f hf)]
      exact ⟨hfB f hf, (a6 f (hsub f hf)).2⟩
    · rw [i1]; exact (List.pairwise_cons.1 a7).2
    · rw [i1]; exact a8 e (List.mem_cons_of_mem _ he)
    · rw [i1] at hle
      exact a9 f (hsub f hf) x ((hB x).1 hx).1 hle
    · obtain ⟨k, k1, k2, y, k3, k4, k5⟩ := a10 x ((hB x).1 hx).1 (hnf x hx hf)
      refine ⟨k, by rw [hBr x hx]; exact k1, by rw [i1]; exact k2, y, (hB y).2 ⟨k3, ?_⟩, by rw [i1]; exact k4, k5⟩
      have := ((hB x).1 hx).2
      omega
    · rw [i1, hBr x hx]
      obtain ⟨b1, b2⟩ := a11 x ((hB x).1 hx).1 (hnf x hx hf) y hy
      exact ⟨b1, fun hh => b2 ((hB y).1 hh).1⟩
    · rw [i1]
      obtain ⟨p, p1, p2, p3, p4, p5, p6⟩ := a12 x ((hB x).1 hx).1 hxr
      have hpl : t.mark p < t.mark lit := by have := ((hB x).1 hx).2; omega
      have hp : p ∈ t'.scc := (hB p).2 ⟨p1, hpl⟩
      refine ⟨p, hp, p2, p3, fun hh => ?_, fun hh => ?_, fun f hf => p6 f (hsub f hf)⟩
      · rcases List.mem_cons.1 (p4 (hsub x hh)) with e | e
        · rw [show p = lit from e] at hpl; omega
        · exact e
      · rw [hBr x hx, hBr p hp]
        exact p5 (hnf p hp hh)
    · rw [i1]
      exact ⟨a13.1, a13.2.1, a13.2.2.1, fun x hx => a13.2.2.2 x ((hB x).1 hx).1⟩

/-- One iteration of the inner loop. -/
theorem SInv.step {succ : Nat → List Nat} {act : Nat → Prop} {root : Nat} {t : Scc} {st : List (Nat × List Nat)}
    (hgr : Graph succ act) (h : SInv succ act root t st) (hne : st ≠ []) :
    ((t.step succ root).clash = true → Clash succ act (t.step succ root)) ∧
    ((t.step succ root).clash = false → ∃ st', SInv succ act root (t.step succ root) st') := by
  match st, h with
  | [], _ => exact absurd rfl hne
  | (f, y :: ps) :: st, h =>
    have hw : t.work = some y :: (ps.map some ++ none :: some f :: flat st) := h.work
    unfold Scc.step
    rw [hw]
    dsimp only
    by_cases hy : t.mark y = 0
    · rw [if_pos hy]
      refine ⟨fun hc => ?_, fun _ => ⟨_, h.expand hgr hy⟩⟩
      have : t.clash = true := hc
      rw [h.fin.ok] at this; cases this
    · rw [if_neg hy]
      refine ⟨fun hc => ?_, fun _ => ⟨_, h.pop hy⟩⟩
      have : t.clash = true := hc
      rw [h.fin.ok] at this; cases this
  | (lit, []) :: st, h =>
    have hw : t.work = none :: some lit :: flat st := h.work
    unfold Scc.step
    rw [hw]
    dsimp only
    unfold Scc.finish
    dsimp only
    by_cases hr : (succ lit).foldl (fun r other => minReach (t.reach other) r) (t.reach lit) = some (t.mark lit)
    · rw [if_neg (fun hh => hh hr)]
      obtain ⟨i1, i2⟩ := h.component hgr hr rfl rfl
      exact ⟨i1, fun hc => ⟨_, i2 hc⟩⟩
    · rw [if_pos hr]
      refine ⟨fun hc => ?_, fun _ => ⟨_, h.lower rfl hr⟩⟩
      have : t.clash = true := hc
      rw [h.fin.ok] at this; cases this

theorem flat_eq_nil {st : List (Nat × List Nat)} (h : (flat st).isEmpty = true) : st = [] := by
  cases st with
  | nil => rfl
  | cons e st =>
    obtain ⟨f, ps⟩ := e
    cases ps <;> simp [flat] at h

theorem SInv.loop {succ : Nat → List Nat} {act : Nat → Prop} {root : Nat} (hgr : Graph succ act) :
    ∀ (fuel : Nat) {t t' : Scc} {st : List (Nat × List Nat)}, SInv succ act root t st →
    t.loop succ root fuel = some t' →
    (t'.clash = true → Clash succ act t') ∧ (t'.clash = false → SInv succ act root t' []) := by
  have stop : ∀ {t t' : Scc} {st : List (Nat × List Nat)}, SInv succ act root t st →
      (t.clash || t.work.isEmpty) = true → t = t' →
      (t'.clash = true → Clash succ act t') ∧ (t'.clash = false → SInv succ act root t' []) := by
    rintro t t' st h hc rfl
    rw [h.fin.ok, h.work, Bool.false_or] at hc
    have := flat_eq_nil hc
    subst this
    refine ⟨fun hh => ?_, fun _ => h⟩
    rw [h.fin.ok] at hh; cases hh
  intro fuel
  induction fuel with
  | zero =>
    intro t t' st h he
    unfold Scc.loop at he
    split at he
    · rename_i hc
      exact stop h hc (Option.some.inj he)
    · cases he
  | succ fuel ih =>
    intro t t' st h he
    unfold Scc.loop at he
    by_cases hc : (t.clash || t.work.isEmpty) = true
    · rw [if_pos hc] at he
      exact stop h hc (Option.some.inj he)
    · rw [if_neg hc] at he
      obtain ⟨i1, i2⟩ := h.step hgr (by
        rintro rfl
        rw [h.work] at hc
        simp [flat] at hc)
      cases hcl : (t.step succ root).clash with
      | false =>
        obtain ⟨st', h'⟩ := i2 hcl
        exact ih h' he
      | true =>
        have : t' = t.step succ root := by
          cases fuel with
          | zero => unfold Scc.loop at he; rw [hcl] at he; simpa using he.symm
          | succ n => unfold Scc.loop at he; rw [hcl] at he; simpa using he.symm
        subst this
        exact ⟨fun _ => i1 hcl, fun hh => by rw [hcl] at hh; cases hh⟩

theorem assign_mark (root min : Nat) : ∀ (seg : List Nat) (t : Scc), (t.assign root min seg).mark = t.mark
  | [], _ => rfl
  | other :: rest, t => by
    unfold Scc.assign
    dsimp only
    split
    · rw [assign_mark root min rest]
    · split
      · rfl
      · split
        · rw [assign_mark root min rest]
        · split
          · rw [assign_mark root min rest]
          · rw [assign_mark root min rest]

theorem step_mark {succ : Nat → List Nat} {root : Nat} {t : Scc} {a : Nat} (ha : t.mark a ≠ 0) :
    (t.step succ root).mark a ≠ 0 := by
  unfold Scc.step
  split
  · unfold Scc.finish
    dsimp only
    split
    · exact ha
    · rw [assign_mark]; exact ha
  · exact ha
  · split
    · unfold Scc.expand upd
      dsimp only
      split
      · omega
      · exact ha
    · exact ha
  · exact ha

theorem loop_mark {succ : Nat → List Nat} {root : Nat} {a : Nat} : ∀ (fuel : Nat) {t t' : Scc},
    t.loop succ root fuel = some t' → t.mark a ≠ 0 → t'.mark a ≠ 0
  | 0, t, t', h, ha => by
    unfold Scc.loop at h
    split at h
    · cases h; exact ha
    · cases h
  | fuel + 1, t, t', h, ha => by
    unfold Scc.loop at h
    split at h
    · cases h; exact ha
    · exact loop_mark fuel h (step_mark ha)

/-- Between two components. -/
structure Between (succ : Nat → List Nat) (act : Nat → Prop) (t : Scc) : Prop where
  fin : Finished succ act t
  scc : t.scc = []
  marked : ∀ a, t.mark a ≠ 0 → t.repr a ≠ none

theorem Between.first {succ : Nat → List Nat} {act : Nat → Prop} {t : Scc} {root : Nat} (hgr : Graph succ act)
    (h : Between succ act t) (hroot : t.mark root = 0) (ha : act root) :
    SInv succ act root ({ t with work := [some root], failed := false }.expand succ root)
      [(root, ((succ root).filter fun o => upd t.mark root (t.reached + 1) o = 0).reverse)] := by
  obtain ⟨a1, a2, a3⟩ := h
  have hyr : t.repr root = none := by
    cases e : t.repr root with
    | none => rfl
    | some r => exact absurd hroot (a1.mark root (by rw [e]; simp)).1
  have hm : ∀ x, x ≠ root → ({ t with work := [some root], failed := false }.expand succ root).mark x = t.mark x :=
    fun x hx => upd_ne _ _ hx
  have hmy : ({ t with work := [some root], failed := false }.expand succ root).mark root = t.reached + 1 :=
    upd_same _ _ _
  have hr : ∀ x, x ≠ root → ({ t with work := [some root], failed := false }.expand succ root).reach x = t.reach x :=
    fun x hx => upd_ne _ _ hx
  have hry : ({ t with work := [some root], failed := false }.expand succ root).reach root = some (t.reached + 1) :=
    upd_same _ _ _
  have hsc : ({ t with work := [some root], failed := false }.expand succ root).scc = [root] := by
    show root :: t.scc = _
    rw [a2]
  have hrepr : ({ t with work := [some root], failed := false }.expand succ root).repr = t.repr := rfl
  have hred : ({ t with work := [some root], failed := false }.expand succ root).reached = t.reached + 1 := rfl
  have hwork : ({ t with work := [some root], failed := false }.expand succ root).work =
    flat [(root, ((succ root).filter fun o => upd t.mark root (t.reached + 1) o = 0).reverse)] := rfl
  have hun : ({ t with work := [some root], failed := false }.expand succ root).units = t.units := rfl
  have hcl : ({ t with work := [some root], failed := false }.expand succ root).clash = t.clash := rfl
  have hup : ∀ z, ({ t with work := [some root], failed := false }.expand succ root).mark z =
    upd t.mark root (t.reached + 1) z := fun _ => rfl
  generalize { t with work := [some root], failed := false }.expand succ root = t' at *
  have hmono : ∀ x, t.mark x ≠ 0 → t'.mark x ≠ 0 := by
    intro x hx
    by_cases e : x = root
    · rw [e, hmy]; omega
    · rw [hm x e]; exact hx
  refine ⟨⟨by rw [hrepr]; exact a1.closed, by rw [hrepr]; exact a1.cls, by rw [hrepr]; exact a1.max,
    by rw [hrepr]; exact a1.free, fun a h => ?_, fun a h => ?_,
    fun a => ?_, by rw [hun]; exact a1.units, by rw [hcl]; exact a1.ok⟩, hwork, ?_, ?_, ?_, ?_, ?_, ?_, ?_, ?_, ?_, ?_, ?_⟩
  · rw [hrepr] at h
    rw [hr a (by rintro rfl; exact h hyr)]; exact a1.reach a h
  · rw [hrepr] at h
    exact ⟨hmono a (a1.mark a h).1, (a1.mark a h).2⟩
  · rw [hred]
    by_cases e : a = root
    · rw [e, hmy]; omega
    · rw [hm a e]; have := a1.le a; omega
  · intro a h
    rw [hsc] at h
    rw [List.mem_singleton.1 h, hrepr]
    exact ⟨by rw [hmy]; omega, hyr, ha⟩
  · intro a h
    by_cases e : a = root
    · exact Or.inr (by rw [e, hsc]; simp)
    · rw [hm a e] at h
      rw [hrepr]
      exact Or.inl (a3 a h)
  · rw [hsc]; simp
  · intro f hf
    have : f = root := by simpa using hf
    subst this
    exact ⟨by rw [hsc]; simp, by rw [hry, hmy]⟩
  · simp
  · intro e he
    have : e = (root, ((succ root).filter fun o => upd t.mark root (t.reached + 1) o = 0).reverse) := by simpa using he
    subst this
    refine ⟨fun z hz => (List.mem_filter.1 (List.mem_reverse.1 hz)).1, fun z hz => ?_⟩
    by_cases e : t'.mark z = 0
    · exact Or.inr (List.mem_reverse.2 (List.mem_filter.2 ⟨hz, decide_eq_true (by rw [← hup]; exact e)⟩))
    · exact Or.inl e
  · intro f hf x hx _
    have : f = root := by simpa using hf
    subst this
    rw [hsc] at hx
    rw [List.mem_singleton.1 hx]
    exact .refl _
  · intro x hx hf
    rw [hsc] at hx
    exact absurd (by simpa using hx) hf
  · intro x hx hf
    rw [hsc] at hx
    exact absurd (by simpa using hx) hf
  · intro x hx hf
    rw [hsc] at hx
    exact absurd (List.mem_singleton.1 hx) hf
  · refine ⟨by rw [hmy]; omega, fun x hx => ?_, ha, fun x hx => ?_⟩
    · by_cases e : x = root
      · rw [e]; exact .refl _
      · rw [hm x e, hmy] at hx
        have := a1.le x; omega
    · rw [hsc] at hx
      rw [List.mem_singleton.1 hx]
      exact Nat.le_refl _

theorem Between.roots {succ : Nat → List Nat} {act : Nat → Prop} {active : Nat → Bool} (hgr : Graph succ act)
    (hact : ∀ a, active a = true → act a) (fuel : Nat) :
    ∀ (ls : List Nat) {t t' : Scc}, Between succ act t → t.roots succ active fuel ls = some t' →
    (t'.clash = true → Clash succ act t') ∧
    (t'.clash = false → Between succ act t' ∧ (∀ a, t.repr a ≠ none → t'.repr a ≠ none) ∧
      ∀ a ∈ ls, active a = true → t'.repr a ≠ none)
  | [], t, t', h, he => by
    cases he
    exact ⟨fun hh => (by rw [h.fin.ok] at hh; cases hh), fun _ => ⟨h, fun _ h => h, fun a ha => (by cases ha)⟩⟩
  | root :: ls, t, t', h, he => by
    unfold Scc.roots at he
    rw [if_neg (by rw [h.fin.ok]; simp)] at he
    by_cases hm : t.mark root ≠ 0
    · rw [if_pos hm] at he
      obtain ⟨i1, i2⟩ := Between.roots hgr hact fuel ls h he
      refine ⟨i1, fun hc => ⟨(i2 hc).1, (i2 hc).2.1, fun a ha hact => ?_⟩⟩
      rcases List.mem_cons.1 ha with e | ha
      · rw [e]; exact (i2 hc).2.1 root (h.marked root hm)
      · exact (i2 hc).2.2 a ha hact
    · rw [if_neg hm] at he
      by_cases ha : active root = true
      · rw [if_neg (by rw [ha]; simp)] at he
        have hm : t.mark root = 0 := by omega
        cases hl : Scc.loop succ root fuel { t with work := [some root], failed := false } with
        | none => rw [hl] at he; cases he
        | some t1 =>
          rw [hl] at he
          dsimp only at he
          have hfirst := h.first hgr hm (hact root ha)
          have key : (t1.clash = true → Clash succ act t1) ∧ (t1.clash = false → SInv succ act root t1 []) := by
            cases fuel with
            | zero =>
              unfold Scc.loop at hl
              rw [if_neg (by simp [h.fin.ok])] at hl
              cases hl
            | succ fuel =>
              unfold Scc.loop at hl
              rw [if_neg (by simp [h.fin.ok])] at hl
              unfold Scc.step at hl
              dsimp only at hl
              rw [if_pos hm] at hl
              exact hfirst.loop hgr fuel hl
          cases hc1 : t1.clash with
          | true =>
            have : t' = t1 := by
              cases ls with
              | nil => exact (Option.some.inj he).symm
              | cons r ls =>
                unfold Scc.roots at he
                rw [if_pos hc1] at he
                exact (Option.some.inj he).symm
            subst this
            exact ⟨key.1, fun hh => by rw [hc1] at hh; cases hh⟩
          | false =>
            have h1 := key.2 hc1
            have hsc := h1.empty
            have hmk : ∀ a, t1.mark a ≠ 0 → t1.repr a ≠ none := fun a ha =>
              (h1.marked a ha).resolve_right (by rw [hsc]; simp)
            have hb : Between succ act t1 := ⟨h1.fin, hsc, hmk⟩
            obtain ⟨i1, i2⟩ := Between.roots hgr hact fuel ls hb he
            refine ⟨i1, fun hc => ⟨(i2 hc).1, fun a h2 => (i2 hc).2.1 a ?_, fun a ha2 hact => ?_⟩⟩
            · exact hmk a (loop_mark fuel hl (h.fin.mark a h2).1)
            · rcases List.mem_cons.1 ha2 with e | ha2
              · rw [e]
                exact (i2 hc).2.1 root (hmk root h1.rootp.1)
              · exact (i2 hc).2.2 a ha2 hact
      · rw [if_pos (by simpa using ha)] at he
        obtain ⟨i1, i2⟩ := Between.roots hgr hact fuel ls h he
        refine ⟨i1, fun hc => ⟨(i2 hc).1, (i2 hc).2.1, fun a ha2 hact => ?_⟩⟩
        rcases List.mem_cons.1 ha2 with e | ha2
        · rw [e] at hact; exact absurd hact ha
        · exact (i2 hc).2.2 a ha2 hact

/-- What `determine_representatives` finds if there is no clash: the representative of an active literal is the
smallest literal of its component, and those of complementary literals are complementary. -/
structure Representatives (succ : Nat → List Nat) (active : Nat → Bool) (repr : Nat → Nat) : Prop where
  path : ∀ a, Path succ a (repr a) ∧ Path succ (repr a) a
  idem : ∀ a, repr (repr a) = repr a
  le : ∀ a, repr a ≤ a
  act : ∀ a, active a = true → active (repr a) = true
  fixed : ∀ a, active a = false → repr a = a
  neg : ∀ a, active a = true → repr (neg a) = neg (repr a)
  max : ∀ a b, active a = true → active b = true → Path succ a b → Path succ b a → repr a = repr b

theorem neg_le_div {a b : Nat} (h : a ≤ neg b) : a / 2 ≤ b / 2 := by
  have := Nat.div_le_div_right (c := 2) h
  rwa [neg_div] at this

/-- Correctness of the computation of the representatives, and of the units found. -/
theorem determine_spec {succ : Nat → List Nat} {active : Nat → Bool}
    (hgr : Graph succ fun a => active a = true) {lits fuel : Nat} (hlits : ∀ a, active a = true → a < lits) {t : Scc}
    (h : Scc.determine succ active lits fuel = some t) :
    (∀ u ∈ t.units, Good succ (fun a => active a = true) u) ∧
    (t.clash = true → ∃ u us, t.units = u :: us ∧ Path succ u (neg u)) ∧
    (t.clash = false → Representatives succ active fun a => (t.repr a).getD a) := by
  have h0 : Between succ (fun a => active a = true) Scc.init :=
    ⟨⟨fun a b ha => absurd rfl ha, fun a r ha => (by cases ha), fun a b r q ha => (by cases ha),
      fun a r ha => (by cases ha), fun a ha => absurd rfl ha, fun a ha => absurd rfl ha, fun a => Nat.le_refl _,
      fun u hu => (by cases hu), rfl⟩, rfl, fun a ha => absurd rfl ha⟩
  obtain ⟨i1, i2⟩ := h0.roots hgr (fun _ h => h) fuel _ h
  refine ⟨fun u hu => ?_, fun hc => (i1 hc).top, fun hc => ?_⟩
  · cases hc : t.clash with
    | true => exact (i1 hc).units u hu
    | false => exact (i2 hc).1.fin.units u hu
  · obtain ⟨b, _, hall⟩ := i2 hc
    have some_of : ∀ a, active a = true → ∃ r, t.repr a = some r := by
      intro a ha
      cases e : t.repr a with
      | none => exact absurd e (hall a (List.mem_range.2 (hlits a ha)) ha)
      | some r => exact ⟨r, rfl⟩
    have act_of : ∀ a r, t.repr a = some r → active a = true := fun a r e => (b.fin.mark a (by rw [e]; simp)).2
    have none_of : ∀ a, active a = false → t.repr a = none := by
      intro a ha
      cases e : t.repr a with
      | none => rfl
      | some r => rw [act_of a r e] at ha; cases ha
    refine ⟨fun a => ?_, fun a => ?_, fun a => ?_, fun a ha => ?_, fun a ha => ?_, fun a ha => ?_,
      fun x y hx hy p1 p2 => ?_⟩
    · cases e : t.repr a with
      | none => exact ⟨.refl _, .refl _⟩
      | some r => exact ⟨(b.fin.cls a r e).1, (b.fin.cls a r e).2.1⟩
    · cases e : t.repr a with
      | none => simp [e]
      | some r => simp [(b.fin.cls a r e).2.2.2]
    · cases e : t.repr a with
      | none => exact Nat.le_refl _
      | some r => exact (b.fin.cls a r e).2.2.1
    · obtain ⟨r, hr⟩ := some_of a ha
      simp only [hr, Option.getD_some]
      exact act_of r r (b.fin.cls a r hr).2.2.2
    · simp [none_of a ha]
    · obtain ⟨r, hr⟩ := some_of a ha
      obtain ⟨q, hq⟩ := some_of (Spec.neg a) (hgr.actNeg a ha)
      simp only [hr, hq, Option.getD_some]
      obtain ⟨c1, c2, c3, c4⟩ := b.fin.cls a r hr
      obtain ⟨d1, d2, d3, d4⟩ := b.fin.cls _ q hq
      have ar := act_of r r c4
      have aq := act_of q q d4
      obtain ⟨r', hr'⟩ := some_of (Spec.neg r) (hgr.actNeg r ar)
      obtain ⟨q', hq'⟩ := some_of (Spec.neg q) (hgr.actNeg q aq)
      -- the negation of the one representative is equivalent to the other
      have e1 : r' = q := b.fin.max _ _ _ _ hr' hq (c1.skew hgr ha) (c2.skew hgr ar)
      have s1 := d1.skew hgr (hgr.actNeg a ha)
      have s2 := d2.skew hgr aq
      rw [neg_neg] at s1 s2
      have e2 : q' = r := b.fin.max _ _ _ _ hq' hr s1 s2
      have l1 : q ≤ Spec.neg r := by rw [← e1]; exact (b.fin.cls _ _ hr').2.2.1
      have l2 : r ≤ Spec.neg q := by rw [← e2]; exact (b.fin.cls _ _ hq').2.2.1
      have := neg_le_div l1
      have := neg_le_div l2
      rcases eq_or_eq_neg (show q / 2 = r / 2 by omega) with e | e
      · exact absurd (e ▸ hq) (b.fin.free a r hr)
      · exact e
    · obtain ⟨r, hr⟩ := some_of x hx
      obtain ⟨q, hq⟩ := some_of y hy
      simp only [hr, hq, Option.getD_some]
      exact b.fin.max x y r q hr hq p1 p2

/-! ## Termination -/

theorem loop_more {succ : Nat → List Nat} {root : Nat} : ∀ (fuel k : Nat) {t t' : Scc},
    t.loop succ root fuel = some t' → t.loop succ root (fuel + k) = some t'
  | 0, k, t, t', h => by
    unfold Scc.loop at h
    split at h
    · rename_i hc
      cases k with
      | zero => unfold Scc.loop; rw [if_pos hc]; exact h
      | succ k => unfold Scc.loop; rw [if_pos hc]; exact h
    · cases h
  | fuel + 1, k, t, t', h => by
    rw [Nat.add_right_comm]
    unfold Scc.loop at h ⊢
    split at h
    · rename_i hc
      rw [if_pos hc]; exact h
    · rename_i hc
      rw [if_neg hc]; exact loop_more fuel k h

theorem assign_work (root min : Nat) : ∀ (seg : List Nat) (t : Scc), (t.assign root min seg).work = t.work
  | [], _ => rfl
  | other :: rest, t => by
    unfold Scc.assign
    dsimp only
    split
    · rw [assign_work root min rest]
    · split
      · rfl
      · split
        · rw [assign_work root min rest]
        · split
          · rw [assign_work root min rest]
          · rw [assign_work root min rest]

/-- Number of literals not visited yet. -/
def unvisited (lits : Nat) (mark : Nat → Nat) : Nat := (List.range lits).countP fun a => mark a = 0

theorem countP_lt {α : Type} {p q : α → Bool} {l : List α} (h : ∀ a ∈ l, q a = true → p a = true) {x : α}
    (hx : x ∈ l) (hp : p x = true) (hq : q x = false) : l.countP q < l.countP p := by
  induction l with
  | nil => cases hx
  | cons a l ih =>
    rw [List.countP_cons, List.countP_cons]
    have hle : l.countP q ≤ l.countP p := List.countP_mono_left fun b hb => h b (List.mem_cons_of_mem _ hb)
    rcases List.mem_cons.1 hx with rfl | hx'
    · rw [hp, hq]; simp; omega
    · have := ih (fun b hb => h b (List.mem_cons_of_mem _ hb)) hx'
      have h1 := h a (by simp)
      cases hqa : q a
      · simp; omega
      · rw [h1 hqa]; simp; omega

theorem loop_terminates {succ : Nat → List Nat} {root lits : Nat} (hs : ∀ a, ∀ b ∈ succ a, b < lits) :
    ∀ (n m : Nat) (t : Scc), (∀ y, some y ∈ t.work → y < lits) → unvisited lits t.mark ≤ n → t.work.length ≤ m →
    ∃ fuel t', t.loop succ root fuel = some t' := by
  intro n
  induction n using Nat.strongRecOn with
  | _ n ihn =>
    intro m
    induction m with
    | zero =>
      intro t _ _ hm
      refine ⟨0, t, ?_⟩
      unfold Scc.loop
      rw [if_pos]
      have : t.work = [] := List.length_eq_zero_iff.1 (by omega)
      simp [this]
    | succ m ihm =>
      intro t hw hn hm
      by_cases hc : (t.clash || t.work.isEmpty) = true
      · exact ⟨0, t, by unfold Scc.loop; rw [if_pos hc]⟩
      · have next : (∃ fuel t', (t.step succ root).loop succ root fuel = some t') →
            ∃ fuel t', t.loop succ root fuel = some t' := by
          rintro ⟨fuel, t', h⟩
          exact ⟨fuel + 1, t', by unfold Scc.loop; rw [if_neg hc]; exact h⟩
        apply next
        unfold Scc.step
        split
        · rename_i lit work e
          rw [e] at hw hm
          simp only [List.length_cons] at hm
          refine ihm _ ?_ ?_ ?_
          · unfold Scc.finish
            dsimp only
            split
            · exact fun y hy => hw y (by simp [hy])
            · rw [assign_work]; exact fun y hy => hw y (by simp [hy])
          · unfold Scc.finish
            dsimp only
            split
            · exact hn
            · rw [assign_mark]; exact hn
          · unfold Scc.finish
            dsimp only
            split
            · dsimp only; omega
            · rw [assign_work]; dsimp only; omega
        · rename_i work _ e
          rw [e] at hw hm
          simp only [List.length_cons] at hm
          exact ihm _ (fun y hy => hw y (by simp [show some y ∈ work from hy])) hn (by dsimp only; omega)
        · rename_i lit work e
          by_cases hz : t.mark lit = 0
          · rw [if_pos hz]
            have hlit : lit < lits := hw lit (by rw [e]; simp)
            have hlt : unvisited lits (t.expand succ lit).mark < unvisited lits t.mark := by
              unfold unvisited
              refine countP_lt (x := lit) (fun a _ ha => ?_) (List.mem_range.2 hlit) (by simpa using hz) ?_
              · have ha : (t.expand succ lit).mark a = 0 := by simpa using ha
                by_cases e : a = lit
                · rw [e]; simpa using hz
                · have : (t.expand succ lit).mark a = t.mark a := upd_ne _ _ e
                  rw [this] at ha
                  simpa using ha
              · have : (t.expand succ lit).mark lit = t.reached + 1 := upd_same _ _ _
                rw [this]; simp
            refine ihn _ (by omega) _ _ (fun y hy => ?_) (Nat.le_refl _) (Nat.le_refl _)
            have hy : some y ∈ ((succ lit).filter fun other => upd t.mark lit (t.reached + 1) other = 0).reverse.map some ++
              none :: t.work := hy
            rcases List.mem_append.1 hy with h | h
            · obtain ⟨z, hz, e⟩ := List.mem_map.1 h
              cases e
              exact hs lit _ (List.mem_filter.1 (List.mem_reverse.1 hz)).1
            · rcases List.mem_cons.1 h with h | h
              · cases h
              · exact hw y h
          · rw [if_neg hz]
            rw [e] at hw hm
            simp only [List.length_cons] at hm
            exact ihm _ (fun y hy => hw y (by simp [show some y ∈ work from hy])) hn (by dsimp only; omega)
        · rename_i e
          rw [e] at hc
          simp at hc

theorem roots_more {succ : Nat → List Nat} {active : Nat → Bool} (fuel k : Nat) : ∀ (ls : List Nat) {t t' : Scc},
    t.roots succ active fuel ls = some t' → t.roots succ active (fuel + k) ls = some t'
  | [], t, t', h => h
  | root :: ls, t, t', h => by
    unfold Scc.roots at h ⊢
    split
    · rename_i hc
      rw [if_pos hc] at h; exact h
    · rename_i hc
      rw [if_neg hc] at h
      split
      · rename_i hm
        rw [if_pos hm] at h
        exact roots_more fuel k ls h
      · rename_i hm
        rw [if_neg hm] at h
        split
        · rename_i ha
          rw [if_pos ha] at h
          exact roots_more fuel k ls h
        · rename_i ha
          rw [if_neg ha] at h
          cases hl : Scc.loop succ root fuel { t with work := [some root], failed := false } with
          | none => rw [hl] at h; cases h
          | some t1 =>
            rw [hl] at h
            rw [loop_more fuel k hl]
            exact roots_more fuel k ls h

theorem determine_terminates {succ : Nat → List Nat} {active : Nat → Bool} {lits : Nat}
    (hs : ∀ a, ∀ b ∈ succ a, b < lits) : ∃ fuel t, Scc.determine succ active lits fuel = some t := by
  have key : ∀ (ls : List Nat) (t : Scc), (∀ a ∈ ls, a < lits) → ∃ fuel t', t.roots succ active fuel ls = some t' := by
    intro ls
    induction ls with
    | nil => exact fun t _ => ⟨0, t, rfl⟩
    | cons root ls ih =>
      intro t hl
      have hl' : ∀ a ∈ ls, a < lits := fun a ha => hl a (List.mem_cons_of_mem _ ha)
      unfold Scc.roots
      split
      · exact ⟨0, t, rfl⟩
      · split
        · exact ih t hl'
        · split
          · exact ih t hl'
          · obtain ⟨f1, t1, h1⟩ := loop_terminates (root := root) hs _ _
              { t with work := [some root], failed := false }
              (fun y hy => by
                have : y = root := by simpa using hy
                rw [this]; exact hl root (by simp)) (Nat.le_refl _) (Nat.le_refl _)
            obtain ⟨f2, t2, h2⟩ := ih t1 hl'
            refine ⟨f1 + f2, t2, ?_⟩
            rw [loop_more f1 f2 h1]
            dsimp only
            rw [Nat.add_comm]
            exact roots_more f2 f1 ls h2
  exact key _ _ fun a ha => List.mem_range.1 ha

end Verif.Simp
