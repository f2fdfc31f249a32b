import Verif.Proofs.Kitten.Inv

/-! # New clauses and assignments of kitten -/

namespace Verif.Kitten

open Verif.Spec
open Verif.Core (upd)

@[simp] theorem connect_status (k : Kitten) (r : Nat) (c : List Nat) : (k.connect r c).status = k.status := by
  unfold Kitten.connect; split
  · split <;> rfl
  · rfl
  · rfl

@[simp] theorem connect_antecedents (k : Kitten) (r : Nat) (c : List Nat) : (k.connect r c).antecedents = k.antecedents := by
  unfold Kitten.connect; split
  · split <;> rfl
  · rfl
  · rfl

@[simp] theorem connect_learned (k : Kitten) (r : Nat) (c : List Nat) : (k.connect r c).learned = k.learned := by
  unfold Kitten.connect; split
  · split <;> rfl
  · rfl
  · rfl

@[simp] theorem connect_level (k : Kitten) (r : Nat) (c : List Nat) : (k.connect r c).level = k.level := by
  unfold Kitten.connect; split
  · split <;> rfl
  · rfl
  · rfl

@[simp] theorem connect_propagated (k : Kitten) (r : Nat) (c : List Nat) : (k.connect r c).propagated = k.propagated := by
  unfold Kitten.connect; split
  · split <;> rfl
  · rfl
  · rfl

@[simp] theorem connect_unassigned (k : Kitten) (r : Nat) (c : List Nat) : (k.connect r c).unassigned = k.unassigned := by
  unfold Kitten.connect; split
  · split <;> rfl
  · rfl
  · rfl

@[simp] theorem connect_failing (k : Kitten) (r : Nat) (c : List Nat) : (k.connect r c).failing = k.failing := by
  unfold Kitten.connect; split
  · split <;> rfl
  · rfl
  · rfl

@[simp] theorem connect_imports (k : Kitten) (r : Nat) (c : List Nat) : (k.connect r c).imports = k.imports := by
  unfold Kitten.connect; split
  · split <;> rfl
  · rfl
  · rfl

@[simp] theorem connect_exports (k : Kitten) (r : Nat) (c : List Nat) : (k.connect r c).exports = k.exports := by
  unfold Kitten.connect; split
  · split <;> rfl
  · rfl
  · rfl

@[simp] theorem connect_vars (k : Kitten) (r : Nat) (c : List Nat) : (k.connect r c).vars = k.vars := by
  unfold Kitten.connect; split
  · split <;> rfl
  · rfl
  · rfl

@[simp] theorem connect_values (k : Kitten) (r : Nat) (c : List Nat) : (k.connect r c).values = k.values := by
  unfold Kitten.connect; split
  · split <;> rfl
  · rfl
  · rfl

@[simp] theorem connect_failed (k : Kitten) (r : Nat) (c : List Nat) : (k.connect r c).failed = k.failed := by
  unfold Kitten.connect; split
  · split <;> rfl
  · rfl
  · rfl

@[simp] theorem connect_assumptions (k : Kitten) (r : Nat) (c : List Nat) : (k.connect r c).assumptions = k.assumptions := by
  unfold Kitten.connect; split
  · split <;> rfl
  · rfl
  · rfl

@[simp] theorem connect_core (k : Kitten) (r : Nat) (c : List Nat) : (k.connect r c).core = k.core := by
  unfold Kitten.connect; split
  · split <;> rfl
  · rfl
  · rfl

@[simp] theorem connect_klauses (k : Kitten) (r : Nat) (c : List Nat) : (k.connect r c).klauses = k.klauses := by
  unfold Kitten.connect; split
  · split <;> rfl
  · rfl
  · rfl

@[simp] theorem connect_trail (k : Kitten) (r : Nat) (c : List Nat) : (k.connect r c).trail = k.trail := by
  unfold Kitten.connect; split
  · split <;> rfl
  · rfl
  · rfl

theorem connect_two (k : Kitten) (r a b : Nat) (rest : List Nat) :
    (k.connect r (a :: b :: rest)).units = k.units ∧ (k.connect r (a :: b :: rest)).inconsistent = k.inconsistent :=
  ⟨rfl, rfl⟩

/-- A clause is stored and connected. -/
def Kitten.add (k : Kitten) (c : Klause) : Kitten :=
  Kitten.connect { k with klauses := k.klauses ++ [c] } k.klauses.length c.lits

theorem newOriginal_eq (k : Kitten) (id : Nat) (lits : List Nat) :
    k.newOriginal id lits = k.add ⟨false, false, id, lits, []⟩ := rfl

theorem newLearned_eq (k : Kitten) (lits resolved : List Nat) : k.newLearned lits resolved =
    Kitten.add { k with learned := true } ⟨true, false, 0, lits, if k.antecedents then resolved else []⟩ := rfl

@[simp] theorem add_status (k : Kitten) (c : Klause) : (k.add c).status = k.status := by unfold Kitten.add; simp

@[simp] theorem add_antecedents (k : Kitten) (c : Klause) : (k.add c).antecedents = k.antecedents := by unfold Kitten.add; simp

@[simp] theorem add_learned (k : Kitten) (c : Klause) : (k.add c).learned = k.learned := by unfold Kitten.add; simp

@[simp] theorem add_level (k : Kitten) (c : Klause) : (k.add c).level = k.level := by unfold Kitten.add; simp

@[simp] theorem add_propagated (k : Kitten) (c : Klause) : (k.add c).propagated = k.propagated := by unfold Kitten.add; simp

@[simp] theorem add_unassigned (k : Kitten) (c : Klause) : (k.add c).unassigned = k.unassigned := by unfold Kitten.add; simp

@[simp] theorem add_failing (k : Kitten) (c : Klause) : (k.add c).failing = k.failing := by unfold Kitten.add; simp

@[simp] theorem add_imports (k : Kitten) (c : Klause) : (k.add c).imports = k.imports := by unfold Kitten.add; simp

@[simp] theorem add_exports (k : Kitten) (c : Klause) : (k.add c).exports = k.exports := by unfold Kitten.add; simp

@[simp] theorem add_vars (k : Kitten) (c : Klause) : (k.add c).vars = k.vars := by unfold Kitten.add; simp

@[simp] theorem add_values (k : Kitten) (c : Klause) : (k.add c).values = k.values := by unfold Kitten.add; simp

@[simp] theorem add_failed (k : Kitten) (c : Klause) : (k.add c).failed = k.failed := by unfold Kitten.add; simp

@[simp] theorem add_assumptions (k : Kitten) (c : Klause) : (k.add c).assumptions = k.assumptions := by unfold Kitten.add; simp

@[simp] theorem add_core (k : Kitten) (c : Klause) : (k.add c).core = k.core := by unfold Kitten.add; simp

@[simp] theorem add_trail (k : Kitten) (c : Klause) : (k.add c).trail = k.trail := by unfold Kitten.add; simp

@[simp] theorem add_klauses (k : Kitten) (c : Klause) : (k.add c).klauses = k.klauses ++ [c] := by
  unfold Kitten.add; simp

theorem getElem?_concat {α : Type} {l : List α} {x y : α} {i : Nat} (h : (l ++ [x])[i]? = some y) :
    l[i]? = some y ∨ i = l.length ∧ y = x := by
  by_cases hi : i < l.length
  · left; rw [List.getElem?_append_left hi] at h; exact h
  · rw [List.getElem?_append_right (by omega)] at h
    right
    have := (List.getElem?_eq_some_iff.1 h).1
    simp at this
    have e : i = l.length := by omega
    subst e
    simp at h
    exact ⟨rfl, h.symm⟩

theorem getElem?_concat_old {α : Type} {l : List α} {x y : α} {i : Nat} (h : l[i]? = some y) :
    (l ++ [x])[i]? = some y := by
  rw [List.getElem?_append_left (List.getElem?_eq_some_iff.1 h).1]; exact h

theorem lt_of_get {α : Type} {l : List α} {y : α} {i : Nat} (h : l[i]? = some y) : i < l.length :=
  (List.getElem?_eq_some_iff.1 h).1

theorem evolve_learned (ks : List Klause) {c : Klause} (h : c.learned = true) (h' : c.core = false) : Evolve ks (ks ++ [c]) := by
  refine ⟨fun r kl hr => ⟨kl, getElem?_concat_old hr, .refl _, rfl, rfl, rfl, rfl⟩, fun r kl hr => ?_, by simp⟩
  rcases getElem?_concat hr with h1 | ⟨_, rfl⟩
  · exact Or.inl (lt_of_get h1)
  · exact Or.inr ⟨h, h'⟩

theorem fml_concat (ks : List Klause) (c : Klause) (A : Nat → Prop) : ∀ d, Fml ks A d → Fml (ks ++ [c]) A d := by
  rintro d ⟨r, kl, hA, hr, rfl⟩
  exact ⟨r, kl, hA, getElem?_concat_old hr, rfl⟩

/-- A new clause keeps the invariant of the store. -/
theorem Store.add {k : Kitten} {c : Klause} (h : Store k) (hv : ∀ l ∈ c.lits, l / 2 < k.n)
    (hd : (c.lits.map (· / 2)).Nodup)
    (hl : c.learned = true → k.learned = true ∧ ∃ A : List Nat, (∀ a ∈ A, a < k.klauses.length) ∧
      (k.antecedents = true → A = c.ants) ∧ RUP (Fml k.klauses (· ∈ A)) c.lits) : Store (k.add c) := by
  have hunsat : c.lits = [] → ¬ Satisfiable (Orig (k.klauses ++ [c])) := by
    rintro he ⟨σ, hs⟩
    have hs' : SatFormula σ (Orig k.klauses) := fun d hd => hs d (by
      obtain ⟨kl, hm, hx⟩ := hd; exact ⟨kl, List.mem_append_left _ hm, hx⟩)
    cases hcl : c.learned with
    | false => exact not_satClause_nil σ (he ▸ hs _ ⟨c, by simp, hcl, rfl⟩)
    | true =>
      obtain ⟨_, A, _, _, hr⟩ := hl hcl
      have := hr.entails σ (by
        rintro d ⟨r, kl, _, hr, rfl⟩
        exact h.entailed hs' r kl hr)
      rw [he] at this
      exact not_satClause_nil σ this
  have hmem : ∀ kl, kl ∈ (k.add c).klauses → kl ∈ k.klauses ∨ kl = c := fun kl hk => by simpa using hk
  constructor
  · intro kl hk l hm
    show l / 2 < (k.add c).exports.length
    rw [add_exports]
    rcases hmem kl hk with hk | rfl
    · exact h.valid kl hk l hm
    · exact hv l hm
  · intro kl hk
    rcases hmem kl hk with hk | rfl
    · exact h.distinct kl hk
    · exact hd
  · intro r kl hr hlr
    rw [add_klauses] at hr ⊢
    rw [add_antecedents]
    rcases getElem?_concat hr with hr | ⟨rfl, rfl⟩
    · obtain ⟨A, a1, a2, a3⟩ := h.learned r kl hr hlr
      exact ⟨A, a1, a2, a3.mono_sub (fml_concat _ _ _)⟩
    · obtain ⟨_, A, a1, a2, a3⟩ := hl hlr
      exact ⟨A, a1, a2, a3.mono_sub (fml_concat _ _ _)⟩
  · intro hf kl hk
    rw [add_learned] at hf
    rcases hmem kl hk with hk | rfl
    · exact h.flag hf kl hk
    · cases hcl : kl.learned with
      | false => rfl
      | true => rw [(hl hcl).1] at hf; cases hf
  · intro kl hk he
    have old : k.inconsistent ≠ none → (k.add c).inconsistent ≠ none := by
      intro hi
      unfold Kitten.add Kitten.connect
      split
      · split
        · simp
        · exact hi
      · exact hi
      · exact hi
    rcases hmem kl hk with hk | rfl
    · exact old (h.empty kl hk he)
    · by_cases hi : k.inconsistent = none
      · unfold Kitten.add
        rw [he]
        unfold Kitten.connect
        simp [hi]
      · exact old hi
  · intro r kl l hr he
    rw [add_klauses] at hr
    rcases getElem?_concat hr with hr | ⟨rfl, rfl⟩
    · have := h.units r kl l hr he
      unfold Kitten.add Kitten.connect
      split
      · split <;> exact this
      · exact List.mem_append_left _ this
      · exact this
    · unfold Kitten.add
      rw [he]
      unfold Kitten.connect
      simp
  · intro r hr
    rw [add_klauses]
    have : r ∈ k.units ∨ r = k.klauses.length ∧ ∃ l, c.lits = [l] := by
      revert hr
      unfold Kitten.add Kitten.connect
      split
      · split <;> exact Or.inl
      · rename_i l heq
        intro hr
        rcases List.mem_append.1 hr with hr | hr
        · exact Or.inl hr
        · exact Or.inr ⟨by simpa using hr, l, heq⟩
      · exact Or.inl
    rcases this with hr | ⟨rfl, l, hl⟩
    · obtain ⟨kl, l, h1, h2⟩ := h.unit r hr
      exact ⟨kl, l, getElem?_concat_old h1, h2⟩
    · exact ⟨c, l, by simp, hl⟩
  · intro r hr
    rw [add_klauses, add_antecedents]
    have : k.inconsistent = some r ∨ r = k.klauses.length ∧ c.lits = [] := by
      revert hr
      unfold Kitten.add Kitten.connect
      split
      · rename_i heq
        split
        · intro hr; simp at hr; exact Or.inr ⟨hr.symm, heq⟩
        · exact Or.inl
      · exact Or.inl
      · exact Or.inl
    rcases this with hr | ⟨rfl, he⟩
    · obtain ⟨⟨kl, h1, h2⟩, h3⟩ := h.inconsistent r hr
      refine ⟨⟨kl, getElem?_concat_old h1, h2⟩, ?_⟩
      rintro ⟨σ, hs⟩
      exact h3 ⟨σ, fun d hd => hs d (by obtain ⟨kl, hm, hx⟩ := hd; exact ⟨kl, List.mem_append_left _ hm, hx⟩)⟩
    · exact ⟨⟨c, by simp, fun _ => he⟩, hunsat he⟩

/-- The watches of a new clause. -/
def newWatches (ref w : Nat) : List Nat → List Katch
  | a :: b :: rest => (if w = a then [⟨b, ref, rest.isEmpty⟩] else []) ++
      (if w = b then [⟨a, ref, rest.isEmpty⟩] else [])
  | _ => []

theorem add_watches (k : Kitten) (c : Klause) (w : Nat) : (k.add c).watches w =
    k.watches w ++ newWatches k.klauses.length w c.lits := by
  unfold Kitten.add
  generalize c.lits = d
  match d with
  | [] => unfold Kitten.connect newWatches; simp; split <;> rfl
  | [_] => unfold Kitten.connect newWatches; simp
  | a :: b :: rest =>
    simp only [Kitten.connect, newWatches, Kitten.watch, upd]
    by_cases hb : w = b
    · subst hb
      by_cases ha : w = a
      · subst ha; simp
      · simp [ha]
    · by_cases ha : w = a
      · subst ha; simp [hb]
      · simp [hb, ha]

theorem isWatch_two {a b : Nat} {rest : List Nat} {w : Nat} : IsWatch (a :: b :: rest) w ↔ w = a ∨ w = b := by
  unfold IsWatch
  simp only [List.length_cons, List.getElem?_cons_zero, List.getElem?_cons_succ, Option.some.injEq]
  constructor
  · rintro ⟨_, h | h⟩
    · exact Or.inl h.symm
    · exact Or.inr h.symm
  · rintro (h | h)
    · exact ⟨by omega, Or.inl h.symm⟩
    · exact ⟨by omega, Or.inr h.symm⟩

theorem IsWatch.cases {lits : List Nat} {w : Nat} (h : IsWatch lits w) :
    ∃ a b rest, lits = a :: b :: rest ∧ (w = a ∨ w = b) := by
  match lits, h with
  | [], h => exact absurd h.1 (by simp)
  | [_], h => exact absurd h.1 (by simp)
  | a :: b :: rest, h => exact ⟨a, b, rest, rfl, isWatch_two.1 h⟩

/-- A new clause keeps the invariant of the watch lists. -/
theorem Watches.add {k : Kitten} {c : Klause} (h : Watches k) (hd : (c.lits.map (· / 2)).Nodup) :
    Watches (k.add c) := by
  have hfresh : ∀ w, ∀ x ∈ k.watches w, x.ref < k.klauses.length := fun w x hx => by
    obtain ⟨kl, h1, _⟩ := h.back w x hx
    exact lt_of_get h1
  have hne : ∀ a b rest, c.lits = a :: b :: rest → a ≠ b := by
    intro a b rest he hab
    rw [he] at hd
    simp [hab] at hd
  constructor
  · intro r kl w hr hw
    rw [add_klauses] at hr
    rw [add_watches]
    rcases getElem?_concat hr with hr | ⟨rfl, rfl⟩
    · obtain ⟨x, h1, h2⟩ := h.watched r kl w hr hw
      exact ⟨x, List.mem_append_left _ h1, h2⟩
    · obtain ⟨a, b, rest, he, hab⟩ := hw.cases
      rw [he]
      rcases hab with rfl | rfl
      · exact ⟨⟨b, k.klauses.length, rest.isEmpty⟩, by simp [newWatches], rfl⟩
      · exact ⟨⟨a, k.klauses.length, rest.isEmpty⟩, by simp [newWatches], rfl⟩
  · intro w x hx
    rw [add_klauses]
    rw [add_watches] at hx
    rcases List.mem_append.1 hx with hx | hx
    · obtain ⟨kl, h1, h2⟩ := h.back w x hx
      exact ⟨kl, getElem?_concat_old h1, h2⟩
    · unfold newWatches at hx
      split at hx
      · rename_i a b rest he
        have hn := hne a b rest he
        have hlen : rest.isEmpty = decide ((a :: b :: rest).length = 2) := by cases rest <;> simp
        rcases List.mem_append.1 hx with hx | hx
        · by_cases hw : w = a
          · subst hw
            simp at hx
            subst hx
            exact ⟨c, by simp, by rw [he]; exact isWatch_two.2 (Or.inl rfl), by rw [he]; simp, hn.symm,
              by rw [he]; exact hlen⟩
          · simp [hw] at hx
        · by_cases hw : w = b
          · subst hw
            simp at hx
            subst hx
            exact ⟨c, by simp, by rw [he]; exact isWatch_two.2 (Or.inr rfl), by rw [he]; simp, hn,
              by rw [he]; exact hlen⟩
          · simp [hw] at hx
      · simp at hx
  · intro w
    rw [add_watches, List.map_append]
    refine List.nodup_append.2 ⟨h.once w, ?_, ?_⟩
    · unfold newWatches
      split
      · rename_i a b rest he
        have hn := hne a b rest he
        by_cases hw : w = a
        · subst hw; simp [hn]
        · by_cases hw' : w = b
          · subst hw'; simp [hw]
          · simp [hw, hw']
      · simp
    · intro r hr r' hr' hrr
      obtain ⟨x, hx, rfl⟩ := List.mem_map.1 hr
      have h1 := hfresh w x hx
      have h2 : r' = k.klauses.length := by
        obtain ⟨y, hy, rfl⟩ := List.mem_map.1 hr'
        unfold newWatches at hy
        split at hy
        · rcases List.mem_append.1 hy with hy | hy <;> split at hy <;> simp at hy <;> rw [hy]
        · simp at hy
      omega

end Verif.Kitten
