import Verif.Proofs.Parse

/-!
# The parser accepts exactly the legal bodies
-/

namespace Verif.Model.Parse

open Verif.Spec.Dimacs

variable {m : Mode} {e : Bool}

/-- Parsing succeeds with this number of variables and these events. -/
def Ok (m : Mode) (e : Bool) (s : State) (w : List Nat) (v : Nat) (ev : List Event) : Prop :=
  ∃ ln, run m e s w = some (.ok v ln ev)

/-- The value of digits after a number `n`. -/
def valueFrom (n : Nat) (ds : List Nat) : Nat := ds.foldl (fun n d => 10 * n + (d - 48)) n

theorem valueFrom_cons (n d : Nat) (ds : List Nat) :
    valueFrom n (d :: ds) = valueFrom (10 * n + (d - 48)) ds := by
  unfold valueFrom
  rw [List.foldl_cons]

theorem value_cons (d : Nat) (ds : List Nat) : value (d :: ds) = valueFrom (d - 48) ds := by
  show valueFrom (10 * 0 + (d - 48)) ds = _
  rw [Nat.mul_zero, Nat.zero_add]

theorem le_valueFrom (n : Nat) (ds : List Nat) : n ≤ valueFrom n ds := by
  induction ds generalizing n with
  | nil => exact Nat.le_refl n
  | cons d ds ih => rw [valueFrom_cons]; have := ih (10 * n + (d - 48)); omega

theorem isDigit_iff (x : Nat) : isDigit (some x) = true ↔ IsDigit x := by
  unfold isDigit IsDigit
  simp

/-- The overflow test is exact. -/
theorem overflow_iff {max n digit : Nat} (hd : digit ≤ max) :
    (max / 10 < n ∨ max - digit < n * 10) ↔ max < 10 * n + digit := by
  omega

/-- Splitting off the leading digits. -/
theorem digits_split (w : List Nat) :
    ∃ ds r, w = ds ++ r ∧ (∀ d ∈ ds, IsDigit d) ∧ (∀ x ∈ r.head?, ¬ IsDigit x) := by
  induction w with
  | nil => exact ⟨[], [], rfl, by simp, by simp⟩
  | cons x w ih =>
    by_cases hx : IsDigit x
    · obtain ⟨ds, r, h1, h2, h3⟩ := ih
      refine ⟨x :: ds, r, by rw [h1]; rfl, ?_, h3⟩
      intro d hd
      rcases List.mem_cons.mp hd with h | h
      · rw [h]; exact hx
      · exact h2 d h
    · exact ⟨[], x :: w, rfl, by simp, by simpa using hx⟩

/-- Splitting at the first new-line. -/
theorem line_split (w : List Nat) : 10 ∉ w ∨ ∃ t r, w = t ++ 10 :: r ∧ 10 ∉ t := by
  induction w with
  | nil => exact Or.inl (by simp)
  | cons x w ih =>
    by_cases hx : x = 10
    · exact Or.inr ⟨[], w, by rw [hx]; rfl, by simp⟩
    · rcases ih with h | ⟨t, r, h1, h2⟩
      · left
        simp only [List.mem_cons, not_or]
        exact ⟨fun h => hx h.symm, h⟩
      · right
        refine ⟨x :: t, r, by rw [h1]; rfl, ?_⟩
        simp only [List.mem_cons, not_or]
        exact ⟨fun h => hx h.symm, h2⟩

/-! ## Comments and numbers in the body -/

theorem run_bodyComment (ln v c p : Nat) (l : Int) (ev : List Event) (t w : List Nat)
    (ht : 10 ∉ t) :
    run m e ⟨.bodyComment, ln, v, c, p, l, ev⟩ (t ++ 10 :: w) =
      run m e ⟨.body, ln + 1, v, c, p, l, ev⟩ w := by
  induction t with
  | nil => rw [List.nil_append, run_cons]; simp [step, after, goto]
  | cons x t ih =>
    simp only [List.mem_cons, not_or] at ht
    have hx : x ≠ 10 := fun h => ht.1 h.symm
    rw [List.cons_append, run_cons]
    simp only [step, after, goto, Option.some.injEq, hx, if_false, reduceCtorEq]
    exact ih ht.2

theorem run_bodyComment_eof (ln v c p : Nat) (l : Int) (ev : List Event) (t : List Nat)
    (ht : 10 ∉ t) :
    run m e ⟨.bodyComment, ln, v, c, p, l, ev⟩ t =
      atEof m e ⟨.bodyComment, ln, v, c, p, l, ev⟩ := by
  induction t with
  | nil => rfl
  | cons x t ih =>
    simp only [List.mem_cons, not_or] at ht
    have hx : x ≠ 10 := fun h => ht.1 h.symm
    rw [run_cons]
    simp only [step, after, goto, Option.some.injEq, hx, if_false, reduceCtorEq]
    exact ih ht.2

theorem run_idxComment (ln v c p : Nat) (l : Int) (ev : List Event) (sg : Int) (n : Nat)
    (t w : List Nat) (ht : 10 ∉ t) :
    run m e ⟨.idxComment sg n, ln, v, c, p, l, ev⟩ (t ++ 10 :: w) =
      cont m e (addLit m ⟨.idxComment sg n, ln + 1, v, c, p, l, ev⟩ sg n (some 10)) w := by
  induction t with
  | nil => rw [List.nil_append, run_cons]; simp [step, after]
  | cons x t ih =>
    simp only [List.mem_cons, not_or] at ht
    have hx : x ≠ 10 := fun h => ht.1 h.symm
    rw [List.cons_append, run_cons]
    simp only [step, after, goto, Option.some.injEq, hx, if_false, reduceCtorEq]
    exact ih ht.2

theorem run_idxComment_eof (ln v c p : Nat) (l : Int) (ev : List Event) (sg : Int) (n : Nat)
    (t : List Nat) (ht : 10 ∉ t) :
    run m e ⟨.idxComment sg n, ln, v, c, p, l, ev⟩ t =
      atEof m e ⟨.idxComment sg n, ln, v, c, p, l, ev⟩ := by
  induction t with
  | nil => rfl
  | cons x t ih =>
    simp only [List.mem_cons, not_or] at ht
    have hx : x ≠ 10 := fun h => ht.1 h.symm
    rw [run_cons]
    simp only [step, after, goto, Option.some.injEq, hx, if_false, reduceCtorEq]
    exact ih ht.2

theorem run_idx (ln v c p : Nat) (l : Int) (ev : List Event) (sg : Int) (n : Nat)
    (ds w : List Nat) (hds : ∀ d ∈ ds, IsDigit d) (hv : valueFrom n ds ≤ maxVar) :
    run m e ⟨.idx sg n, ln, v, c, p, l, ev⟩ (ds ++ w) =
      run m e ⟨.idx sg (valueFrom n ds), ln, v, c, p, l, ev⟩ w := by
  induction ds generalizing n with
  | nil => rfl
  | cons d ds ih =>
    have hd : IsDigit d := hds d (by simp)
    have hd' := (isDigit_iff d).mpr hd
    have h1 : 10 * n + (d - 48) ≤ maxVar := Nat.le_trans (le_valueFrom _ ds) hv
    have hn10 : d ≠ 10 := by unfold IsDigit at hd; omega
    have hov := mt (overflow_iff (max := maxVar) (n := n) (digit := d - 48)
      (by unfold IsDigit at hd; unfold maxVar; omega)).mp (by omega)
    rw [not_or] at hov
    rw [List.cons_append, run_cons]
    simp only [step, after, goto, hd', if_true, Option.some.injEq, hn10, if_false,
      Option.getD_some, hov.1, hov.2]
    rw [show n * 10 + (d - 48) = 10 * n + (d - 48) by omega]
    exact ih _ (fun d h => hds d (List.mem_cons_of_mem _ h)) hv

theorem run_idx_overflow (ln v c p : Nat) (l : Int) (ev : List Event) (sg : Int) (n : Nat)
    (ds w : List Nat) (hds : ∀ d ∈ ds, IsDigit d) (hn : n ≤ maxVar) (hv : maxVar < valueFrom n ds) :
    run m e ⟨.idx sg n, ln, v, c, p, l, ev⟩ (ds ++ w) =
      some (.error "variable index too large" 1 ev) := by
  induction ds generalizing n with
  | nil => exact absurd hn (Nat.not_le.mpr hv)
  | cons d ds ih =>
    have hd : IsDigit d := hds d (by simp)
    have hd' := (isDigit_iff d).mpr hd
    have hn10 : d ≠ 10 := by unfold IsDigit at hd; omega
    have hle : d - 48 ≤ maxVar := by unfold IsDigit at hd; unfold maxVar; omega
    rw [List.cons_append, run_cons]
    by_cases h1 : 10 * n + (d - 48) ≤ maxVar
    · have hov := mt (overflow_iff (max := maxVar) (n := n) hle).mp (by omega)
      rw [not_or] at hov
      simp only [step, after, goto, hd', if_true, Option.some.injEq, hn10, if_false,
        Option.getD_some, hov.1, hov.2]
      rw [show n * 10 + (d - 48) = 10 * n + (d - 48) by omega]
      exact ih _ (fun d h => hds d (List.mem_cons_of_mem _ h)) h1 hv
    · have hov := (overflow_iff (max := maxVar) (n := n) hle).mpr (by omega)
      simp only [step, after, fail, hd', if_true, Option.some.injEq, hn10, if_false,
        Option.getD_some]
      by_cases h2 : maxVar / 10 < n
      · simp only [h2, if_true, cont_done]
      · simp only [h2, if_false]
        rw [if_pos (hov.resolve_left h2), cont_done]

/-! ## Acceptance of bodies -/

/-- What has to hold for the remaining integers at the beginning of the loop, with `p`
clauses parsed and last integer `l`. -/
def Fits (m : Mode) (v c p : Nat) (l : Int) (ls : List Int) : Prop :=
  ls.getLast?.getD l = 0 ∧
  (m = .relaxed ∨ ((∀ k ∈ ls, k.natAbs ≤ v) ∧ p + ls.count 0 = c))

theorem Fits.cons {v c p : Nat} {l k : Int} {ls : List Int} :
    Fits m v c p l (k :: ls) ↔
      (m = .relaxed ∨ k.natAbs ≤ v) ∧ Fits m v c (if k = 0 then p + 1 else p) k ls := by
  unfold Fits
  have h1 : (k :: ls).getLast?.getD l = ls.getLast?.getD k := by
    rw [List.getLast?_cons]; rfl
  rw [h1]
  by_cases hm : m = .relaxed
  · simp [hm]
  · simp only [hm, false_or, List.mem_cons, forall_eq_or_imp, List.count_cons]
    have : p + (List.count 0 ls + if (k == 0) = true then 1 else 0) = c ↔
        (if k = 0 then p + 1 else p) + List.count 0 ls = c := by
      by_cases hk : k = 0
      · simp [hk]; omega
      · simp [hk]
    rw [this]
    constructor
    · rintro ⟨a, ⟨b, d⟩, f⟩; exact ⟨b, a, d, f⟩
    · rintro ⟨b, a, d, f⟩; exact ⟨a, ⟨b, d⟩, f⟩

/-- The end of the file is accepted if everything fits. -/
theorem finish_iff {s : State} (hp : m = .relaxed ∨ s.parsed ≤ s.clauses) :
    (∃ r, finish m s = .done r ∧ ∃ v ln ev, r = .ok v ln ev) ↔ Fits m s.maxVar s.clauses s.parsed s.lit [] := by
  unfold finish Fits
  simp only [List.getLast?_nil, Option.getD_none, List.not_mem_nil, false_imp_iff, implies_true,
    List.count_nil, true_and, Nat.add_zero]
  by_cases h1 : s.lit = 0
  · simp only [h1, ne_eq, not_true_eq_false, if_false, true_and]
    by_cases h2 : m = .relaxed
    · simp [h2]
    · simp only [h2, false_or] at hp
      by_cases h3 : s.parsed < s.clauses
      · simp only [h2, h3, not_false_eq_true, and_self, if_true, false_or]
        constructor
        · rintro ⟨r, h, v, ln, ev, rfl⟩
          split at h <;> simp [fail] at h
        · intro h; omega
      · simp only [h2, h3, not_false_eq_true, and_false, if_false, false_or]
        constructor
        · intro _; omega
        · intro _; exact ⟨_, rfl, _, _, _, rfl⟩
  · simp [h1, fail]

theorem finish_ok {s : State} (h : Fits m s.maxVar s.clauses s.parsed s.lit []) :
    finish m s = .done (.ok s.maxVar s.lineno s.events) := by
  unfold Fits at h
  simp only [List.getLast?_nil, Option.getD_none, List.not_mem_nil, false_imp_iff, implies_true,
    List.count_nil, true_and, Nat.add_zero] at h
  unfold finish
  rw [if_neg (by simpa using h.1), if_neg]
  rintro ⟨a, b⟩
  rcases h.2 with h | h
  · exact a h
  · omega

/-- A legal number was read and is followed by `ch`. -/
theorem addLit_ok {s : State} {sg : Int} {n : Nat} {ch : Option Nat} (hsg : sg = 1 ∨ sg = -1)
    (h1 : m = .relaxed ∨ n ≤ s.maxVar) (h2 : n = 0 → m = .relaxed ∨ s.parsed ≠ s.clauses) :
    addLit m s sg n ch = .more { s with
        pc := .body
        parsed := if sg * n = 0 then s.parsed + 1 else s.parsed
        lit := sg * n
        events := s.events ++ [.add (sg * n)] } := by
  have h0 : sg * (n : Int) = 0 ↔ n = 0 := by
    rcases hsg with rfl | rfl <;> omega
  unfold addLit
  rw [if_neg (by rintro ⟨a, b⟩; rcases h1 with h | h; exact a h; omega)]
  by_cases hn : n = 0
  · subst hn
    rw [if_neg (by simp), if_neg (by
      rintro ⟨a, b⟩
      rcases h2 rfl with h | h
      · exact a h
      · exact h b)]
    simp
  · rw [if_pos hn]
    simp [h0, hn]

theorem natAbs_sign {sg : Int} {n : Nat} (hsg : sg = 1 ∨ sg = -1) : (sg * (n : Int)).natAbs = n := by
  rcases hsg with rfl | rfl <;> omega

/-- The parser at the beginning of a numeral of the body. -/
theorem numeral_run {n : List Nat} {k : Int} (hn : Numeral n k) :
    ∃ (sg : Int) (a : Nat), (sg = 1 ∨ sg = -1) ∧ k = sg * a ∧ a ≤ maxVar ∧
      ∀ ln v c p l ev w, run m e ⟨.body, ln, v, c, p, l, ev⟩ (n ++ w) =
        run m e ⟨.idx sg a, ln, v, c, p, l, ev⟩ w := by
  rcases hn with ⟨⟨hne, hd⟩, hk, hle⟩ | ⟨d, ds, rfl, ⟨-, hd⟩, hz, hk, hle⟩
  · cases n with
    | nil => exact absurd rfl hne
    | cons d ds =>
      have hd0 := hd d (by simp)
      have hd' := (isDigit_iff d).mpr hd0
      unfold IsDigit at hd0
      refine ⟨1, value (d :: ds), Or.inl rfl, by rw [hk]; omega, hle, ?_⟩
      intro ln v c p l ev w
      rw [List.cons_append, run_cons]
      have e1 : d ≠ 32 := by omega
      have e2 : d ≠ 9 := by omega
      have e3 : d ≠ 10 := by omega
      have e4 : d ≠ 13 := by omega
      have e5 : d ≠ 99 := by omega
      have e6 : d ≠ 45 := by omega
      simp only [step, after, goto, Option.some.injEq, e1, e2, e3, e4, e5, e6, if_false,
        reduceCtorEq, hd', if_true, Option.getD_some]
      rw [value_cons] at hle ⊢
      exact run_idx _ _ _ _ _ _ _ _ _ _ (fun d h => hd d (List.mem_cons_of_mem _ h)) hle
  · have hd0 := hd d (by simp)
    have hd' := (isDigit_iff d).mpr hd0
    unfold IsDigit at hd0
    refine ⟨-1, value (d :: ds), Or.inr rfl, by rw [hk]; omega, hle, ?_⟩
    intro ln v c p l ev w
    rw [List.cons_append, run_cons]
    simp only [step, after, goto, Option.some.injEq, reduceCtorEq, if_false, if_true,
      show (45 : Nat) ≠ 32 by decide, show (45 : Nat) ≠ 9 by decide, show (45 : Nat) ≠ 10 by decide,
      show (45 : Nat) ≠ 13 by decide, show (45 : Nat) ≠ 99 by decide]
    rw [cont_more, List.cons_append, run_cons]
    have e1 : d ≠ 10 := by omega
    simp only [step, after, goto, Option.some.injEq, reduceCtorEq, if_false, e1, hz, hd',
      not_true_eq_false, Option.getD_some]
    rw [value_cons] at hle ⊢
    exact run_idx _ _ _ _ _ _ _ _ _ _ (fun d h => hd d (List.mem_cons_of_mem _ h)) hle

/-- Completeness for bodies. -/
theorem body_complete {w : List Nat} {ls : List Int} (h : Body m w ls) :
    ∀ ln v c p l ev, Fits m v c p l ls →
      Ok m e ⟨.body, ln, v, c, p, l, ev⟩ w v (ev ++ ls.map .add) := by
  have hsep : ∀ {sg : Int} {a : Nat} {s : List Nat} {ls : List Int} {w : List Nat},
      (sg = 1 ∨ sg = -1) → Separator s →
      (∀ ln v c p l ev, Fits m v c p l ls → Ok m e ⟨.body, ln, v, c, p, l, ev⟩ w v (ev ++ ls.map .add)) →
      ∀ ln v c p l ev, Fits m v c p l ((sg * a) :: ls) →
        Ok m e ⟨.idx sg a, ln, v, c, p, l, ev⟩ (s ++ w) v (ev ++ ((sg * a) :: ls).map .add) := by
    intro sg a s ls w hsg hs ih ln v c p l ev hf
    obtain ⟨f1, f2⟩ := Fits.cons.mp hf
    rw [natAbs_sign hsg] at f1
    have f3 : a = 0 → m = .relaxed ∨ p ≠ c := by
      intro ha
      subst ha
      rcases f2.2 with h | ⟨-, h⟩
      · exact Or.inl h
      · right
        simp at h
        omega
    have hev : ev ++ ((sg * a) :: ls).map Event.add = (ev ++ [.add (sg * a)]) ++ ls.map .add := by
      simp
    have done : ∀ (s : State) (ch : Option Nat), s.maxVar = v → s.clauses = c → s.parsed = p →
        s.events = ev →
        ∃ ln', addLit m s sg a ch = .more ⟨.body, ln', v, c, if sg * a = 0 then p + 1 else p,
          sg * a, ev ++ [.add (sg * a)]⟩ := by
      intro s ch h1 h2 h3 h4
      rw [addLit_ok hsg (by rw [h1]; exact f1) (by rw [h2, h3]; exact f3)]
      refine ⟨s.lineno, ?_⟩
      rw [h1, h2, h3, h4]
    rw [hev]
    rcases hs with rfl | rfl | (rfl | rfl) | ⟨t, ht, rfl⟩
    · obtain ⟨ln', e1⟩ := done ⟨.idx sg a, ln, v, c, p, l, ev⟩ (some 32) rfl rfl rfl rfl
      obtain ⟨k, hk⟩ := ih ln' v c _ _ _ f2
      refine ⟨k, ?_⟩
      have e0 : step m e ⟨.idx sg a, ln, v, c, p, l, ev⟩ (some 32) =
          addLit m ⟨.idx sg a, ln, v, c, p, l, ev⟩ sg a (some 32) := by
        simp [step, after, isDigit]
      rw [List.cons_append, run_cons, e0, e1, cont_more]
      exact hk
    · obtain ⟨ln', e1⟩ := done ⟨.idx sg a, ln, v, c, p, l, ev⟩ (some 9) rfl rfl rfl rfl
      obtain ⟨k, hk⟩ := ih ln' v c _ _ _ f2
      refine ⟨k, ?_⟩
      have e0 : step m e ⟨.idx sg a, ln, v, c, p, l, ev⟩ (some 9) =
          addLit m ⟨.idx sg a, ln, v, c, p, l, ev⟩ sg a (some 9) := by
        simp [step, after, isDigit]
      rw [List.cons_append, run_cons, e0, e1, cont_more]
      exact hk
    · obtain ⟨ln', e1⟩ := done ⟨.idx sg a, ln + 1, v, c, p, l, ev⟩ (some 10) rfl rfl rfl rfl
      obtain ⟨k, hk⟩ := ih ln' v c _ _ _ f2
      refine ⟨k, ?_⟩
      have e0 : step m e ⟨.idx sg a, ln, v, c, p, l, ev⟩ (some 10) =
          addLit m ⟨.idx sg a, ln + 1, v, c, p, l, ev⟩ sg a (some 10) := by
        simp [step, after, isDigit]
      rw [List.cons_append, run_cons, e0, e1, cont_more]
      exact hk
    · obtain ⟨ln', e1⟩ := done ⟨.idxCr sg a, ln + 1, v, c, p, l, ev⟩ (some 10) rfl rfl rfl rfl
      obtain ⟨k, hk⟩ := ih ln' v c _ _ _ f2
      refine ⟨k, ?_⟩
      have e0 : step m e ⟨.idx sg a, ln, v, c, p, l, ev⟩ (some 13) =
          .more ⟨.idxCr sg a, ln, v, c, p, l, ev⟩ := by
        simp [step, after, isDigit, goto]
      have e2 : step m e ⟨.idxCr sg a, ln, v, c, p, l, ev⟩ (some 10) =
          addLit m ⟨.idxCr sg a, ln + 1, v, c, p, l, ev⟩ sg a (some 10) := by
        simp [step, after]
      rw [List.cons_append, run_cons, e0, cont_more, List.cons_append, run_cons, e2, e1, cont_more]
      exact hk
    · obtain ⟨ln', e1⟩ := done ⟨.idxComment sg a, ln + 1, v, c, p, l, ev⟩ (some 10) rfl rfl rfl rfl
      obtain ⟨k, hk⟩ := ih ln' v c _ _ _ f2
      refine ⟨k, ?_⟩
      have e0 : step m e ⟨.idx sg a, ln, v, c, p, l, ev⟩ (some 99) =
          .more ⟨.idxComment sg a, ln, v, c, p, l, ev⟩ := by
        simp [step, after, isDigit, goto]
      rw [List.cons_append, List.cons_append, run_cons, e0, cont_more, List.append_assoc]
      have := run_idxComment (m := m) (e := e) ln v c p l ev sg a t w ht
      rw [e1] at this
      exact this.trans hk
  have heof : ∀ {sg : Int} {a : Nat}, (sg = 1 ∨ sg = -1) →
      ∀ ln v c p l ev, Fits m v c p l [sg * a] → ∀ pc : Pc,
      ∃ ln', addLit m ⟨pc, ln, v, c, p, l, ev⟩ sg a none = .more
          ⟨.body, ln', v, c, if sg * a = 0 then p + 1 else p, sg * a, ev ++ [.add (sg * a)]⟩ ∧
        finish m ⟨.body, ln', v, c, if sg * a = 0 then p + 1 else p, sg * a, ev ++ [.add (sg * a)]⟩ =
          .done (.ok v ln' (ev ++ [.add (sg * a)])) := by
    intro sg a hsg ln v c p l ev hf k
    obtain ⟨f1, f2⟩ := Fits.cons.mp hf
    rw [natAbs_sign hsg] at f1
    refine ⟨ln, ?_, finish_ok f2⟩
    refine addLit_ok hsg f1 ?_
    intro ha
    subst ha
    rcases f2.2 with h | ⟨-, h⟩
    · exact Or.inl h
    · right
      simp at h
      show p ≠ c
      omega
  induction h with
  | nil =>
    intro ln v c p l ev hf
    refine ⟨ln, ?_⟩
    rw [run_nil, atEof, body_eof rfl, finish_ok hf]
    simp
  | @blank x w ls hx _ ih =>
    intro ln v c p l ev hf
    obtain ⟨k, hk⟩ := ih ln v c p l ev hf
    refine ⟨k, ?_⟩
    rw [run_cons]
    rcases hx with rfl | rfl <;> simp [step, after, goto, hk]
  | @lineEnd en w ls hen _ ih =>
    intro ln v c p l ev hf
    obtain ⟨k, hk⟩ := ih (ln + 1) v c p l ev hf
    refine ⟨k, ?_⟩
    rcases hen with rfl | rfl
    · rw [List.cons_append, run_cons]; simp [step, after, goto, hk]
    · rw [List.cons_append, run_cons]; simp [step, after, goto, run_cons, hk]
  | @comment cm w ls hc _ ih =>
    intro ln v c p l ev hf
    obtain ⟨k, hk⟩ := ih (ln + 1) v c p l ev hf
    refine ⟨k, ?_⟩
    obtain ⟨t, ht, rfl⟩ := hc
    have e0 : step m e ⟨.body, ln, v, c, p, l, ev⟩ (some 99) =
        .more ⟨.bodyComment, ln, v, c, p, l, ev⟩ := by
      simp [step, after, goto]
    rw [List.cons_append, List.cons_append, run_cons, e0, cont_more, List.append_assoc]
    exact (run_bodyComment (m := m) (e := e) ln v c p l ev t w ht).trans hk
  | @lastComment cm hm hc =>
    intro ln v c p l ev hf
    refine ⟨ln, ?_⟩
    obtain ⟨t, ht, rfl⟩ := hc
    rw [run_cons]
    have := run_bodyComment_eof (m := m) (e := e) ln v c p l ev t ht
    have h2 : atEof m e ⟨.bodyComment, ln, v, c, p, l, ev⟩ = some (.ok v ln ev) := by
      unfold atEof
      simp only [step, after, hm, reduceCtorEq, if_false, ne_eq, not_false_eq_true, if_true]
      rw [finish_ok hf]
    have e0 : step m e ⟨.body, ln, v, c, p, l, ev⟩ (some 99) =
        .more ⟨.bodyComment, ln, v, c, p, l, ev⟩ := by
      simp [step, after, goto]
    rw [e0, cont_more, this, h2]
    simp
  | @lit n k s w ls hn hs _ ih =>
    intro ln v c p l ev hf
    obtain ⟨sg, a, hsg, rfl, -, hr⟩ := numeral_run (m := m) (e := e) hn
    unfold Ok
    rw [List.append_assoc, hr]
    exact hsep hsg hs ih ln v c p l ev hf
  | @lastLit n k hm hn =>
    intro ln v c p l ev hf
    obtain ⟨sg, a, hsg, rfl, -, hr⟩ := numeral_run (m := m) (e := e) hn
    obtain ⟨ln', e1, e2⟩ := heof hsg ln v c p l ev hf (.idx sg a)
    refine ⟨ln', ?_⟩
    have := hr ln v c p l ev []
    rw [List.append_nil] at this
    have e0 : step m e ⟨.idx sg a, ln, v, c, p, l, ev⟩ none =
        addLit m ⟨.idx sg a, ln, v, c, p, l, ev⟩ sg a none := by
      simp [step, after, isDigit, hm]
    rw [this, run_nil, atEof, e0, e1]
    simp only
    rw [body_eof rfl, e2]
    rfl
  | @lastLitComment n k cm hm hn hc =>
    intro ln v c p l ev hf
    obtain ⟨sg, a, hsg, rfl, -, hr⟩ := numeral_run (m := m) (e := e) hn
    obtain ⟨ln', e1, e2⟩ := heof hsg ln v c p l ev hf (.idxComment sg a)
    refine ⟨ln', ?_⟩
    obtain ⟨t, ht, rfl⟩ := hc
    rw [hr, run_cons]
    have := run_idxComment_eof (m := m) (e := e) ln v c p l ev sg a t ht
    have h2 : atEof m e ⟨.idxComment sg a, ln, v, c, p, l, ev⟩ =
        some (.ok v ln' (ev ++ [.add (sg * a)])) := by
      unfold atEof
      have e0 : step m e ⟨.idxComment sg a, ln, v, c, p, l, ev⟩ none =
          addLit m ⟨.idxComment sg a, ln, v, c, p, l, ev⟩ sg a none := by
        simp [step, after, hm]
      rw [e0, e1]
      simp only
      rw [body_eof rfl, e2]
    have e0 : step m e ⟨.idx sg a, ln, v, c, p, l, ev⟩ (some 99) =
        .more ⟨.idxComment sg a, ln, v, c, p, l, ev⟩ := by
      simp [step, after, isDigit, goto]
    rw [e0, cont_more, this, h2]
    rfl

/-! ## Soundness -/

/-- The state after an integer was added. -/
def pushed (ln v c p : Nat) (ev : List Event) (k : Int) : State :=
  ⟨.body, ln, v, c, if k = 0 then p + 1 else p, k, ev ++ [.add k]⟩

theorem addLit_sound {s : State} {sg : Int} {a : Nat} {ch : Option Nat} {w : List Nat}
    {v' : Nat} {ev' : List Event} {k : Nat} (hsg : sg = 1 ∨ sg = -1)
    (h : cont m e (addLit m s sg a ch) w = some (.ok v' k ev')) :
    (m = .relaxed ∨ a ≤ s.maxVar) ∧ (a = 0 → m = .relaxed ∨ s.parsed ≠ s.clauses) ∧
    run m e (pushed s.lineno s.maxVar s.clauses s.parsed s.events (sg * a)) w =
      some (.ok v' k ev') := by
  rcases addLit_cases (m := m) s sg a ch with ⟨_, _, h'⟩ | ⟨h1, h2, -⟩
  · rw [h'] at h; cases h
  · refine ⟨h1, h2, ?_⟩
    rw [addLit_ok hsg h1 h2] at h
    exact h

theorem addLit_sound_eof {s : State} {sg : Int} {a : Nat} {v' : Nat} {ev' : List Event}
    {k : Nat} (hsg : sg = 1 ∨ sg = -1) (he : step m e s none = addLit m s sg a none)
    (h : atEof m e s = some (.ok v' k ev')) :
    (m = .relaxed ∨ a ≤ s.maxVar) ∧ (a = 0 → m = .relaxed ∨ s.parsed ≠ s.clauses) ∧
    run m e (pushed s.lineno s.maxVar s.clauses s.parsed s.events (sg * a)) [] =
      some (.ok v' k ev') := by
  unfold atEof at h
  rw [he] at h
  rcases addLit_cases (m := m) s sg a none with ⟨_, _, h'⟩ | ⟨h1, h2, -⟩
  · rw [h'] at h; cases h
  · refine ⟨h1, h2, ?_⟩
    rw [addLit_ok hsg h1 h2] at h
    simp only at h
    rw [body_eof rfl] at h
    rw [run_nil, atEof, body_eof rfl]
    unfold pushed
    generalize finish m _ = o at h ⊢
    cases o with
    | done r => exact h
    | more _ => cases h

/-- What follows a number. -/
theorem idx_sound {ln v c p : Nat} {l : Int} {ev : List Event} {sg : Int} {a : Nat}
    {r : List Nat} {v' : Nat} {ev' : List Event} (hsg : sg = 1 ∨ sg = -1)
    (hr : ∀ x ∈ r.head?, ¬ IsDigit x)
    (h : Ok m e ⟨.idx sg a, ln, v, c, p, l, ev⟩ r v' ev') :
    (m = .relaxed ∨ a ≤ v) ∧ (a = 0 → m = .relaxed ∨ p ≠ c) ∧ ∃ ln',
      (∃ s w, Separator s ∧ r = s ++ w ∧ Ok m e (pushed ln' v c p ev (sg * a)) w v' ev') ∨
      (m ≠ .pedantic ∧ (r = [] ∨ OpenComment r) ∧
        Ok m e (pushed ln' v c p ev (sg * a)) [] v' ev') := by
  obtain ⟨k, h⟩ := h
  cases r with
  | nil =>
    rw [run_nil] at h
    by_cases hm : m = .pedantic
    · exfalso
      unfold atEof at h
      simp only [step, after, isDigit, hm, reduceCtorEq, if_false, if_true, Bool.false_eq_true] at h
      by_cases ha : a = 0 <;> simp [ha, fail] at h
    · have e0 : step m e ⟨.idx sg a, ln, v, c, p, l, ev⟩ none =
          addLit m ⟨.idx sg a, ln, v, c, p, l, ev⟩ sg a none := by
        simp [step, after, isDigit, hm]
      obtain ⟨h1, h2, h3⟩ := addLit_sound_eof hsg e0 h
      exact ⟨h1, h2, ln, Or.inr ⟨hm, Or.inl rfl, k, h3⟩⟩
  | cons x w =>
    have hx : ¬ IsDigit x := hr x (by simp)
    have hx' : isDigit (some x) = false := by
      rw [← Bool.not_eq_true, isDigit_iff]; exact hx
    rw [run_cons] at h
    by_cases x32 : x = 32
    · subst x32
      have e0 : step m e ⟨.idx sg a, ln, v, c, p, l, ev⟩ (some 32) =
          addLit m ⟨.idx sg a, ln, v, c, p, l, ev⟩ sg a (some 32) := by
        simp [step, after, isDigit]
      rw [e0] at h
      obtain ⟨h1, h2, h3⟩ := addLit_sound hsg h
      exact ⟨h1, h2, ln, Or.inl ⟨[32], w, Or.inl rfl, rfl, k, h3⟩⟩
    by_cases x9 : x = 9
    · subst x9
      have e0 : step m e ⟨.idx sg a, ln, v, c, p, l, ev⟩ (some 9) =
          addLit m ⟨.idx sg a, ln, v, c, p, l, ev⟩ sg a (some 9) := by
        simp [step, after, isDigit]
      rw [e0] at h
      obtain ⟨h1, h2, h3⟩ := addLit_sound hsg h
      exact ⟨h1, h2, ln, Or.inl ⟨[9], w, Or.inr (Or.inl rfl), rfl, k, h3⟩⟩
    by_cases x10 : x = 10
    · subst x10
      have e0 : step m e ⟨.idx sg a, ln, v, c, p, l, ev⟩ (some 10) =
          addLit m ⟨.idx sg a, ln + 1, v, c, p, l, ev⟩ sg a (some 10) := by
        simp [step, after, isDigit]
      rw [e0] at h
      obtain ⟨h1, h2, h3⟩ := addLit_sound hsg h
      exact ⟨h1, h2, ln + 1, Or.inl ⟨[10], w, Or.inr (Or.inr (Or.inl (Or.inl rfl))), rfl, k, h3⟩⟩
    by_cases x13 : x = 13
    · subst x13
      have e0 : step m e ⟨.idx sg a, ln, v, c, p, l, ev⟩ (some 13) =
          .more ⟨.idxCr sg a, ln, v, c, p, l, ev⟩ := by
        simp [step, after, isDigit, goto]
      rw [e0, cont_more] at h
      cases w with
      | nil =>
        exfalso
        rw [run_nil, atEof] at h
        simp [step, after, fail] at h
      | cons y w =>
        rw [run_cons] at h
        by_cases y10 : y = 10
        · subst y10
          have e2 : step m e ⟨.idxCr sg a, ln, v, c, p, l, ev⟩ (some 10) =
              addLit m ⟨.idxCr sg a, ln + 1, v, c, p, l, ev⟩ sg a (some 10) := by
            simp [step, after]
          rw [e2] at h
          obtain ⟨h1, h2, h3⟩ := addLit_sound hsg h
          exact ⟨h1, h2, ln + 1,
            Or.inl ⟨[13, 10], w, Or.inr (Or.inr (Or.inl (Or.inr rfl))), rfl, k, h3⟩⟩
        · exfalso
          simp [step, after, fail, y10] at h
    by_cases x99 : x = 99
    · subst x99
      have e0 : step m e ⟨.idx sg a, ln, v, c, p, l, ev⟩ (some 99) =
          .more ⟨.idxComment sg a, ln, v, c, p, l, ev⟩ := by
        simp [step, after, isDigit, goto]
      rw [e0, cont_more] at h
      rcases line_split w with ht | ⟨t, r, rfl, ht⟩
      · rw [run_idxComment_eof _ _ _ _ _ _ _ _ _ ht] at h
        by_cases hm : m = .pedantic
        · exfalso
          unfold atEof at h
          simp [step, after, fail, hm] at h
        · have e0 : step m e ⟨.idxComment sg a, ln, v, c, p, l, ev⟩ none =
              addLit m ⟨.idxComment sg a, ln, v, c, p, l, ev⟩ sg a none := by
            simp [step, after, hm]
          obtain ⟨h1, h2, h3⟩ := addLit_sound_eof hsg e0 h
          exact ⟨h1, h2, ln, Or.inr ⟨hm, Or.inr ⟨w, ht, rfl⟩, k, h3⟩⟩
      · rw [run_idxComment _ _ _ _ _ _ _ _ _ _ ht] at h
        obtain ⟨h1, h2, h3⟩ := addLit_sound hsg h
        exact ⟨h1, h2, ln + 1, Or.inl ⟨99 :: t ++ [10], r,
          Or.inr (Or.inr (Or.inr ⟨t, ht, rfl⟩)), by simp, k, h3⟩⟩
    · exfalso
      simp [step, after, fail, hx', x32, x9, x10, x13, x99] at h

/-- Soundness for bodies. -/
theorem body_sound (n : Nat) : ∀ (w : List Nat), w.length ≤ n →
    ∀ ln v c p l ev v' ev', (m = .relaxed ∨ p ≤ c) →
      Ok m e ⟨.body, ln, v, c, p, l, ev⟩ w v' ev' →
      ∃ ls, Body m w ls ∧ Fits m v c p l ls ∧ v' = v ∧ ev' = ev ++ ls.map .add := by
  induction n with
  | zero =>
    intro w hw ln v c p l ev v' ev' hp h
    have : w = [] := List.length_eq_zero_iff.mp (by omega)
    subst this
    obtain ⟨k, h⟩ := h
    rw [run_nil, atEof, body_eof rfl] at h
    obtain ⟨r, hr⟩ := finish_done (m := m) ⟨.body, ln, v, c, p, l, ev⟩
    rw [hr] at h
    simp only [Option.some.injEq] at h
    have hf := (finish_iff (m := m) (s := ⟨.body, ln, v, c, p, l, ev⟩) hp).mp
      ⟨r, hr, v', k, ev', h⟩
    rw [finish_ok hf] at hr
    simp only [Outcome.done.injEq] at hr
    rw [← hr] at h
    cases h
    exact ⟨[], .nil, hf, rfl, by simp⟩
  | succ n ih =>
    intro w hw ln v c p l ev v' ev' hp h
    cases w with
    | nil => exact ih [] (by simp) ln v c p l ev v' ev' hp h
    | cons x w =>
      simp only [List.length_cons] at hw
      have number : ∀ (sg : Int) (d : Nat) (w : List Nat), (sg = 1 ∨ sg = -1) → w.length ≤ n →
          IsDigit d → Ok m e ⟨.idx sg (d - 48), ln, v, c, p, l, ev⟩ w v' ev' →
          ∃ ds r, w = ds ++ r ∧ (∀ x ∈ d :: ds, IsDigit x) ∧ value (d :: ds) ≤ maxVar ∧
            ((∃ s w' ls, Separator s ∧ r = s ++ w' ∧ Body m w' ls ∧
                Fits m v c p l (sg * value (d :: ds) :: ls) ∧ v' = v ∧
                ev' = ev ++ (sg * value (d :: ds) :: ls).map .add) ∨
              (m ≠ .pedantic ∧ (r = [] ∨ OpenComment r) ∧
                Fits m v c p l [sg * value (d :: ds)] ∧ v' = v ∧
                ev' = ev ++ [sg * value (d :: ds)].map .add)) := by
        intro sg d w hsg hw hd h
        obtain ⟨ds, r, rfl, hds, hr⟩ := digits_split w
        have hd1 : d - 48 ≤ maxVar := by unfold IsDigit at hd; unfold maxVar; omega
        refine ⟨ds, r, rfl, ?_, ?_⟩
        · intro x hx
          rcases List.mem_cons.mp hx with h | h
          · rw [h]; exact hd
          · exact hds x h
        rw [value_cons]
        by_cases hv : valueFrom (d - 48) ds ≤ maxVar
        · refine ⟨hv, ?_⟩
          obtain ⟨k, h⟩ := h
          rw [run_idx _ _ _ _ _ _ _ _ _ _ hds hv] at h
          obtain ⟨h1, h2, ln', h3⟩ := idx_sound hsg hr ⟨k, h⟩
          generalize valueFrom (d - 48) ds = a at h1 h2 h3 ⊢
          have ha0 : sg * (a : Int) = 0 ↔ a = 0 := by rcases hsg with rfl | rfl <;> omega
          have hp' : m = .relaxed ∨ (if sg * (a : Int) = 0 then p + 1 else p) ≤ c := by
            rcases hp with h | h
            · exact Or.inl h
            · by_cases ha : a = 0
              · rcases h2 ha with h' | h'
                · exact Or.inl h'
                · right; rw [if_pos (ha0.mpr ha)]; omega
              · right; rw [if_neg (mt ha0.mp ha)]; exact h
          have hfit : ∀ ls, Fits m v c (if sg * (a : Int) = 0 then p + 1 else p) (sg * a) ls →
              Fits m v c p l (sg * a :: ls) := by
            intro ls hf
            refine Fits.cons.mpr ⟨?_, hf⟩
            rw [natAbs_sign hsg]; exact h1
          rcases h3 with ⟨s, w', hs, rfl, h3⟩ | ⟨hm, hr', h3⟩
          · left
            have hlen : w'.length ≤ n := by
              simp only [List.length_append] at hw; omega
            obtain ⟨ls, b1, b2, b3, b4⟩ := ih w' hlen _ _ _ _ _ _ _ _ hp' h3
            refine ⟨s, w', ls, hs, rfl, b1, hfit ls b2, b3, ?_⟩
            rw [b4]; simp
          · right
            obtain ⟨ls, b1, b2, b3, b4⟩ := ih [] (by simp) _ _ _ _ _ _ _ _ hp' h3
            have hnil : ls = [] := by
              generalize hw0 : ([] : List Nat) = w0 at b1
              cases b1 with
              | nil => rfl
              | blank => cases hw0
              | lineEnd he => rcases he with rfl | rfl <;> cases hw0
              | comment hc => obtain ⟨t, -, rfl⟩ := hc; cases hw0
              | lastComment _ hc => rfl
              | lit hn hs =>
                exfalso
                rcases hs with rfl | rfl | (rfl | rfl) | ⟨t, -, rfl⟩ <;> simp at hw0
              | lastLit _ hn =>
                exfalso
                rcases hn with ⟨⟨hne, -⟩, -⟩ | ⟨d, ds, rfl, -⟩
                · exact hne hw0.symm
                · cases hw0
              | lastLitComment _ _ hc =>
                exfalso
                obtain ⟨t, -, rfl⟩ := hc
                simp at hw0
            subst hnil
            refine ⟨hm, hr', hfit [] b2, b3, ?_⟩
            rw [b4]; simp
        · exfalso
          obtain ⟨k, h⟩ := h
          rw [run_idx_overflow _ _ _ _ _ _ _ _ _ _ hds hd1 (by omega)] at h
          cases h
      obtain ⟨k, h⟩ := h
      rw [run_cons] at h
      by_cases x32 : x = 32
      · subst x32
        obtain ⟨ls, b1, b2, b3, b4⟩ := ih w (by omega) ln v c p l ev v' ev' hp
          ⟨k, by simpa [step, after, goto] using h⟩
        exact ⟨ls, .blank (Or.inl rfl) b1, b2, b3, b4⟩
      by_cases x9 : x = 9
      · subst x9
        obtain ⟨ls, b1, b2, b3, b4⟩ := ih w (by omega) ln v c p l ev v' ev' hp
          ⟨k, by simpa [step, after, goto] using h⟩
        exact ⟨ls, .blank (Or.inr rfl) b1, b2, b3, b4⟩
      by_cases x10 : x = 10
      · subst x10
        obtain ⟨ls, b1, b2, b3, b4⟩ := ih w (by omega) (ln + 1) v c p l ev v' ev' hp
          ⟨k, by simpa [step, after, goto] using h⟩
        exact ⟨ls, .lineEnd (e := [10]) (Or.inl rfl) b1, b2, b3, b4⟩
      by_cases x13 : x = 13
      · subst x13
        have e0 : step m e ⟨.body, ln, v, c, p, l, ev⟩ (some 13) =
            .more ⟨.bodyCr, ln, v, c, p, l, ev⟩ := by simp [step, after, goto]
        rw [e0, cont_more] at h
        cases w with
        | nil =>
          exfalso
          rw [run_nil, atEof] at h
          simp [step, after, fail] at h
        | cons y w =>
          rw [run_cons] at h
          by_cases y10 : y = 10
          · subst y10
            simp only [List.length_cons] at hw
            obtain ⟨ls, b1, b2, b3, b4⟩ := ih w (by omega) (ln + 1) v c p l ev v' ev' hp
              ⟨k, by simpa [step, after, goto] using h⟩
            exact ⟨ls, .lineEnd (e := [13, 10]) (Or.inr rfl) b1, b2, b3, b4⟩
          · exfalso
            simp [step, after, fail, y10] at h
      by_cases x99 : x = 99
      · subst x99
        have e0 : step m e ⟨.body, ln, v, c, p, l, ev⟩ (some 99) =
            .more ⟨.bodyComment, ln, v, c, p, l, ev⟩ := by simp [step, after, goto]
        rw [e0, cont_more] at h
        rcases line_split w with ht | ⟨t, r, rfl, ht⟩
        · rw [run_bodyComment_eof _ _ _ _ _ _ _ ht] at h
          by_cases hm : m = .pedantic
          · exfalso
            unfold atEof at h
            simp [step, after, fail, hm] at h
          · have h' : Ok m e ⟨.body, ln, v, c, p, l, ev⟩ [] v' ev' := by
              refine ⟨k, ?_⟩
              rw [run_nil, atEof, body_eof rfl]
              unfold atEof at h
              have e1 : step m e ⟨.bodyComment, ln, v, c, p, l, ev⟩ none =
                  finish m ⟨.bodyComment, ln, v, c, p, l, ev⟩ := by
                simp [step, after, hm]
              rw [e1] at h
              have e2 : finish m ⟨.bodyComment, ln, v, c, p, l, ev⟩ =
                  finish m ⟨.body, ln, v, c, p, l, ev⟩ := rfl
              rw [e2] at h
              obtain ⟨r, hr⟩ := finish_done (m := m) ⟨.body, ln, v, c, p, l, ev⟩
              rw [hr] at h ⊢
              exact h
            obtain ⟨ls, b1, b2, b3, b4⟩ := ih [] (by simp) ln v c p l ev v' ev' hp h'
            have hnil : ls = [] := by
              generalize hw0 : ([] : List Nat) = w0 at b1
              cases b1 with
              | nil => rfl
              | blank => cases hw0
              | lineEnd he => rcases he with rfl | rfl <;> cases hw0
              | comment hc => obtain ⟨t, -, rfl⟩ := hc; cases hw0
              | lastComment _ hc => rfl
              | lit hn hs =>
                exfalso
                rcases hs with rfl | rfl | (rfl | rfl) | ⟨t, -, rfl⟩ <;> simp at hw0
              | lastLit _ hn =>
                exfalso
                rcases hn with ⟨⟨hne, -⟩, -⟩ | ⟨d, ds, rfl, -⟩
                · exact hne hw0.symm
                · cases hw0
              | lastLitComment _ _ hc =>
                exfalso
                obtain ⟨t, -, rfl⟩ := hc
                simp at hw0
            subst hnil
            exact ⟨[], .lastComment hm ⟨w, ht, rfl⟩, b2, b3, b4⟩
        · rw [run_bodyComment _ _ _ _ _ _ _ _ ht] at h
          have hlen : r.length ≤ n := by
            simp only [List.length_append, List.length_cons] at hw; omega
          obtain ⟨ls, b1, b2, b3, b4⟩ := ih r hlen _ v c p l ev v' ev' hp ⟨k, h⟩
          refine ⟨ls, ?_, b2, b3, b4⟩
          have := Body.comment (m := m) (c := 99 :: t ++ [10]) ⟨t, ht, rfl⟩ b1
          simpa using this
      by_cases x45 : x = 45
      · subst x45
        have e0 : step m e ⟨.body, ln, v, c, p, l, ev⟩ (some 45) =
            .more ⟨.minus, ln, v, c, p, l, ev⟩ := by simp [step, after, goto]
        rw [e0, cont_more] at h
        cases w with
        | nil =>
          exfalso
          rw [run_nil, atEof] at h
          simp [step, after, fail] at h
        | cons d w =>
          simp only [List.length_cons] at hw
          rw [run_cons] at h
          by_cases hd : IsDigit d ∧ d ≠ 48
          · have hd' := (isDigit_iff d).mpr hd.1
            have hd10 : d ≠ 10 := by have := hd.1; unfold IsDigit at this; omega
            have e1 : step m e ⟨.minus, ln, v, c, p, l, ev⟩ (some d) =
                .more ⟨.idx (-1) (d - 48), ln, v, c, p, l, ev⟩ := by
              simp [step, after, goto, hd', hd10, hd.2]
            rw [e1, cont_more] at h
            obtain ⟨ds, r, rfl, hds, hv, hcase⟩ := number (-1) d w (Or.inr rfl) (by omega) hd.1 ⟨k, h⟩
            have hnum : Numeral (45 :: d :: ds) ((-1) * (value (d :: ds) : Int)) :=
              Or.inr ⟨d, ds, rfl, ⟨by simp, hds⟩, hd.2, by omega, hv⟩
            rcases hcase with ⟨s, w', ls, hs, rfl, b1, b2, b3, b4⟩ | ⟨hm, hr, b2, b3, b4⟩
            · refine ⟨_, ?_, b2, b3, b4⟩
              have := Body.lit hnum hs b1
              simpa using this
            · refine ⟨_, ?_, b2, b3, b4⟩
              rcases hr with rfl | hr
              · have := Body.lastLit (m := m) hm hnum
                simpa using this
              · have := Body.lastLitComment (m := m) hm hnum hr
                simpa using this
          · exfalso
            by_cases hd1 : isDigit (some d) = true
            · have hd2 : d = 48 := by
                by_cases hd2 : d = 48
                · exact hd2
                · exact absurd ⟨(isDigit_iff d).mp hd1, hd2⟩ hd
              subst hd2
              simp [step, after, fail, isDigit] at h
            · by_cases hd10 : d = 10
              · simp [step, after, nonl, hd10] at h
              · simp [step, after, fail, hd1, hd10] at h
      by_cases hd : IsDigit x
      · have hd' := (isDigit_iff x).mpr hd
        have e1 : step m e ⟨.body, ln, v, c, p, l, ev⟩ (some x) =
            .more ⟨.idx 1 (x - 48), ln, v, c, p, l, ev⟩ := by
          simp [step, after, goto, hd', x32, x9, x10, x13, x99, x45]
        rw [e1, cont_more] at h
        obtain ⟨ds, r, rfl, hds, hv, hcase⟩ := number 1 x w (Or.inl rfl) (by omega) hd ⟨k, h⟩
        have hnum : Numeral (x :: ds) (1 * (value (x :: ds) : Int)) :=
          Or.inl ⟨⟨by simp, hds⟩, by omega, hv⟩
        rcases hcase with ⟨s, w', ls, hs, rfl, b1, b2, b3, b4⟩ | ⟨hm, hr, b2, b3, b4⟩
        · refine ⟨_, ?_, b2, b3, b4⟩
          have := Body.lit hnum hs b1
          simpa using this
        · refine ⟨_, ?_, b2, b3, b4⟩
          rcases hr with rfl | hr
          · have := Body.lastLit (m := m) hm hnum
            simpa using this
          · have := Body.lastLitComment (m := m) hm hnum hr
            simpa using this
      · exfalso
        have hd' : isDigit (some x) = false := by
          rw [← Bool.not_eq_true, isDigit_iff]; exact hd
        simp [step, after, fail, hd', x32, x9, x10, x13, x99, x45] at h

end Verif.Model.Parse
