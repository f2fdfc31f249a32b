import Verif.Proofs.ParseBody

/-!
# The parser accepts exactly the legal files
-/

namespace Verif.Model.Parse

open Verif.Spec.Dimacs

variable {m : Mode} {e : Bool}

/-- The state in which the code after `NEXT ()` runs. -/
def bump (s : State) (ch : Option Nat) : State :=
  { s with lineno := if ch = some 10 then s.lineno + 1 else s.lineno }

theorem step_eq (s : State) (ch : Option Nat) : step m e s ch = after m e (bump s ch) ch := rfl

theorem isSpace_iff (x : Nat) : isSpace (some x) = true ↔ x = 32 ∨ x = 9 := by
  unfold isSpace
  simp

/-! ## Loops over spaces -/

/-- The location `k` skips spaces and then executes `K`. -/
def SkipsSpaces (m : Mode) (e : Bool) (k : Pc) (K : State → Option Nat → Outcome) : Prop :=
  ∀ (s : State) (ch : Option Nat), s.pc = k →
    after m e s ch = if isSpace ch then goto s k else K s ch

theorem spaces_run {k : Pc} {K : State → Option Nat → Outcome} (hk : SkipsSpaces m e k K)
    (ln v c p : Nat) (l : Int) (ev : List Event) (sp w : List Nat)
    (hsp : ∀ x ∈ sp, x = 32 ∨ x = 9) :
    run m e ⟨k, ln, v, c, p, l, ev⟩ (sp ++ w) = run m e ⟨k, ln, v, c, p, l, ev⟩ w := by
  induction sp with
  | nil => rfl
  | cons x sp ih =>
    have hx := (isSpace_iff x).mpr (hsp x (by simp))
    have hx10 : x ≠ 10 := by have := hsp x (by simp); omega
    rw [List.cons_append, run_cons, step_eq, hk _ _ rfl, if_pos hx]
    simp only [goto, bump, cont_more, Option.some.injEq, hx10, if_false]
    exact ih (fun y hy => hsp y (List.mem_cons_of_mem _ hy))

theorem spaces_sound {k : Pc} {K : State → Option Nat → Outcome} (hk : SkipsSpaces m e k K)
    (hK : ∀ s, ∃ r, K s none = .done r ∧ ∀ v ln ev, r ≠ .ok v ln ev)
    {ln v c p : Nat} {l : Int} {ev : List Event} {w : List Nat} {v' : Nat} {ev' : List Event}
    (h : Ok m e ⟨k, ln, v, c, p, l, ev⟩ w v' ev') :
    ∃ sp x w', w = sp ++ x :: w' ∧ (∀ x ∈ sp, x = 32 ∨ x = 9) ∧ isSpace (some x) = false ∧
      ∃ n, cont m e (K (bump ⟨k, ln, v, c, p, l, ev⟩ (some x)) (some x)) w' =
        some (.ok v' n ev') := by
  induction w with
  | nil =>
    exfalso
    obtain ⟨n, h⟩ := h
    rw [run_nil, atEof, step_eq, hk _ _ rfl] at h
    have : isSpace none = false := rfl
    rw [this] at h
    simp only [Bool.false_eq_true, if_false] at h
    obtain ⟨r, hr, hr'⟩ := hK (bump ⟨k, ln, v, c, p, l, ev⟩ none)
    rw [hr] at h
    simp only [Option.some.injEq] at h
    exact hr' _ _ _ h
  | cons x w ih =>
    obtain ⟨n, h⟩ := h
    rw [run_cons, step_eq, hk _ _ rfl] at h
    by_cases hx : isSpace (some x) = true
    · rw [if_pos hx] at h
      have hx' := (isSpace_iff x).mp hx
      have hx10 : x ≠ 10 := by omega
      simp only [goto, bump, cont_more, Option.some.injEq, hx10, if_false] at h
      obtain ⟨sp, y, w', rfl, h1, h2, h3⟩ := ih ⟨n, h⟩
      refine ⟨x :: sp, y, w', rfl, ?_, h2, h3⟩
      intro z hz
      rcases List.mem_cons.mp hz with h | h
      · rw [h]; exact hx'
      · exact h1 z h
    · rw [if_neg hx] at h
      exact ⟨[], x, w, rfl, by simp, by simpa using hx, n, h⟩

/-! ## Numbers in the header -/

/-- The location `k n` reads digits with this maximum. -/
def ReadsDigits (m : Mode) (e : Bool) (k : Nat → Pc) (max : Nat) (msg : String) : Prop :=
  ∀ (s : State) (n x : Nat), s.pc = k n → IsDigit x →
    after m e s (some x) =
      if max / 10 < n then fail s msg
      else if max - (x - 48) < n * 10 then fail s msg
      else goto s (k (n * 10 + (x - 48)))

theorem digits_run {k : Nat → Pc} {max : Nat} {msg : String} (hk : ReadsDigits m e k max msg)
    (hmax : 9 ≤ max) (ln v c p : Nat) (l : Int) (ev : List Event) (n : Nat)
    (ds w : List Nat) (hds : ∀ d ∈ ds, IsDigit d) (hv : valueFrom n ds ≤ max) :
    run m e ⟨k n, ln, v, c, p, l, ev⟩ (ds ++ w) =
      run m e ⟨k (valueFrom n ds), ln, v, c, p, l, ev⟩ w := by
  induction ds generalizing n with
  | nil => rfl
  | cons d ds ih =>
    have hd : IsDigit d := hds d (by simp)
    have h1 : 10 * n + (d - 48) ≤ max := Nat.le_trans (le_valueFrom _ ds) hv
    have hn10 : d ≠ 10 := by unfold IsDigit at hd; omega
    have hov := mt (overflow_iff (max := max) (n := n) (digit := d - 48)
      (by unfold IsDigit at hd; omega)).mp (by omega)
    rw [not_or] at hov
    rw [List.cons_append, run_cons, step_eq, hk _ n d rfl hd, if_neg hov.1, if_neg hov.2]
    simp only [goto, bump, cont_more, Option.some.injEq, hn10, if_false]
    rw [show n * 10 + (d - 48) = 10 * n + (d - 48) by omega]
    exact ih _ (fun d h => hds d (List.mem_cons_of_mem _ h)) hv

theorem digits_sound {k : Nat → Pc} {max : Nat} {msg : String} (hk : ReadsDigits m e k max msg)
    (hmax : 9 ≤ max) {ln v c p : Nat} {l : Int} {ev : List Event} {n : Nat} {w : List Nat}
    {v' : Nat} {ev' : List Event} (hn : n ≤ max)
    (h : Ok m e ⟨k n, ln, v, c, p, l, ev⟩ w v' ev') :
    ∃ ds r, w = ds ++ r ∧ (∀ d ∈ ds, IsDigit d) ∧ (∀ x ∈ r.head?, ¬ IsDigit x) ∧
      valueFrom n ds ≤ max ∧ Ok m e ⟨k (valueFrom n ds), ln, v, c, p, l, ev⟩ r v' ev' := by
  obtain ⟨ds, r, rfl, hds, hr⟩ := digits_split w
  refine ⟨ds, r, rfl, hds, hr, ?_⟩
  induction ds generalizing n with
  | nil => exact ⟨hn, h⟩
  | cons d ds ih =>
    have hd : IsDigit d := hds d (by simp)
    have hn10 : d ≠ 10 := by unfold IsDigit at hd; omega
    have hle : d - 48 ≤ max := by unfold IsDigit at hd; omega
    obtain ⟨j, h⟩ := h
    rw [List.cons_append, run_cons, step_eq, hk _ n d rfl hd] at h
    by_cases h1 : max / 10 < n
    · rw [if_pos h1] at h; cases h
    rw [if_neg h1] at h
    by_cases h2 : max - (d - 48) < n * 10
    · rw [if_pos h2] at h; cases h
    rw [if_neg h2] at h
    have hov := mt (overflow_iff (max := max) (n := n) hle).mpr (by rintro (h | h); exact h1 h; exact h2 h)
    simp only [goto, bump, cont_more, Option.some.injEq, hn10, if_false] at h
    rw [show n * 10 + (d - 48) = 10 * n + (d - 48) by omega] at h
    have hle' : 10 * n + (d - 48) ≤ max := by omega
    exact ih hle' ⟨j, h⟩ (fun d h => hds d (List.mem_cons_of_mem _ h))

/-! ## The locations of the header -/

theorem skips_p : SkipsSpaces m e .pSpaces expectC := by
  rintro ⟨k, ln, v, c, p, l, ev⟩ ch rfl; rfl

theorem skips_cnf : SkipsSpaces m e .cnfSpaces firstVariable := by
  rintro ⟨k, ln, v, c, p, l, ev⟩ ch rfl; rfl

theorem skips_var (n : Nat) : SkipsSpaces m e (.varSpaces n) (fun s => firstClause s n) := by
  rintro ⟨k, ln, v, c, p, l, ev⟩ ch rfl; rfl

theorem skips_clause (n q : Nat) :
    SkipsSpaces m e (.clauseSpaces n q) (fun s => afterClauses s n q) := by
  rintro ⟨k, ln, v, c, p, l, ev⟩ ch rfl; rfl

theorem reads_variables : ReadsDigits m e .variables maxVar "maximum variable too large" := by
  rintro ⟨k, ln, v, c, p, l, ev⟩ n x rfl hx
  have := (isDigit_iff x).mpr hx
  simp [after, this]

theorem reads_clauses (n : Nat) :
    ReadsDigits m e (.clauses n) (2 ^ 64 - 1) "number of clauses too large" := by
  rintro ⟨k, ln, v, c, p, l, ev⟩ q x rfl hx
  have := (isDigit_iff x).mpr hx
  simp [after, this]

/-! ### The end of the header -/

/-- From the first character after the number of clauses. -/
theorem afterClauses_run (s : State) (n q : Nat) {en w : List Nat} (hen : LineEnd en) :
    ∃ x w', en ++ w = x :: w' ∧ ¬ IsDigit x ∧ isSpace (some x) = false ∧ ∃ ln', ∀ s' : State,
      s'.lineno = (bump s (some x)).lineno → s'.events = s.events →
      cont m e (afterClauses s' n q (some x)) w' =
        run m e ⟨.body, ln', n, q, 0, 0, s.events ++ [.reserve n]⟩ w := by
  rcases hen with rfl | rfl
  · refine ⟨10, w, rfl, by unfold IsDigit; omega, rfl, s.lineno + 1, ?_⟩
    intro s' h1 h2
    simp only [bump, if_true] at h1
    simp [afterClauses, endHeader, h1, h2]
  · refine ⟨13, 10 :: w, rfl, by unfold IsDigit; omega, rfl, s.lineno + 1, ?_⟩
    intro s' h1 h2
    simp [bump] at h1
    simp [afterClauses, goto, run_cons, step, after, endHeader, h1, h2]

theorem afterClauses_sound {s : State} {n q x : Nat} {w : List Nat} {v' j : Nat}
    {ev' : List Event}
    (h : cont m e (afterClauses s n q (some x)) w = some (.ok v' j ev')) :
    ∃ en w', x :: w = en ++ w' ∧ LineEnd en ∧ ∃ ln',
      Ok m e ⟨.body, ln', n, q, 0, 0, s.events ++ [.reserve n]⟩ w' v' ev' := by
  unfold afterClauses at h
  by_cases hx : x = 13
  · subst hx
    simp only [if_true, goto, cont_more] at h
    cases w with
    | nil =>
      exfalso
      rw [run_nil, atEof] at h
      simp [step, after, fail] at h
    | cons y w =>
      rw [run_cons] at h
      by_cases hy : y = 10
      · subst hy
        refine ⟨[13, 10], w, rfl, Or.inr rfl, s.lineno + 1, j, ?_⟩
        simpa [step, after, endHeader] using h
      · exfalso
        simp [step, after, fail, hy] at h
  · simp only [Option.some.injEq, hx, if_false] at h
    unfold endHeader at h
    by_cases hx : x = 10
    · subst hx
      refine ⟨[10], w, rfl, Or.inl rfl, s.lineno, j, ?_⟩
      simpa using h
    · exfalso
      simp [hx, fail] at h

/-- From the location reading the number of clauses. -/
theorem clauses_run (ln v c p : Nat) (l : Int) (ev : List Event) (n q : Nat)
    {s₄ en w : List Nat} (hs : Space m s₄) (hen : LineEnd en) :
    ∃ ln', run m e ⟨.clauses n q, ln, v, c, p, l, ev⟩ (s₄ ++ en ++ w) =
      run m e ⟨.body, ln', n, q, 0, 0, ev ++ [.reserve n]⟩ w := by
  rw [List.append_assoc]
  obtain ⟨x, w', h1, h2, h3, ln', h4⟩ :=
    afterClauses_run (m := m) (e := e) ⟨.clauses n q, ln, v, c, p, l, ev⟩ n q (w := w) hen
  have h2' : isDigit (some x) = false := by
    rw [← Bool.not_eq_true, isDigit_iff]; exact h2
  refine ⟨ln', ?_⟩
  rw [h1]
  have hbase : run m e ⟨.clauses n q, ln, v, c, p, l, ev⟩ (x :: w') =
      run m e ⟨.body, ln', n, q, 0, 0, ev ++ [.reserve n]⟩ w := by
    rw [run_cons, step_eq]
    simp only [after, bump, h2', h3, Bool.false_eq_true, and_false, if_false, reduceCtorEq]
    exact h4 _ rfl rfl
  rcases hs with rfl | ⟨hm, hs⟩
  · exact hbase
  · cases s₄ with
    | nil => exact hbase
    | cons y s₄ =>
      have hy := hs y (by simp)
      have hy1 := (isSpace_iff y).mpr hy
      have hy2 : isDigit (some y) = false := by
        rw [← Bool.not_eq_true, isDigit_iff]; unfold IsDigit; omega
      have hy3 : y ≠ 10 := by omega
      rw [List.cons_append, run_cons, step_eq]
      simp only [after, bump, hy2, hy1, hm, Bool.false_eq_true, and_self, if_false, reduceCtorEq,
        Option.some.injEq, hy3, ne_eq, not_false_eq_true, if_true, goto, cont_more]
      rw [spaces_run (skips_clause n q) _ _ _ _ _ _ _ _
        (fun z hz => hs z (List.mem_cons_of_mem _ hz)), run_cons, step_eq,
        skips_clause n q _ _ rfl, h3]
      simp only [Bool.false_eq_true, if_false]
      exact h4 _ rfl rfl

theorem clauses_sound {ln v c p : Nat} {l : Int} {ev : List Event} {n q : Nat}
    {w : List Nat} {v' : Nat} {ev' : List Event} (hw : ∀ x ∈ w.head?, ¬ IsDigit x)
    (h : Ok m e ⟨.clauses n q, ln, v, c, p, l, ev⟩ w v' ev') :
    ∃ s₄ en w', w = s₄ ++ en ++ w' ∧ Space m s₄ ∧ LineEnd en ∧ ∃ ln',
      Ok m e ⟨.body, ln', n, q, 0, 0, ev ++ [.reserve n]⟩ w' v' ev' := by
  obtain ⟨j, h⟩ := h
  cases w with
  | nil =>
    exfalso
    rw [run_nil, atEof] at h
    simp [step, after, fail, isDigit] at h
  | cons x w =>
    have hx : isDigit (some x) = false := by
      rw [← Bool.not_eq_true, isDigit_iff]; exact hw x (by simp)
    rw [run_cons, step_eq] at h
    simp only [after, bump, hx, Bool.false_eq_true, if_false, reduceCtorEq] at h
    by_cases hs : m ≠ .pedantic ∧ isSpace (some x) = true
    · rw [if_pos hs] at h
      simp only [goto, cont_more] at h
      have hK : ∀ s, ∃ r, afterClauses s n q none = .done r ∧ ∀ v ln ev, r ≠ .ok v ln ev := by
        intro s
        exact ⟨_, rfl, by intros; simp⟩
      obtain ⟨sp, y, w', rfl, h1, h2, i, h3⟩ := spaces_sound (skips_clause n q) hK ⟨j, h⟩
      obtain ⟨en, w'', e1, e2, ln', e3⟩ := afterClauses_sound h3
      refine ⟨x :: sp, en, w'', ?_, Or.inr ⟨hs.1, ?_⟩, e2, ln', e3⟩
      · rw [e1]; simp
      · intro z hz
        rcases List.mem_cons.mp hz with h | h
        · rw [h]; exact (isSpace_iff x).mp hs.2
        · exact h1 z h
    · rw [if_neg hs] at h
      obtain ⟨en, w'', e1, e2, ln', e3⟩ := afterClauses_sound h
      exact ⟨[], en, w'', by rw [e1]; simp, Or.inl rfl, e2, ln', e3⟩

/-! ### The number of clauses -/

/-- Locations `k₀` (first character) and `k` (further characters) skipping spaces unless
in pedantic mode. -/
theorem space_run {k₀ k : Pc} {K : State → Option Nat → Outcome} (hk : SkipsSpaces m e k K)
    (hk₀ : ∀ (s : State) (ch : Option Nat), s.pc = k₀ →
      after m e s ch = if m ≠ .pedantic ∧ isSpace ch then goto s k else K s ch)
    (hK : ∀ (s : State) (k : Pc) (ch : Option Nat), K { s with pc := k } ch = K s ch)
    (ln v c p : Nat) (l : Int) (ev : List Event) {sp : List Nat} (hs : Space m sp) {x : Nat}
    (hx : isSpace (some x) = false) (w : List Nat) :
    run m e ⟨k₀, ln, v, c, p, l, ev⟩ (sp ++ x :: w) =
      cont m e (K (bump ⟨k₀, ln, v, c, p, l, ev⟩ (some x)) (some x)) w := by
  have hbase : run m e ⟨k₀, ln, v, c, p, l, ev⟩ (x :: w) =
      cont m e (K (bump ⟨k₀, ln, v, c, p, l, ev⟩ (some x)) (some x)) w := by
    rw [run_cons, step_eq, hk₀ _ _ rfl, if_neg (by simp [hx])]
  rcases hs with rfl | ⟨hm, hs⟩
  · exact hbase
  · cases sp with
    | nil => exact hbase
    | cons y sp =>
      have hy := hs y (by simp)
      have hy1 := (isSpace_iff y).mpr hy
      have hy3 : y ≠ 10 := by omega
      rw [List.cons_append, run_cons, step_eq, hk₀ _ _ rfl, if_pos ⟨hm, hy1⟩]
      simp only [bump, Option.some.injEq, hy3, if_false, goto, cont_more]
      rw [spaces_run hk _ _ _ _ _ _ _ _ (fun z hz => hs z (List.mem_cons_of_mem _ hz)), run_cons,
        step_eq, hk _ _ rfl, hx]
      simp only [Bool.false_eq_true, if_false]
      have := hK (bump ⟨k₀, ln, v, c, p, l, ev⟩ (some x)) k (some x)
      simp only [bump, Option.some.injEq] at this ⊢
      rw [this]

theorem space_sound {k₀ k : Pc} {K : State → Option Nat → Outcome} (hk : SkipsSpaces m e k K)
    (hk₀ : ∀ (s : State) (ch : Option Nat), s.pc = k₀ →
      after m e s ch = if m ≠ .pedantic ∧ isSpace ch then goto s k else K s ch)
    (hK : ∀ s, ∃ r, K s none = .done r ∧ ∀ v ln ev, r ≠ .ok v ln ev)
    {ln v c p : Nat} {l : Int} {ev : List Event} {w : List Nat} {v' : Nat} {ev' : List Event}
    (h : Ok m e ⟨k₀, ln, v, c, p, l, ev⟩ w v' ev') :
    ∃ sp x w', w = sp ++ x :: w' ∧ Space m sp ∧ ∃ s' : State, s'.events = ev ∧
      ∃ n, cont m e (K s' (some x)) w' = some (.ok v' n ev') := by
  obtain ⟨j, h⟩ := h
  cases w with
  | nil =>
    exfalso
    rw [run_nil, atEof, step_eq, hk₀ _ _ rfl] at h
    have : isSpace none = false := rfl
    rw [this] at h
    simp only [Bool.false_eq_true, and_false, if_false] at h
    obtain ⟨r, hr, hr'⟩ := hK (bump ⟨k₀, ln, v, c, p, l, ev⟩ none)
    rw [hr] at h
    simp only [Option.some.injEq] at h
    exact hr' _ _ _ h
  | cons x w =>
    rw [run_cons, step_eq, hk₀ _ _ rfl] at h
    by_cases hs : m ≠ .pedantic ∧ isSpace (some x) = true
    · rw [if_pos hs] at h
      simp only [goto, cont_more, bump] at h
      obtain ⟨sp, y, w', rfl, h1, h2, i, h3⟩ := spaces_sound hk hK ⟨j, h⟩
      refine ⟨x :: sp, y, w', rfl, Or.inr ⟨hs.1, ?_⟩, _, rfl, i, h3⟩
      intro z hz
      rcases List.mem_cons.mp hz with h | h
      · rw [h]; exact (isSpace_iff x).mp hs.2
      · exact h1 z h
    · rw [if_neg hs] at h
      exact ⟨[], x, w, rfl, Or.inl rfl, _, rfl, j, h⟩

theorem digit_not_space {x : Nat} (h : IsDigit x) : isSpace (some x) = false := by
  rw [← Bool.not_eq_true, isSpace_iff]; unfold IsDigit at h; omega

theorem not_digit_head {x : Nat} {w : List Nat} (h : ¬ IsDigit x) : ∀ y ∈ (x :: w).head?, ¬ IsDigit y := by
  intro y hy
  simp only [List.head?_cons, Option.mem_def, Option.some.injEq] at hy
  rw [← hy]; exact h

theorem varSpace_run (ln v c p : Nat) (l : Int) (ev : List Event) (n : Nat)
    {s₃ d₂ s₄ en w : List Nat} (hs₃ : Space m s₃) (hd : Digits d₂) (hv : value d₂ < 2 ^ 64)
    (hs₄ : Space m s₄) (hen : LineEnd en) :
    ∃ ln', run m e ⟨.varSpace n, ln, v, c, p, l, ev⟩ (s₃ ++ d₂ ++ s₄ ++ en ++ w) =
      run m e ⟨.body, ln', n, value d₂, 0, 0, ev ++ [.reserve n]⟩ w := by
  obtain ⟨hne, hds⟩ := hd
  cases d₂ with
  | nil => exact absurd rfl hne
  | cons d ds =>
    have hd := hds d (by simp)
    have hd' := (isDigit_iff d).mpr hd
    have hn10 : d ≠ 10 := by unfold IsDigit at hd; omega
    rw [value_cons] at hv ⊢
    obtain ⟨ln', h⟩ := clauses_run (e := e) ln v c p l ev n (valueFrom (d - 48) ds) (w := w) hs₄ hen
    refine ⟨ln', ?_⟩
    have := space_run (e := e) (skips_var n) (k₀ := .varSpace n)
      (by rintro ⟨k, ln, v, c, p, l, ev⟩ ch rfl; rfl)
      (by intro s k ch; unfold firstClause; rfl) ln v c p l ev hs₃ (digit_not_space hd)
      (ds ++ s₄ ++ en ++ w)
    simp only [List.append_assoc, List.cons_append] at this h ⊢
    rw [this]
    simp only [firstClause, hd', if_true, goto, bump, Option.some.injEq, hn10, if_false, cont_more,
      Option.getD_some]
    rw [digits_run (reads_clauses n) (by omega) _ _ _ _ _ _ _ _ _
      (fun z hz => hds z (List.mem_cons_of_mem _ hz)) (by omega)]
    exact h

theorem varSpace_sound {ln v c p : Nat} {l : Int} {ev : List Event} {n : Nat}
    {w : List Nat} {v' : Nat} {ev' : List Event}
    (h : Ok m e ⟨.varSpace n, ln, v, c, p, l, ev⟩ w v' ev') :
    ∃ s₃ d₂ s₄ en w', w = s₃ ++ d₂ ++ s₄ ++ en ++ w' ∧ Space m s₃ ∧ Digits d₂ ∧
      value d₂ < 2 ^ 64 ∧ Space m s₄ ∧ LineEnd en ∧ ∃ ln',
      Ok m e ⟨.body, ln', n, value d₂, 0, 0, ev ++ [.reserve n]⟩ w' v' ev' := by
  obtain ⟨sp, x, w, rfl, hs, ⟨k', ln, v, c, p, l, ev⟩, rfl, j, h⟩ := space_sound (skips_var n) (k₀ := .varSpace n)
    (by rintro ⟨k, ln, v, c, p, l, ev⟩ ch rfl; rfl)
    (by intro s; exact ⟨_, rfl, by intros; simp⟩) h
  simp only [firstClause] at h
  by_cases hx : IsDigit x
  · rw [if_pos ((isDigit_iff x).mpr hx)] at h
    simp only [goto, cont_more, Option.getD_some] at h
    obtain ⟨ds, r, rfl, g1, g2, g3, g4⟩ := digits_sound (reads_clauses n) (by omega)
      (by unfold IsDigit at hx; omega) ⟨j, h⟩
    obtain ⟨s₄, en, w', rfl, f1, f2, ln', f3⟩ := clauses_sound g2 g4
    rw [← value_cons] at f3 g3
    refine ⟨sp, x :: ds, s₄, en, w', by simp, hs, ⟨by simp, ?_⟩, by omega, f1, f2, ln', f3⟩
    intro z hz
    rcases List.mem_cons.mp hz with h | h
    · rw [h]; exact hx
    · exact g1 z h
  · exfalso
    rw [if_neg (mt (isDigit_iff x).mp hx)] at h
    cases h

/-! ### The number of variables -/

theorem cnfSpace_run (ln v c p : Nat) (l : Int) (ev : List Event)
    {s₂ d₁ s₃ d₂ s₄ en w : List Nat} (hs₂ : Space m s₂) (hd₁ : Digits d₁) (hv₁ : value d₁ ≤ maxVar)
    (hs₃ : Space m s₃) (hd : Digits d₂) (hv : value d₂ < 2 ^ 64)
    (hs₄ : Space m s₄) (hen : LineEnd en) :
    ∃ ln', run m e ⟨.cnfSpace, ln, v, c, p, l, ev⟩
        (s₂ ++ d₁ ++ [32] ++ s₃ ++ d₂ ++ s₄ ++ en ++ w) =
      run m e ⟨.body, ln', value d₁, value d₂, 0, 0, ev ++ [.reserve (value d₁)]⟩ w := by
  obtain ⟨hne, hds⟩ := hd₁
  cases d₁ with
  | nil => exact absurd rfl hne
  | cons d ds =>
    have hd1 := hds d (by simp)
    have hd' := (isDigit_iff d).mpr hd1
    have hn10 : d ≠ 10 := by unfold IsDigit at hd1; omega
    rw [value_cons] at hv₁ ⊢
    obtain ⟨ln', h⟩ := varSpace_run (e := e) ln v c p l ev (valueFrom (d - 48) ds) (w := w)
      hs₃ hd hv hs₄ hen
    refine ⟨ln', ?_⟩
    have := space_run (e := e) skips_cnf (k₀ := .cnfSpace)
      (by rintro ⟨k, ln, v, c, p, l, ev⟩ ch rfl; rfl)
      (by intro s k ch; unfold firstVariable; rfl) ln v c p l ev hs₂ (digit_not_space hd1)
      (ds ++ [32] ++ s₃ ++ d₂ ++ s₄ ++ en ++ w)
    simp only [List.append_assoc, List.cons_append, List.nil_append] at this h ⊢
    rw [this]
    simp only [firstVariable, hd', if_true, goto, bump, Option.some.injEq, hn10, if_false, cont_more,
      Option.getD_some]
    rw [digits_run reads_variables (by unfold maxVar; omega) _ _ _ _ _ _ _ _ _
      (fun z hz => hds z (List.mem_cons_of_mem _ hz)) hv₁, run_cons]
    have e0 : step m e ⟨.variables (valueFrom (d - 48) ds), ln, v, c, p, l, ev⟩ (some 32) =
        .more ⟨.varSpace (valueFrom (d - 48) ds), ln, v, c, p, l, ev⟩ := by
      simp [step, after, goto, isDigit]
    rw [e0, cont_more]
    exact h

theorem cnfSpace_sound {ln v c p : Nat} {l : Int} {ev : List Event}
    {w : List Nat} {v' : Nat} {ev' : List Event}
    (h : Ok m e ⟨.cnfSpace, ln, v, c, p, l, ev⟩ w v' ev') :
    ∃ s₂ d₁ s₃ d₂ s₄ en w', w = s₂ ++ d₁ ++ [32] ++ s₃ ++ d₂ ++ s₄ ++ en ++ w' ∧ Space m s₂ ∧
      Digits d₁ ∧ value d₁ ≤ maxVar ∧ Space m s₃ ∧ Digits d₂ ∧
      value d₂ < 2 ^ 64 ∧ Space m s₄ ∧ LineEnd en ∧ ∃ ln',
      Ok m e ⟨.body, ln', value d₁, value d₂, 0, 0, ev ++ [.reserve (value d₁)]⟩ w' v' ev' := by
  obtain ⟨sp, x, w, rfl, hs, ⟨k', ln, v, c, p, l, ev⟩, rfl, j, h⟩ := space_sound skips_cnf (k₀ := .cnfSpace)
    (by rintro ⟨k, ln, v, c, p, l, ev⟩ ch rfl; rfl)
    (by intro s; exact ⟨_, rfl, by intros; simp⟩) h
  simp only [firstVariable] at h
  by_cases hx : IsDigit x
  · rw [if_pos ((isDigit_iff x).mpr hx)] at h
    simp only [goto, cont_more, Option.getD_some] at h
    obtain ⟨ds, r, rfl, g1, g2, g3, i, g4⟩ := digits_sound reads_variables (by unfold maxVar; omega)
      (by unfold IsDigit at hx; unfold maxVar; omega) ⟨j, h⟩
    rw [← value_cons] at g3 g4
    have hr : ∃ r', r = 32 :: r' ∧ Ok m e ⟨.varSpace (value (x :: ds)), ln, v, c, p, l, ev⟩ r' v' ev' := by
      cases r with
      | nil =>
        exfalso
        rw [run_nil, atEof] at g4
        simp [step, after, fail, isDigit] at g4
      | cons y r =>
        have hy : isDigit (some y) = false := by
          rw [← Bool.not_eq_true, isDigit_iff]; exact g2 y (by simp)
        by_cases y32 : y = 32
        · subst y32
          refine ⟨r, rfl, i, ?_⟩
          rw [run_cons] at g4
          simpa [step, after, goto, isDigit] using g4
        · exfalso
          rw [run_cons] at g4
          by_cases y13 : y = 13
          · subst y13
            simp only [step, after, goto, isDigit] at g4
            simp at g4
            cases r with
            | nil =>
              rw [run_nil, atEof] at g4
              simp [step, after, fail] at g4
            | cons z r =>
              rw [run_cons] at g4
              by_cases z10 : z = 10
              · simp [step, after, nonl, z10] at g4
              · simp [step, after, fail, z10] at g4
          · by_cases y10 : y = 10
            · simp [step, after, nonl, hy, y10] at g4
              simp [isDigit] at g4
            · simp [step, after, fail, hy, y10, y13, y32] at g4
    obtain ⟨r', rfl, g5⟩ := hr
    obtain ⟨s₃, d₂, s₄, en, w', rfl, f0, f1, f2, f3, f4, ln', f5⟩ := varSpace_sound g5
    refine ⟨sp, x :: ds, s₃, d₂, s₄, en, w', by simp, hs, ⟨by simp, ?_⟩, g3, f0, f1, f2, f3, f4, ln', f5⟩
    intro z hz
    rcases List.mem_cons.mp hz with h | h
    · rw [h]; exact hx
    · exact g1 z h
  · exfalso
    rw [if_neg (mt (isDigit_iff x).mp hx)] at h
    cases h

/-! ### The whole header -/

theorem header_run (ln v c p : Nat) (l : Int) (ev : List Event) {h w : List Nat} {n q : Nat}
    (hh : Header m h n q) (f : Bool) :
    ∃ ln', run m e ⟨.start f, ln, v, c, p, l, ev⟩ (h ++ w) =
      run m e ⟨.body, ln', n, q, 0, 0, ev ++ [.reserve n]⟩ w := by
  obtain ⟨s₁, s₂, d₁, s₃, d₂, s₄, en, a1, a2, a3, a4, a5, b1, b2, b3, b4, b5, b6, rfl⟩ := hh
  subst b2 b5
  obtain ⟨ln', hr⟩ := cnfSpace_run (e := e) ln v c p l ev (w := w) a2 b1 b3 a3 b4 b6 a4 a5
  refine ⟨ln', ?_⟩
  have := space_run (e := e) skips_p (k₀ := .pSpace)
    (by rintro ⟨k, ln, v, c, p, l, ev⟩ ch rfl; rfl)
    (by intro s k ch; unfold expectC nonl; rfl) ln v c p l ev a1 (x := 99) rfl
    (110 :: 102 :: 32 :: (s₂ ++ d₁ ++ [32] ++ s₃ ++ d₂ ++ s₄ ++ en ++ w))
  have e1 : step m e ⟨.start f, ln, v, c, p, l, ev⟩ (some 112) = .more ⟨.p, ln, v, c, p, l, ev⟩ := by
    simp [step, after, goto]
  have e2 : step m e ⟨.p, ln, v, c, p, l, ev⟩ (some 32) = .more ⟨.pSpace, ln, v, c, p, l, ev⟩ := by
    simp [step, after, goto]
  simp only [List.append_assoc, List.cons_append, List.nil_append] at this hr ⊢
  rw [run_cons, e1, cont_more, run_cons, e2, cont_more, this]
  simp only [expectC, goto, bump]
  simp [run_cons, step, after, goto, hr]

theorem header_sound {ln v c p : Nat} {l : Int} {ev : List Event}
    {w : List Nat} {v' : Nat} {ev' : List Event}
    (h : Ok m e ⟨.p, ln, v, c, p, l, ev⟩ w v' ev') :
    ∃ hd w' n q, 112 :: w = hd ++ w' ∧ Header m hd n q ∧ ∃ ln',
      Ok m e ⟨.body, ln', n, q, 0, 0, ev ++ [.reserve n]⟩ w' v' ev' := by
  have one : ∀ {k k' : Pc} {x : Nat} {ln v c p : Nat} {l : Int} {ev : List Event} {w : List Nat},
      (∀ (s : State) (ch : Option Nat), s.pc = k →
        ∃ msg, after m e s ch = if ch ≠ some x then nonl s ch msg else goto s k') →
      x ≠ 10 → Ok m e ⟨k, ln, v, c, p, l, ev⟩ w v' ev' →
      ∃ w', w = x :: w' ∧ Ok m e ⟨k', ln, v, c, p, l, ev⟩ w' v' ev' := by
    intro k k' x ln v c p l ev w hk hx10 h
    obtain ⟨j, h⟩ := h
    cases w with
    | nil =>
      exfalso
      rw [run_nil, atEof, step_eq] at h
      obtain ⟨msg, hm⟩ := hk (bump ⟨k, ln, v, c, p, l, ev⟩ none) none rfl
      rw [hm, if_pos (by simp)] at h
      simp [nonl] at h
    | cons y w =>
      rw [run_cons, step_eq] at h
      obtain ⟨msg, hm⟩ := hk (bump ⟨k, ln, v, c, p, l, ev⟩ (some y)) (some y) rfl
      rw [hm] at h
      by_cases hy : y = x
      · subst hy
        rw [if_neg (by simp)] at h
        simp only [goto, bump, Option.some.injEq, hx10, if_false, cont_more] at h
        exact ⟨w, rfl, j, h⟩
      · rw [if_pos (by simpa using hy)] at h
        simp [nonl] at h
  obtain ⟨w1, rfl, h⟩ := one (k' := .pSpace) (x := 32)
    (by rintro ⟨k, ln, v, c, p, l, ev⟩ ch rfl; exact ⟨_, rfl⟩) (by omega) h
  obtain ⟨s₁, x, w2, rfl, hs, ⟨k', ln, v, c, p, l, ev⟩, rfl, j, h⟩ := space_sound skips_p (k₀ := .pSpace)
    (by rintro ⟨k, ln, v, c, p, l, ev⟩ ch rfl; rfl)
    (by intro s; exact ⟨_, rfl, by intros; simp⟩) h
  simp only [expectC] at h
  by_cases hx : x = 99
  · subst hx
    rw [if_neg (by simp)] at h
    simp only [goto, cont_more] at h
    obtain ⟨w3, rfl, h'⟩ := one (k' := .pcn) (x := 110)
      (by rintro ⟨k, ln, v, c, p, l, ev⟩ ch rfl; exact ⟨_, rfl⟩) (by omega) ⟨j, h⟩
    obtain ⟨w4, rfl, h''⟩ := one (k' := .pcnf) (x := 102)
      (by rintro ⟨k, ln, v, c, p, l, ev⟩ ch rfl; exact ⟨_, rfl⟩) (by omega) h'
    obtain ⟨w5, rfl, h'''⟩ := one (k' := .cnfSpace) (x := 32)
      (by rintro ⟨k, ln, v, c, p, l, ev⟩ ch rfl; exact ⟨_, rfl⟩) (by omega) h''
    obtain ⟨s₂, d₁, s₃, d₂, s₄, en, w', rfl, a0, a1, a2, a3, a4, a5, a6, a7, ln', a8⟩ := cnfSpace_sound h'''
    refine ⟨[112, 32] ++ s₁ ++ [99, 110, 102, 32] ++ s₂ ++ d₁ ++ [32] ++ s₃ ++ d₂ ++ s₄ ++ en, w',
      value d₁, value d₂, by simp, ?_, ln', a8⟩
    exact ⟨s₁, s₂, d₁, s₃, d₂, s₄, en, hs, a0, a3, a6, a7, a1, rfl, a2, a4, rfl, a5, rfl⟩
  · exfalso
    rw [if_pos (by simpa using hx)] at h
    simp [nonl] at h

/-! ## Lines before the header, without embedded options -/

theorem rest_run (ln v c p : Nat) (l : Int) (ev : List Event) {t en : List Nat} (w : List Nat)
    (ht : 10 ∉ t) (ht' : 13 ∉ t) (hen : LineEnd en) :
    run m e ⟨.rest, ln, v, c, p, l, ev⟩ (t ++ en ++ w) =
      run m e ⟨.start false, ln + 1, v, c, p, l, ev⟩ w := by
  induction t with
  | nil =>
    rcases hen with rfl | rfl
    · simp [run_cons, step, after, goto]
    · simp [run_cons, step, after, goto, complete]
  | cons x t ih =>
    simp only [List.mem_cons, not_or] at ht ht'
    have h1 : x ≠ 10 := fun h => ht.1 h.symm
    have h2 : x ≠ 13 := fun h => ht'.1 h.symm
    simp only [List.cons_append]
    rw [run_cons]
    simp only [step, after, complete, goto, Option.some.injEq, h1, h2, if_false, reduceCtorEq,
      cont_more]
    exact ih ht.2 ht'.2

theorem comment_run (ln v c p : Nat) (l : Int) (ev : List Event) {t en : List Nat} (w : List Nat)
    (ht : 10 ∉ t) (ht' : 13 ∉ t) (hen : LineEnd en) :
    run m false ⟨.comment, ln, v, c, p, l, ev⟩ (t ++ en ++ w) =
      run m false ⟨.start false, ln + 1, v, c, p, l, ev⟩ w := by
  induction t with
  | nil =>
    rcases hen with rfl | rfl
    · simp [run_cons, step, after, goto]
    · simp [run_cons, step, after, goto]
  | cons x t ih =>
    simp only [List.mem_cons, not_or] at ht ht'
    have h1 : x ≠ 10 := fun h => ht.1 h.symm
    have h2 : x ≠ 13 := fun h => ht'.1 h.symm
    simp only [List.cons_append]
    rw [run_cons]
    simp only [step, after, goto, Option.some.injEq, h1, h2, if_false, reduceCtorEq,
      Bool.false_eq_true, false_and]
    split
    · exact ih ht.2 ht'.2
    · exact rest_run _ _ _ _ _ _ _ ht.2 ht'.2 hen

theorem cr_sound {k : Pc} {ln v c p : Nat} {l : Int} {ev : List Event}
    {w : List Nat} {v' j : Nat} {ev' : List Event}
    (hk : ∀ (s : State) (ch : Option Nat), s.pc = k → after m e s ch =
      if ch ≠ some 10 then fail s "expected new-line after carriage-return" else goto s (.start false))
    (h : run m e ⟨k, ln, v, c, p, l, ev⟩ w = some (.ok v' j ev')) :
    ∃ w', w = 10 :: w' ∧ Ok m e ⟨.start false, ln + 1, v, c, p, l, ev⟩ w' v' ev' := by
  cases w with
  | nil =>
    exfalso
    rw [run_nil, atEof, step_eq, hk _ _ rfl] at h
    simp [fail] at h
  | cons x w =>
    rw [run_cons, step_eq, hk _ _ rfl] at h
    by_cases hx : x = 10
    · subst hx
      refine ⟨w, rfl, j, ?_⟩
      simpa [goto, bump] using h
    · exfalso
      simp [fail, hx] at h

theorem rest_sound {ln v c p : Nat} {l : Int} {ev : List Event}
    {w : List Nat} {v' : Nat} {ev' : List Event}
    (h : Ok m e ⟨.rest, ln, v, c, p, l, ev⟩ w v' ev') :
    ∃ t en w', w = t ++ en ++ w' ∧ 10 ∉ t ∧ 13 ∉ t ∧ LineEnd en ∧
      Ok m e ⟨.start false, ln + 1, v, c, p, l, ev⟩ w' v' ev' := by
  induction w with
  | nil =>
    exfalso
    obtain ⟨j, h⟩ := h
    rw [run_nil, atEof] at h
    simp [step, after, fail, complete] at h
  | cons x w ih =>
    obtain ⟨j, h⟩ := h
    rw [run_cons] at h
    by_cases x10 : x = 10
    · subst x10
      refine ⟨[], [10], w, rfl, by simp, by simp, Or.inl rfl, j, ?_⟩
      simpa [step, after, goto] using h
    by_cases x13 : x = 13
    · subst x13
      simp only [step, after, complete, goto] at h
      simp only [Option.some.injEq, show (13 : Nat) ≠ 10 by decide, if_false, reduceCtorEq, if_true, cont_more] at h
      obtain ⟨w', rfl, h'⟩ := cr_sound (by rintro ⟨k, ln, v, c, p, l, ev⟩ ch rfl; rfl) h
      exact ⟨[], [13, 10], w', rfl, by simp, by simp, Or.inr rfl, h'⟩
    · simp only [step, after, complete, goto, Option.some.injEq, x10, x13, if_false, reduceCtorEq, cont_more] at h
      obtain ⟨t, en, w', rfl, h1, h2, h3, h4⟩ := ih ⟨j, h⟩
      refine ⟨x :: t, en, w', rfl, ?_, ?_, h3, h4⟩
      · simp only [List.mem_cons, not_or]; exact ⟨fun h => x10 h.symm, h1⟩
      · simp only [List.mem_cons, not_or]; exact ⟨fun h => x13 h.symm, h2⟩

theorem comment_sound {ln v c p : Nat} {l : Int} {ev : List Event}
    {w : List Nat} {v' : Nat} {ev' : List Event}
    (h : Ok m false ⟨.comment, ln, v, c, p, l, ev⟩ w v' ev') :
    ∃ t en w', w = t ++ en ++ w' ∧ 10 ∉ t ∧ 13 ∉ t ∧ LineEnd en ∧
      Ok m false ⟨.start false, ln + 1, v, c, p, l, ev⟩ w' v' ev' := by
  induction w with
  | nil =>
    exfalso
    obtain ⟨j, h⟩ := h
    rw [run_nil, atEof] at h
    simp [step, after, fail] at h
  | cons x w ih =>
    obtain ⟨j, h⟩ := h
    rw [run_cons] at h
    by_cases x10 : x = 10
    · subst x10
      refine ⟨[], [10], w, rfl, by simp, by simp, Or.inl rfl, j, ?_⟩
      simpa [step, after, goto] using h
    by_cases x13 : x = 13
    · subst x13
      simp only [step, after, goto] at h
      simp only [Option.some.injEq, show (13 : Nat) ≠ 10 by decide, if_false, reduceCtorEq, if_true, cont_more] at h
      obtain ⟨w', rfl, h'⟩ := cr_sound (by rintro ⟨k, ln, v, c, p, l, ev⟩ ch rfl; rfl) h
      exact ⟨[], [13, 10], w', rfl, by simp, by simp, Or.inr rfl, h'⟩
    · simp only [step, after, goto, Option.some.injEq, x10, x13, if_false, reduceCtorEq,
        Bool.false_eq_true, false_and] at h
      have key : ∃ t en w', w = t ++ en ++ w' ∧ 10 ∉ t ∧ 13 ∉ t ∧ LineEnd en ∧
          Ok m false ⟨.start false, ln + 1, v, c, p, l, ev⟩ w' v' ev' := by
        split at h
        · exact ih ⟨j, h⟩
        · exact rest_sound ⟨j, h⟩
      obtain ⟨t, en, w', rfl, h1, h2, h3, h4⟩ := key
      refine ⟨x :: t, en, w', rfl, ?_, ?_, h3, h4⟩
      · simp only [List.mem_cons, not_or]; exact ⟨fun h => x10 h.symm, h1⟩
      · simp only [List.mem_cons, not_or]; exact ⟨fun h => x13 h.symm, h2⟩

theorem prolog_run {a : List Nat} (ha : Prolog m a) (w : List Nat) (v c p : Nat) (l : Int)
    (ev : List Event) :
    ∀ (f : Bool) (ln : Nat), ∃ f' ln', run m false ⟨.start f, ln, v, c, p, l, ev⟩ (a ++ w) =
      run m false ⟨.start f', ln', v, c, p, l, ev⟩ w := by
  induction ha with
  | nil => intro f ln; exact ⟨f, ln, rfl⟩
  | @blank en a hm hen _ ih =>
    intro f ln
    obtain ⟨f', ln', h⟩ := ih false (ln + 1)
    refine ⟨f', ln', ?_⟩
    rw [← h]
    rcases hen with rfl | rfl
    · simp [run_cons, step, after, goto, hm]
    · simp [run_cons, step, after, goto, hm]
  | @comment t en a ht ht' hen _ ih =>
    intro f ln
    obtain ⟨f', ln', h⟩ := ih false (ln + 1)
    refine ⟨f', ln', ?_⟩
    rw [← h]
    have := comment_run (m := m) ln v c p l ev (a ++ w) ht ht' hen
    simp only [List.append_assoc, List.cons_append] at this ⊢
    rw [run_cons]
    have e0 : step m false ⟨.start f, ln, v, c, p, l, ev⟩ (some 99) =
        .more ⟨.comment, ln, v, c, p, l, ev⟩ := by simp [step, after, goto]
    rw [e0, cont_more]
    exact this

theorem prolog_sound (n : Nat) : ∀ (w : List Nat), w.length ≤ n →
    ∀ (f : Bool) ln v c p l ev v' ev', Ok m false ⟨.start f, ln, v, c, p, l, ev⟩ w v' ev' →
      ∃ a w', w = a ++ 112 :: w' ∧ Prolog m a ∧ ∃ ln',
        Ok m false ⟨.p, ln', v, c, p, l, ev⟩ w' v' ev' := by
  induction n with
  | zero =>
    intro w hw f ln v c p l ev v' ev' h
    have : w = [] := List.length_eq_zero_iff.mp (by omega)
    subst this
    exfalso
    obtain ⟨j, h⟩ := h
    rw [run_nil, atEof] at h
    cases f <;> simp [step, after, fail] at h
  | succ n ih =>
    intro w hw f ln v c p l ev v' ev' h
    cases w with
    | nil => exact ih [] (by simp) f ln v c p l ev v' ev' h
    | cons x w =>
      simp only [List.length_cons] at hw
      obtain ⟨j, h⟩ := h
      rw [run_cons] at h
      by_cases x112 : x = 112
      · subst x112
        refine ⟨[], w, rfl, .nil, ln, j, ?_⟩
        simpa [step, after, goto] using h
      by_cases x13 : x = 13
      · subst x13
        have e0 : step m false ⟨.start f, ln, v, c, p, l, ev⟩ (some 13) =
            .more ⟨.startCr, ln, v, c, p, l, ev⟩ := by simp [step, after, goto]
        rw [e0, cont_more] at h
        cases w with
        | nil =>
          exfalso
          rw [run_nil, atEof] at h
          simp [step, after, fail] at h
        | cons y w =>
          rw [run_cons] at h
          by_cases y10 : y = 10
          · subst y10
            by_cases hm : m = .pedantic
            · exfalso
              simp [step, after, nonl, hm] at h
            · simp only [List.length_cons] at hw
              obtain ⟨a, w', rfl, h1, h2⟩ := ih w (by omega) false (ln + 1) v c p l ev v' ev'
                ⟨j, by simpa [step, after, goto, hm] using h⟩
              exact ⟨[13, 10] ++ a, w', rfl, .blank hm (Or.inr rfl) h1, h2⟩
          · exfalso
            simp [step, after, fail, y10] at h
      by_cases x10 : x = 10
      · subst x10
        by_cases hm : m = .pedantic
        · exfalso
          simp [step, after, nonl, hm] at h
        · obtain ⟨a, w', rfl, h1, h2⟩ := ih w (by omega) false (ln + 1) v c p l ev v' ev'
            ⟨j, by simpa [step, after, goto, hm] using h⟩
          exact ⟨[10] ++ a, w', rfl, .blank hm (Or.inl rfl) h1, h2⟩
      by_cases x99 : x = 99
      · subst x99
        have e0 : step m false ⟨.start f, ln, v, c, p, l, ev⟩ (some 99) =
            .more ⟨.comment, ln, v, c, p, l, ev⟩ := by simp [step, after, goto]
        rw [e0, cont_more] at h
        obtain ⟨t, en, w', rfl, h1, h2, h3, h4⟩ := comment_sound ⟨j, h⟩
        have hlen : w'.length ≤ n := by
          simp only [List.length_append] at hw; omega
        obtain ⟨a, w'', rfl, g1, g2⟩ := ih w' hlen false _ v c p l ev v' ev' h4
        refine ⟨99 :: t ++ en ++ a, w'', by simp, ?_, g2⟩
        exact .comment h1 h2 h3 g1
      · exfalso
        simp [step, after, fail, x112, x13, x10, x99] at h

/-! ## The parser -/

theorem fits_iff {v c : Nat} {ls : List Int} :
    Fits m v c 0 0 ls ↔ Terminated ls ∧ Agrees m v c ls := by
  unfold Fits Terminated Agrees
  have h1 : ls.getLast?.getD 0 = 0 ↔ ls = [] ∨ ls.getLast? = some 0 := by
    cases h : ls.getLast? with
    | none => simp [List.getLast?_eq_none_iff.mp h]
    | some x =>
      have : ls ≠ [] := by rintro rfl; cases h
      simp [this]
  rw [h1, Nat.zero_add]

/-- Without embedded options the parser succeeds exactly for legal files, and then reserves
the variables of the header and adds the integers of the body. -/
theorem parse_iff {w : List Nat} {n : Nat} {ev : List Event} :
    (∃ ln, parse m false w = some (.ok n ln ev)) ↔
      ∃ q ls, Legal m w n q ls ∧ ev = .reserve n :: ls.map .add := by
  constructor
  · rintro ⟨ln, h⟩
    obtain ⟨a, w', rfl, h1, ln1, h2⟩ := prolog_sound w.length w (Nat.le_refl _) _ _ _ _ _ _ _ _ _
      (show Ok m false State.init w n ev from ⟨ln, h⟩)
    obtain ⟨hd, b, v, q, e1, h3, ln2, h4⟩ := header_sound h2
    obtain ⟨ls, h5, h6, h7, h8⟩ := body_sound b.length b (Nat.le_refl _) _ _ _ _ _ _ _ _
      (Or.inr (Nat.zero_le _)) h4
    subst h7
    obtain ⟨f1, f2⟩ := fits_iff.mp h6
    refine ⟨q, ls, ⟨a, hd, b, by rw [e1]; simp, h1, h3, h5, f1, f2⟩, ?_⟩
    rw [h8]; rfl
  · rintro ⟨q, ls, ⟨a, hd, b, rfl, h1, h2, h3, h4, h5⟩, rfl⟩
    obtain ⟨f', ln1, e1⟩ := prolog_run h1 (hd ++ b) 0 0 0 0 [] true 1
    obtain ⟨ln2, e2⟩ := header_run (e := false) ln1 0 0 0 0 [] (w := b) h2 f'
    obtain ⟨ln3, e3⟩ := body_complete (e := false) h3 ln2 n q 0 0 [.reserve n] (fits_iff.mpr ⟨h4, h5⟩)
    refine ⟨ln3, ?_⟩
    rw [List.append_assoc, parse_eq_run]
    exact e1.trans (e2.trans e3)

end Verif.Model.Parse
