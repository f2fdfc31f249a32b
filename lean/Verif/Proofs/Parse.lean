import Verif.Model.Parse

/-!
# Facts about the DIMACS parser
-/

namespace Verif.Model.Parse

open Verif.Spec.Dimacs

/-- Parsing from some state to the end of the file. -/
def run (m : Mode) (e : Bool) (s : State) (w : List Nat) : Option Result :=
  match feed m e s w with
  | .done r => some r
  | .more s => atEof m e s

variable {m : Mode} {e : Bool}

theorem run_nil (s : State) : run m e s [] = atEof m e s := rfl

/-- Continuation of parsing after a step. -/
def cont (m : Mode) (e : Bool) (o : Outcome) (w : List Nat) : Option Result :=
  match o with
  | .done r => some r
  | .more s => run m e s w

@[simp] theorem cont_done (r : Result) (w : List Nat) : cont m e (.done r) w = some r := rfl
@[simp] theorem cont_more (s : State) (w : List Nat) : cont m e (.more s) w = run m e s w := rfl

theorem run_cons (s : State) (x : Nat) (w : List Nat) :
    run m e s (x :: w) = cont m e (step m e s (some x)) w := by
  unfold run
  rw [feed]
  cases step m e s (some x) with
  | done r => rfl
  | more s => rfl

theorem parse_eq_run (w : List Nat) : parse m e w = run m e State.init w := rfl

theorem feed_append (s : State) (a b : List Nat) :
    feed m e s (a ++ b) =
      match feed m e s a with
      | .done r => .done r
      | .more s => feed m e s b := by
  induction a generalizing s with
  | nil => rfl
  | cons x a ih =>
    rw [List.cons_append, feed, feed]
    cases step m e s (some x) with
    | done r => rfl
    | more s => exact ih s

/-! ## End of file -/

theorem addLit_cases (s : State) (sg : Int) (n : Nat) (ch : Option Nat) :
    (∃ msg k, addLit m s sg n ch = .done (.error msg k s.events)) ∨
    ((m = .relaxed ∨ n ≤ s.maxVar) ∧ (n = 0 → m = .relaxed ∨ s.parsed ≠ s.clauses) ∧
      addLit m s sg n ch = .more { s with
        pc := .body
        parsed := if n = 0 then s.parsed + 1 else s.parsed
        lit := sg * n
        events := s.events ++ [.add (sg * n)] }) := by
  unfold addLit
  by_cases h1 : m ≠ .relaxed ∧ s.maxVar < n
  · rw [if_pos h1]; exact Or.inl ⟨_, _, rfl⟩
  · rw [if_neg h1]
    have h1' : m = .relaxed ∨ n ≤ s.maxVar := by
      by_cases hm : m = .relaxed
      · exact Or.inl hm
      · right
        have := not_and.mp h1 hm
        omega
    by_cases h2 : n ≠ 0
    · rw [if_pos h2]
      refine Or.inr ⟨h1', fun h => absurd h h2, ?_⟩
      rw [if_neg h2]
    · rw [if_neg h2]
      have h2 : n = 0 := by omega
      subst h2
      by_cases h3 : m ≠ .relaxed ∧ s.parsed = s.clauses
      · rw [if_pos h3]; exact Or.inl ⟨_, _, rfl⟩
      · rw [if_neg h3]
        refine Or.inr ⟨h1', fun _ => ?_, ?_⟩
        · by_cases hm : m = .relaxed
          · exact Or.inl hm
          · exact Or.inr (fun h => h3 ⟨hm, h⟩)
        · simp

theorem finish_done (s : State) : ∃ r, finish m s = .done r := by
  unfold finish
  split
  · exact ⟨_, rfl⟩
  · split
    · split <;> exact ⟨_, rfl⟩
    · exact ⟨_, rfl⟩

theorem body_eof {s : State} (h : s.pc = .body) : step m e s none = finish m s := by
  obtain ⟨k, ln, v, c, p, l, ev⟩ := s
  cases h
  rfl

/-- After `EOF` the parser returns or is at the beginning of the loop over the body. -/
theorem eof_body {s s' : State} (h : step m e s none = .more s') : s'.pc = .body := by
  have hadd : ∀ (s : State) sg n, addLit m s sg n none = .more s' → s'.pc = .body := by
    intro s sg n h
    rcases addLit_cases (m := m) s sg n none with ⟨_, _, h'⟩ | ⟨_, _, h'⟩
    · rw [h'] at h; cases h
    · rw [h'] at h; cases h; rfl
  have hfin : ∀ s : State, finish m s = .more s' → s'.pc = .body := by
    intro s h
    obtain ⟨r, hr⟩ := finish_done (m := m) s
    rw [hr] at h; cases h
  obtain ⟨k, ln, v, c, p, l, ev⟩ := s
  cases k <;>
    simp [step, after, fail, nonl, isDigit, isSpace, complete, expectC, firstVariable,
      firstClause, endHeader, afterClauses, firstArg, afterArg] at h
  case start b => cases b <;> simp at h
  case body => exact hfin _ h
  case bodyComment =>
    split at h
    · cases h
    · exact hfin _ h
  case idx sg n =>
    split at h
    · split at h <;> cases h
    · exact hadd _ _ _ h
  case idxComment sg n =>
    split at h
    · cases h
    · exact hadd _ _ _ h

/-- The parser calls `NEXT ()` at most twice at the end of the file. -/
theorem atEof_ne_none (s : State) : atEof m e s ≠ none := by
  unfold atEof
  cases h : step m e s none with
  | done r => simp
  | more s' =>
    simp only
    rw [body_eof (eof_body h)]
    obtain ⟨r, hr⟩ := finish_done (m := m) s'
    rw [hr]; simp

theorem run_ne_none (s : State) (w : List Nat) : run m e s w ≠ none := by
  unfold run
  split
  · simp
  · exact atEof_ne_none _

/-! ## Reading in blocks -/

/-- The characters the reader will deliver. -/
def Reader.pending (r : Reader) : List Nat := r.chars.drop r.pos ++ r.file

theorem Reader.next_spec (r : Reader) (h : r.pos ≤ r.chars.length) :
    r.next.1 = r.pending.head? ∧ r.next.2.pending = r.pending.tail ∧
    r.next.2.pos ≤ r.next.2.chars.length ∧
    r.next.2.bytes + r.next.2.file.length = r.bytes + r.file.length ∧
    (r.next.1 = none → r.next.2.file = []) := by
  have key : ∀ r : Reader, r.pos < r.chars.length →
      r.get = (some (r.chars.getD r.pos 0), { r with pos := r.pos + 1 }) := by
    intro r hlt
    unfold Reader.get
    rw [List.getElem?_eq_getElem hlt]
    simp [List.getD, List.getElem?_eq_getElem hlt]
  unfold Reader.next
  by_cases hp : r.pos = r.chars.length
  · rw [if_pos hp]
    have hpend : r.pending = r.file := by
      unfold Reader.pending
      rw [hp, List.drop_length, List.nil_append]
    rw [hpend]
    cases hf : r.file with
    | nil => simp [Reader.fill, hf, Reader.pending, Reader.get]
    | cons x w =>
      have hlt : r.fill.pos < r.fill.chars.length := by
        show 0 < (r.file.take _).length
        rw [hf, List.length_take]
        have : 0 < min sizeBuffer (max 1 (r.chunks r.calls)) := by
          unfold sizeBuffer; omega
        simp only [List.length_cons]
        omega
      rw [key _ hlt]
      obtain ⟨k, hk⟩ : ∃ k, min sizeBuffer (max 1 (r.chunks r.calls)) = k + 1 :=
        ⟨min sizeBuffer (max 1 (r.chunks r.calls)) - 1, by unfold sizeBuffer; omega⟩
      simp only [Reader.fill, hk, hf, List.take_succ_cons, List.drop_succ_cons, Reader.pending]
      refine ⟨by simp, by simp, by simp, ?_, by simp⟩
      simp only [List.length_cons, List.length_take, List.length_drop]
      omega
  · rw [if_neg hp]
    have hlt : r.pos < r.chars.length := by omega
    rw [key _ hlt]
    have hd : r.chars.drop r.pos = r.chars[r.pos] :: r.chars.drop (r.pos + 1) :=
      List.drop_eq_getElem_cons hlt
    refine ⟨?_, ?_, by simp only; omega, rfl, by simp⟩
    · simp only [Reader.pending, hd, List.cons_append, List.head?_cons]
      simp [List.getD, List.getElem?_eq_getElem hlt]
    · simp only [Reader.pending, hd, List.cons_append, List.tail_cons]

/-- The parser on top of the buffered reader sees the file content. -/
theorem drive_spec (n : Nat) (r : Reader) (s : State) (h : r.pos ≤ r.chars.length)
    (hn : r.pending.length + 2 ≤ n) :
    ∃ r', drive m e n r s = (run m e s r.pending).map (·, r') ∧
      r'.bytes + r'.file.length = r.bytes + r.file.length := by
  induction n generalizing r s with
  | zero => omega
  | succ n ih =>
    obtain ⟨h1, h2, h3, h4, -⟩ := r.next_spec h
    rw [drive]
    generalize r.next = q at h1 h2 h3 h4
    obtain ⟨ch, r'⟩ := q
    simp only at h1 h2 h3 h4 ⊢
    cases hp : r.pending with
    | nil =>
      rw [hp] at h1 h2
      simp only [List.head?_nil, List.tail_nil] at h1 h2
      subst h1
      rw [run_nil, atEof]
      cases hs : step m e s none with
      | done res => exact ⟨r', rfl, h4⟩
      | more s' =>
        simp only
        rw [body_eof (eof_body hs)]
        obtain ⟨res, hres⟩ := finish_done (m := m) s'
        rw [hres]
        obtain ⟨k, rfl⟩ : ∃ k, n = k + 1 := ⟨n - 1, by omega⟩
        obtain ⟨g1, -, -, g4, -⟩ := r'.next_spec h3
        rw [drive]
        generalize r'.next = q at g1 g4
        obtain ⟨ch, r''⟩ := q
        simp only at g1 g4 ⊢
        rw [h2] at g1
        simp only [List.head?_nil] at g1
        subst g1
        rw [body_eof (eof_body hs), hres]
        exact ⟨r'', rfl, by omega⟩
    | cons x w =>
      rw [hp] at h1 h2 hn
      simp only [List.head?_cons, List.tail_cons, List.length_cons] at h1 h2 hn
      subst h1
      rw [run_cons]
      cases hs : step m e s (some x) with
      | done res => exact ⟨r', rfl, h4⟩
      | more s' =>
        rw [cont_more]
        simp only
        obtain ⟨r'', e1, e2⟩ := ih r' s' h3 (by rw [h2]; omega)
        rw [h2] at e1
        exact ⟨r'', e1, by omega⟩

end Verif.Model.Parse
