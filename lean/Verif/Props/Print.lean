import Verif.Proofs.Print

/-!
# Messages are comments (C73)

`Model/Print.lean` against `Spec/Print.lean`.  Calls are arbitrary lists with arbitrary texts.
-/

namespace Verif.Props

open Verif.Model.Print Verif.Spec.Print
open Verif.Proofs.Print

/-- C73 (partial: not on a terminal, texts without end of line, values which fit; see below).  All messages and reports
together are complete comment lines. -/
theorem C73_lines_partial : ∀ (calls : List Call) {s : State}, s.terminal = false → (∀ c ∈ calls, OneLine c) →
    (∀ c ∈ calls, Fits c) → ∃ out, s.prints calls = some out ∧ Comments out
  | [], _, _, _, _ => ⟨[], rfl, Comments.nil⟩
  | c :: cs, s, ht, hc, hf => by
    obtain ⟨out, s', e⟩ := print_fits (s := s) (hf c List.mem_cons_self)
    obtain ⟨h1, h2⟩ := print_comments ht (hc c List.mem_cons_self) e
    obtain ⟨rest, e', h3⟩ := C73_lines_partial cs h2 (fun x hx => hc x (List.mem_cons_of_mem _ hx))
      (fun x hx => hf x (List.mem_cons_of_mem _ hx))
    refine ⟨out ++ rest, ?_, Comments.append h1 h3⟩
    rw [State.prints, e]
    simp only [Option.bind_some]
    rw [e']
    rfl

/-- C73: with option `quiet` nothing is printed, whatever the texts are. -/
theorem C73_quiet : ∀ (calls : List Call) {s : State}, s.level < 0 → s.prints calls = some []
  | [], _, _ => rfl
  | c :: cs, s, h => by
    rw [State.prints, print_quiet h c]
    simp only [Option.bind_some]
    rw [C73_quiet cs h]
    rfl

/-- C73: without option `verbose` (`level` zero) verbose messages are not printed. -/
theorem C73_verbosity {s : State} (h : s.level = 0) (text name : Text) (count type : Nat) (values : List Text) :
    s.print (.verbose text) = some ([], s) ∧ s.print (.veryVerbose text) = some ([], s) ∧
    s.print (.extremelyVerbose text) = some ([], s) ∧ s.print (.phase name count text) = some ([], s) ∧
    s.print (.report true type values) = some ([], s) := by
  have h1 : s.level < 1 := by omega
  have h2 : s.level < 2 := by omega
  have h3 : s.level < 3 := by omega
  have h0 : ¬ s.level < 0 := by omega
  refine ⟨?_, ?_, ?_, ?_, ?_⟩
  · simp only [State.print, if_pos h1]
  · simp only [State.print, if_pos h2]
  · simp only [State.print, if_pos h3]
  · simp only [State.print, State.phase, if_pos h1]
  · simp only [State.print, State.report, if_neg h0, h2, and_self, if_true]

/-- C73: messages do appear, with their text, not on a terminal. -/
theorem C73_message {s : State} (h : 0 ≤ s.level) (ht : s.terminal = false) (text : Text) :
    s.print (.message text) = some (99 :: 32 :: text ++ [10], s) := by
  simp only [State.print, if_neg (by omega : ¬ s.level < 0)]
  simp [State.printMessage, State.color, ht]

/-- C73 is false for texts with an end of line.  The path of the input file is printed as it is (application.c:642):
for the path `x`, end of line, `s SATISFIABLE` the status line is printed before the solver has even started. -/
theorem C73_newline_in_path :
    ∃ (s : State) (path : Text), s.terminal = false ∧
      s.prints [.message ([32, 32] ++ path)] =
        some ([99, 32, 32, 32, 120, 10] ++ [115, 32, 83, 65, 84, 73, 83, 70, 73, 65, 66, 76, 69, 10]) ∧
      ¬ Comments ([99, 32, 32, 32, 120, 10] ++ [115, 32, 83, 65, 84, 73, 83, 70, 73, 65, 66, 76, 69, 10]) := by
  refine ⟨⟨0, false, false, false, false, 0⟩,
    [120, 10, 115, 32, 83, 65, 84, 73, 83, 70, 73, 65, 66, 76, 69], rfl, rfl, ?_⟩
  rintro ⟨lines, e, h⟩
  have first : ∀ {a b x y : Text}, 10 ∉ a → 10 ∉ x → a ++ 10 :: b = x ++ 10 :: y → a = x ∧ b = y := by
    intro a
    induction a with
    | nil =>
      intro b x y _ hx e
      cases x with
      | nil => exact ⟨rfl, (List.cons.inj e).2⟩
      | cons z x => exact absurd ((List.cons.inj e).1 ▸ List.mem_cons_self) hx
    | cons z a ih =>
      intro b x y ha hx e
      cases x with
      | nil => exact absurd ((List.cons.inj e).1 ▸ List.mem_cons_self) ha
      | cons w x =>
        obtain ⟨e1, e2⟩ := List.cons.inj e
        obtain ⟨e3, e4⟩ := ih (fun hm => ha (List.mem_cons_of_mem _ hm)) (fun hm => hx (List.mem_cons_of_mem _ hm)) e2
        exact ⟨by rw [e1, e3], e4⟩
  rcases lines with _ | ⟨l1, _ | ⟨l2, rest⟩⟩
  · cases e
  · obtain ⟨h1, -⟩ := h l1 List.mem_cons_self
    have := first (a := [99, 32, 32, 32, 120]) (x := l1) (y := [])
      (b := [115, 32, 83, 65, 84, 73, 83, 70, 73, 65, 66, 76, 69, 10]) (by decide) h1 (by simpa using e)
    cases this.2
  · obtain ⟨h1, -⟩ := h l1 List.mem_cons_self
    obtain ⟨h2, h3⟩ := h l2 (List.mem_cons_of_mem _ List.mem_cons_self)
    have e1 := first (a := [99, 32, 32, 32, 120]) (x := l1) (y := l2 ++ 10 :: rest.flatMap (· ++ [10]))
      (b := [115, 32, 83, 65, 84, 73, 83, 70, 73, 65, 66, 76, 69, 10]) (by decide) h1 (by simpa using e)
    have e2 := first (a := [115, 32, 83, 65, 84, 73, 83, 70, 73, 65, 66, 76, 69]) (x := l2)
      (y := rest.flatMap (· ++ [10])) (b := []) (by decide) h2 e1.2
    rw [← e2.1] at h3
    rcases h3 with h3 | ⟨r, h3⟩
    · cases h3
    · have := (List.cons.inj h3).1
      omega

/-- C73 is false on a terminal: `print_message` resets the colour after the end of the line, so that the line after a
message starts with an escape code. -/
theorem C73_terminal_code :
    ∃ s : State, s.prints [.message [120], .line] = some ([99, 32, 120, 10] ++ [27, 91, 48, 109, 99, 10]) :=
  ⟨⟨0, true, false, false, false, 0⟩, rfl⟩

/-- Values of a report with counters of ten digits. -/
def exColumns : List Text :=
  [10, 5, 5, 3, 6, 9, 4, 10, 9, 3, 3, 2, 1, 1, 3, 10, 10, 10, 4].map fun n => List.replicate n 49

/-- C73 is false for reports: values with 108 characters together (a run of several weeks, some 10^9 conflicts and
clauses) do not fit, the header is written beyond the end of its buffer. -/
theorem C73_report_overflow :
    size exColumns = 108 ∧ ∃ s : State, s.print (.report false 45 exColumns) = none :=
  ⟨by decide, ⟨0, false, false, false, false, 0⟩, by decide +kernel⟩

/-- A message of a phase and an empty line: `c [r-3] x`. -/
example : (State.mk 1 false true false true 0).prints [.phase [114] 3 [120], .line] =
    some [99, 32, 91, 114, 45, 51, 93, 32, 120, 10, 99, 10] := by decide +kernel

/-- The hypotheses are met by typical calls. -/
example : (∀ c ∈ [Call.section [115], .message [104, 105], .phase [114] 3 [120],
    .report false 45 (List.replicate 19 [49, 50])], OneLine c ∧ Fits c) := by
  intro c hc
  simp only [List.mem_cons, List.not_mem_nil, or_false] at hc
  rcases hc with rfl | rfl | rfl | rfl
  · exact ⟨by show 10 ∉ _; decide, trivial⟩
  · exact ⟨by show 10 ∉ _; decide, trivial⟩
  · exact ⟨⟨by decide, by decide⟩, trivial⟩
  · exact ⟨⟨by decide, by decide⟩, rfl, by decide, by decide⟩

end Verif.Props
