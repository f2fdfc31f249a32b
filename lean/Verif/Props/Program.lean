import Verif.Proofs.File
import Verif.Model.Application

/-!
# The program: exit codes (C54) and input files (C56)
-/

namespace Verif.Props

open Verif.Spec Verif.Model

/-! ## C56 -/

/-- A path is read through a pipe exactly if name and content of the file are those of a compressed format whose
program is found and can be started. -/
theorem C56_pipe (w : File.System) (path cmd : List Nat) {dirs : List (List Nat)} (hd : SearchPath w.path dirs) :
    File.openToRead w path = .pipe cmd ↔ ∃ f ∈ formats,
      (w.readable path = true ∧ ∃ content, w.content path = some content ∧ f.Matches path content) ∧
      (∃ d ∈ dirs, w.readable (d ++ chars "/" ++ f.program) = true) ∧ w.popen (f.command path) = true ∧
      cmd = f.command path := by
  have hx : ∀ f : Format, Proofs.File.Works w path f ↔
      (w.readable path = true ∧ ∃ content, w.content path = some content ∧ f.Matches path content) ∧
      (∃ d ∈ dirs, w.readable (d ++ chars "/" ++ f.program) = true) ∧ w.popen (f.command path) = true := by
    intro f
    unfold Proofs.File.Works
    rw [Proofs.File.findExecutable_iff hd]
    have : ∀ d, d ++ chars "/" ++ f.program = d ++ 47 :: f.program := fun d => by
      rw [List.append_assoc]; rfl
    simp only [this]
  unfold File.openToRead
  rw [Proofs.File.pipes_eq]
  rcases Proofs.File.openLoop_cases (w := w) (path := path) formats (fun f hf => hf) with ⟨f, hf, h1, h2⟩ | ⟨h1, h2⟩
  · rw [h2]
    constructor
    · intro h
      cases h
      obtain ⟨i1, i2, i3⟩ := (hx f).1 h1
      exact ⟨f, hf, i1, i2, i3, rfl⟩
    · rintro ⟨g, hg, i1, i2, i3, rfl⟩
      obtain ⟨⟨-, c, -, hs, -⟩, -⟩ := h1
      obtain ⟨-, c', -, hs', -⟩ := i1
      rw [Proofs.File.suffix_unique f hf g hg hs hs']
  · rw [h2]
    constructor
    · intro h
      split at h <;> cases h
    · rintro ⟨g, hg, i1, i2, i3, rfl⟩
      exact absurd ((hx g).2 ⟨i1, i2, i3⟩) (h1 g hg)

/-- Otherwise it is read as it is, if it can be opened. -/
theorem C56_plain (w : File.System) (path : List Nat) (h : ∀ cmd, File.openToRead w path ≠ .pipe cmd) :
    File.openToRead w path = if (w.content path).isSome then .plain else .failed := by
  unfold File.openToRead at h ⊢
  rw [Proofs.File.pipes_eq] at h ⊢
  rcases Proofs.File.openLoop_cases (w := w) (path := path) formats (fun f hf => hf) with ⟨f, -, -, h2⟩ | ⟨-, h2⟩
  · exact absurd h2 (h _)
  · exact h2

/-- In particular the memory allocated for the command is sufficient. -/
theorem C56_no_overflow (w : File.System) (path : List Nat) : File.openToRead w path ≠ .overflow := by
  by_cases h : ∀ cmd, File.openToRead w path ≠ .pipe cmd
  · rw [C56_plain w path h]
    split <;> intro h' <;> cases h'
  · intro h'
    apply h
    intro cmd
    rw [h']
    intro h'; cases h'

/-- Builds without pipes refuse exactly the files in a compressed format. -/
theorem C56_refused (w : File.System) (path : List Nat) : File.looksLikeCompressed w path = true ↔
    ∃ f ∈ formats, ∃ content, w.content path = some content ∧ f.Matches path content := by
  unfold File.looksLikeCompressed
  rw [Proofs.File.pipes_eq, List.any_map, List.any_eq_true]
  constructor
  · rintro ⟨f, hf, h⟩
    rw [Function.comp_apply, Bool.and_eq_true, Proofs.File.hasSuffix_iff, Proofs.File.matchSignature_iff] at h
    obtain ⟨h1, c, h2, h3⟩ := h
    exact ⟨f, hf, c, h2, h1, h3⟩
  · rintro ⟨f, hf, c, h2, h1, h3⟩
    refine ⟨f, hf, ?_⟩
    rw [Function.comp_apply, Bool.and_eq_true, Proofs.File.hasSuffix_iff, Proofs.File.matchSignature_iff]
    exact ⟨h1, c, h2, h3⟩

/-- A system with two files and `gzip` and `xz`. -/
def exSystem : File.System where
  readable p := p == chars "a b.cnf.gz" || p == chars "b.gz" || p == chars "/usr/bin/gzip" || p == chars "/usr/bin/xz"
  content p := if p = chars "a b.cnf.gz" then some [0x1F, 0x8B, 8, 0] else if p = chars "b.gz" then some (chars "p cnf 0 0") else none
  path := some (chars "/bin:/usr/bin")
  popen _ := true

example : SearchPath exSystem.path [chars "/bin", chars "/usr/bin"] := by
  refine .inr ⟨chars "/bin:/usr/bin", rfl, ?_⟩
  decide

/-- A compressed file.  The name is not quoted for the shell which executes the command. -/
example : File.openToRead exSystem (chars "a b.cnf.gz") = .pipe (chars "gzip -c -d a b.cnf.gz") := by decide

/-- The suffix but not the signature; a file that does not exist. -/
example : File.openToRead exSystem (chars "b.gz") = .plain := by decide
example : File.openToRead exSystem (chars "c.xz") = .failed := by decide

/-! ## C54 -/

/-- What the status line for an answer says. -/
inductive SaysAnswer : Int → String → Prop
  | satisfiable : SaysAnswer 10 "s SATISFIABLE"
  | unsatisfiable : SaysAnswer 20 "s UNSATISFIABLE"
  | unknown : SaysAnswer 0 "s UNKNOWN"

/-- The program got as far as solving. -/
def Solves (s : Application.Setup) : Prop :=
  s.information = false ∧ s.optionsOk = true ∧ s.proofOk = true ∧ s.inputOk = true

theorem solves_run {s : Application.Setup} (h : Solves s) : Application.run s =
    match s.output with
    | .none => ((Application.run { s with output := .none }).1, s.answer)
    | .stdout => ([.dimacs], s.answer)
    | .file writable => ((Application.run { s with output := .none }).1, if writable then s.answer else 0) := by
  obtain ⟨h1, h2, h3, h4⟩ := h
  unfold Application.run
  simp only [h1, h2, h3, h4]
  cases ho : s.output with
  | none => simp
  | stdout => simp
  | file w => cases w <;> simp

/-- The exit code is the answer of the solver.  Partial: with `-o` only if the file can be written. -/
theorem C54_exit_partial {s : Application.Setup} (h : Solves s) (ho : s.output ≠ .file false) :
    (Application.main s).2 = s.answer := by
  unfold Application.main
  rw [solves_run h]
  cases hs : s.output with
  | none => rfl
  | stdout => rfl
  | file w =>
    cases w with
    | true => rfl
    | false => exact absurd hs ho

/-- Without an answer the exit code is 0 (only information was asked for) or 1. -/
theorem C54_exit_unsolved {s : Application.Setup} (h : ¬ Solves s) :
    (Application.main s) = ([], if s.information then 0 else 1) := by
  unfold Application.main Application.run
  cases h1 : s.information with
  | true => simp
  | false =>
    cases h2 : s.optionsOk with
    | false => simp
    | true =>
      cases h3 : s.proofOk with
      | false => simp
      | true =>
        cases h4 : s.inputOk with
        | false => simp
        | true => exact absurd ⟨h1, h2, h3, h4⟩ h

/-- The exit codes 10 and 20 are never wrong. -/
theorem C54_exit_sound {s : Application.Setup} {code : Int} (hc : code = 10 ∨ code = 20)
    (h : (Application.main s).2 = code) : Solves s ∧ s.answer = code := by
  by_cases hs : Solves s
  · refine ⟨hs, ?_⟩
    unfold Application.main at h
    rw [solves_run hs] at h
    cases ho : s.output with
    | none => rw [ho] at h; exact h
    | stdout => rw [ho] at h; exact h
    | file w =>
      rw [ho] at h
      cases w with
      | true => exact h
      | false =>
        have h : (0 : Int) = code := h
        omega
  · rw [C54_exit_unsolved hs] at h
    have h : (if s.information = true then (0 : Int) else 1) = code := h
    split at h <;> omega

/-- Exactly one status line is printed, that of the answer, unless the formula is written to standard output. -/
theorem C54_status {s : Application.Setup} (h : Solves s) (ha : s.answer = 0 ∨ s.answer = 10 ∨ s.answer = 20)
    (ho : s.output ≠ .stdout) : ∃ text rest, SaysAnswer s.answer text ∧
      (Application.main s).1 = .status text :: rest ∧ ∀ t, .status t ∉ rest := by
  have key : ∃ text rest, SaysAnswer s.answer text ∧
      (Application.run { s with output := .none }).1 = .status text :: rest ∧ ∀ t, .status t ∉ rest := by
    obtain ⟨h1, h2, h3, h4⟩ := h
    unfold Application.run
    simp only [h1, h2, h3, h4]
    rcases ha with ha | ha | ha <;> rw [ha]
    · exact ⟨_, [], .unknown, by simp, by simp⟩
    · refine ⟨_, if s.witness then [.witness] else [], .satisfiable, by simp, fun t => ?_⟩
      split <;> simp
    · exact ⟨_, [], .unsatisfiable, by simp, by simp⟩
  unfold Application.main
  rw [solves_run h]
  cases hs : s.output with
  | none => exact key
  | stdout => exact absurd hs ho
  | file w => exact key

/-- A satisfiable formula solved. -/
def exSetup : Application.Setup := ⟨false, true, true, true, 10, .none, true⟩

example : Solves exSetup ∧ Application.main exSetup = ([.status "s SATISFIABLE", .witness], 10) := by
  refine ⟨⟨rfl, rfl, rfl, rfl⟩, by decide⟩

/-- If the file given with `-o` cannot be written the status line says satisfiable but the exit
code is 0: `ERROR` returns `false` from a function which returns the exit code. -/
theorem C54_wrong_exit_code : ∃ s : Application.Setup, Solves s ∧ s.answer = 10 ∧
    Application.main s = ([.status "s SATISFIABLE", .witness], 0) :=
  ⟨{ exSetup with output := .file false }, ⟨rfl, rfl, rfl, rfl⟩, rfl, by decide⟩

end Verif.Props
