import Verif.Proofs.ProofWriter
/-
C17, C18, C19: what a proof checker reads is what the solver wrote.
The decoders `readBinary` and `readText` are in `Verif/Spec/ProofFormat.lean`.
-/
namespace Verif.Props
open Verif.Spec Verif.Spec.ProofFormat Verif.Model Verif.Model.Proof
open Verif.Proofs.ProofWriter (out Legal)

/-- Specification: the clause of external literals which internal literals stand for
(variable `i` is called `ext i` outside, odd literals are negative). -/
def outside (ext : Nat → Int) (c : List Nat) : List Int :=
  c.map fun l => if l % 2 = 1 then - ext (l / 2) else ext (l / 2)

/-- Specification: the proof lines a request has to produce.  Shrinking first adds the clause
without the removed literal and without the other root-falsified ones, then
deletes the old clause. -/
def wanted (ext : Nat → Int) : Op → List ProofLine
  | .addInternal c => [.add (outside ext c)]
  | .addEmpty => [.add []]
  | .deleteInternal c => [.delete (outside ext c)]
  | .deleteExternal c => [.delete c]
  | .shrink c remove keep falsified =>
    [.add (outside ext (c.filter fun l => l ≠ remove ∧ (l = keep ∨ falsified l = false))),
     .delete (outside ext c)]

/-- Literals of a proof line. -/
def lineLits : ProofLine → List Int
  | .add c => c
  | .delete c => c

/-- All literals requested are legal external literals: not zero and at most
`EXTERNAL_MAX_VAR = 2^30 - 1` in absolute value. -/
def LegalRequests (ext : Nat → Int) (ops : List Op) : Prop :=
  ∀ line ∈ ops.flatMap (wanted ext), ∀ l ∈ lineLits line, l ≠ 0 ∧ l.natAbs < 2 ^ 30

theorem wanted_eq (ext : Nat → Int) (op : Op) :
    wanted ext op = Verif.Proofs.ProofWriter.opLines ext op := by
  have h : ∀ c : List Nat, outside ext c = c.map (exportLiteral ext) := by
    intro c; apply List.map_congr_left; intro l _
    simp only [exportLiteral]
    by_cases h0 : ext (l / 2) = 0 <;> simp [h0]
  cases op with
  | shrink c remove keep falsified =>
    simp only [wanted, Verif.Proofs.ProofWriter.opLines, h]
    congr 4
    funext l
    by_cases h1 : l = remove <;> by_cases h2 : l = keep <;> cases falsified l <;> simp [h1, h2]
  | _ => simp [wanted, Verif.Proofs.ProofWriter.opLines, h]

theorem wanted_fun (ext : Nat → Int) : wanted ext = Verif.Proofs.ProofWriter.opLines ext :=
  funext (wanted_eq ext)

/-- C17: the binary proof file decodes to exactly the requested lines. -/
theorem C17_binary_proof_decodes (flushproof : Bool) (ext : Nat → Int) (ops : List Op)
    (h : LegalRequests ext ops) :
    readBinary (run true flushproof ext ops) = some (ops.flatMap (wanted ext)) := by
  rw [Verif.Proofs.ProofWriter.run_eq, wanted_fun]
  apply Verif.Proofs.ProofWriter.readBinary_encode
  unfold LegalRequests at h; rw [wanted_fun] at h
  intro l hl x hx
  exact h l hl x (by cases l <;> exact hx)

/-- C17, size: writing one legal literal in binary format appends at most five bytes. -/
theorem C17_at_most_five_bytes (p : Proof) (l : Int) (h : l ≠ 0 ∧ l.natAbs < 2 ^ 30) :
    (out (p.writeNum ((2 * l.natAbs + (if l < 0 then 1 else 0)) % 2 ^ 32))).length
      ≤ (out p).length + 5 := by
  rw [(Verif.Proofs.ProofWriter.writeNum_spec _ _).1, List.length_append]
  have := Verif.Proofs.ProofWriter.litNum_lt (l := l) h
  have := Verif.Proofs.ProofWriter.numBytes_length _ 5
    (Nat.lt_of_lt_of_le this (by norm_num)) (by norm_num)
  unfold Verif.Proofs.ProofWriter.litNum at this
  omega

/-- C18: the text proof file parses to exactly the requested lines. -/
theorem C18_text_proof_decodes (flushproof : Bool) (ext : Nat → Int) (ops : List Op)
    (h : LegalRequests ext ops) :
    readText (run false flushproof ext ops) = some (ops.flatMap (wanted ext)) := by
  rw [Verif.Proofs.ProofWriter.run_eq, wanted_fun]
  apply Verif.Proofs.ProofWriter.readText_encode
  unfold LegalRequests at h; rw [wanted_fun] at h
  intro l hl x hx
  exact (h l hl x (by cases l <;> exact hx)).1

/-- C19: buffering is invisible.  Whatever was in the file and in the buffer, and whatever the
capacity and the flush option are, writing a sequence of characters and releasing leaves the old
file content, the old buffer content and the written characters, in order. -/
theorem C19_buffer_is_transparent (p : Proof) (cs : List Nat) (h : ∀ c ∈ cs, c < 256) :
    (cs.foldl writeChar p).release = p.file ++ p.chars ++ cs := by
  rw [Verif.Proofs.ProofWriter.release_eq]
  exact (Verif.Proofs.ProofWriter.foldWrite_spec cs p h).1

/-- C19: flushing in between never changes the bytes that end up in the file. -/
theorem C19_flush_is_invisible (p : Proof) : p.flushBuffer.release = p.release := by
  rw [Verif.Proofs.ProofWriter.release_eq, Verif.Proofs.ProofWriter.release_eq,
    Verif.Proofs.ProofWriter.out_flush]

/-- C19: two writers which differ in capacity and flush option produce the same file. -/
theorem C19_capacity_is_invisible (binary f f' : Bool) (ext : Nat → Int) (cap cap' : Nat)
    (ops : List Op) :
    (ops.foldl step { init binary f ext with capacity := cap }).release =
    (ops.foldl step { init binary f' ext with capacity := cap' }).release := by
  have key : ∀ (ops : List Op) (p : Proof), p.line = [] →
      out (ops.foldl step p) = out p ++
        (ops.flatMap (Verif.Proofs.ProofWriter.opLines p.exported)).flatMap
          (Verif.Proofs.ProofWriter.encode p.binary) := by
    intro ops
    induction ops with
    | nil => simp
    | cons op ops ih =>
      intro p hl
      have h := Verif.Proofs.ProofWriter.step_spec p op hl
      rw [List.foldl_cons, ih _ h.2.2, h.1, h.2.1.1, h.2.1.2.2]
      simp
  rw [Verif.Proofs.ProofWriter.release_eq, Verif.Proofs.ProofWriter.release_eq, key _ _ rfl,
    key _ _ rfl]
  simp [init, out]

/-- C19: at every moment the buffer holds at most its capacity (no overflow) and the file content
at that moment is a prefix of the final file (nothing already written is changed). -/
theorem C19_prefix_and_no_overflow (binary f : Bool) (ext : Nat → Int) (ops later : List Op) :
    (ops.foldl step (init binary f ext)).chars.length ≤ 2 ^ 20 ∧
    (ops.foldl step (init binary f ext)).file <+: run binary f ext (ops ++ later) := by
  constructor
  · have h := (Verif.Proofs.ProofWriter.later_steps (init binary f ext) ops).2
    have := (h.2 ⟨by simp [init], by simp [init]⟩).2
    rw [h.1] at this
    exact this
  · rw [run, Verif.Proofs.ProofWriter.release_eq, List.foldl_append]
    obtain ⟨bs, hb⟩ := (Verif.Proofs.ProofWriter.later_steps
      (ops.foldl step (init binary f ext)) later).1
    unfold out
    rw [hb, List.append_assoc]
    exact List.prefix_append _ _

/-- C19: with the option `flushproof` the file is complete after every request, so a crash at that
point loses no line. -/
theorem C19_flushproof_complete (binary : Bool) (ext : Nat → Int) (ops : List Op) :
    (ops.foldl step (init binary true ext)).file = run binary true ext ops := by
  have key : ∀ (ops : List Op) (p : Proof), p.line = [] → p.flushproof = true → p.chars = [] →
      (ops.foldl step p).chars = [] := by
    intro ops
    induction ops with
    | nil => intro p _ _ h; exact h
    | cons op ops ih =>
      intro p hl hf hc
      have h := Verif.Proofs.ProofWriter.step_spec p op hl
      exact ih _ h.2.2 (by rw [h.2.1.2.1, hf]) (Verif.Proofs.ProofWriter.step_flushed p op hl hf)
  rw [run, Verif.Proofs.ProofWriter.release_eq]
  unfold out
  rw [key ops _ rfl rfl rfl, List.append_nil]

/-! The hypotheses are met by a non trivial run; `ext` maps variable `i` to `i + 5`. -/

def exampleOps : List Op :=
  [.addInternal [0, 3], .deleteExternal [-5, 1000000000], .shrink [1, 2, 7] 2 1 (fun l => l == 7),
   .deleteInternal [0, 3], .addEmpty]

example : LegalRequests (fun i => (i : Int) + 5) exampleOps := by
  unfold LegalRequests exampleOps; decide

example : readText (run false false (fun i => (i : Int) + 5) exampleOps) =
    some [.add [5, -6], .delete [-5, 1000000000], .add [-5], .delete [-5, 6, -8],
      .delete [5, -6], .add []] :=
  C18_text_proof_decodes false _ exampleOps (by unfold LegalRequests exampleOps; decide)

end Verif.Props
