import Verif.Spec.ProofFormat
import Verif.Model.ProofWriter
import Mathlib.Tactic.Ring
import Mathlib.Tactic.Linarith

namespace Verif.Proofs.ProofWriter
open Verif.Model Verif.Model.Proof Verif.Spec Verif.Spec.ProofFormat

/-- all bytes handed to the writer so far -/
def out (p : Proof) : List Nat := p.file ++ p.chars

theorem release_eq (p : Proof) : p.release = out p := by
  unfold release flushBuffer out
  split
  · next h => simp [List.length_eq_zero_iff.mp h]
  · rfl

@[simp] theorem out_flush (p : Proof) : out p.flushBuffer = out p := by
  unfold flushBuffer out; split <;> simp

@[simp] theorem out_writeChar (p : Proof) (c : Nat) : out (p.writeChar c) = out p ++ [c % 256] := by
  unfold writeChar
  dsimp only
  have : ∀ q : Proof, out { q with chars := q.chars ++ [c % 256] } = out q ++ [c % 256] := by
    intro q; simp [out]
  rw [this]
  split <;> simp

/-- The fields that writing characters never touches. -/
def Same (p q : Proof) : Prop :=
  p.binary = q.binary ∧ p.flushproof = q.flushproof ∧ p.exported = q.exported

theorem Same.rfl' (p : Proof) : Same p p := ⟨rfl, rfl, rfl⟩
theorem Same.trans {p q r : Proof} (h : Same p q) (h' : Same q r) : Same p r :=
  ⟨h.1.trans h'.1, h.2.1.trans h'.2.1, h.2.2.trans h'.2.2⟩

theorem same_flush (p : Proof) : Same p.flushBuffer p ∧ p.flushBuffer.line = p.line := by
  unfold flushBuffer; split <;> exact ⟨⟨rfl, rfl, rfl⟩, rfl⟩

theorem same_writeChar (p : Proof) (c : Nat) :
    Same (p.writeChar c) p ∧ (p.writeChar c).line = p.line := by
  unfold writeChar; dsimp only
  split
  · have := same_flush p
    exact ⟨⟨this.1.1, this.1.2.1, this.1.2.2⟩, this.2⟩
  · exact ⟨⟨rfl, rfl, rfl⟩, rfl⟩

/-- bytes of one number -/
def numBytes (x : Nat) : List Nat :=
  if _h : x / 128 ≠ 0 then (x % 128 + 128) :: numBytes (x / 128) else [x]
termination_by x
decreasing_by omega

theorem writeNum_spec (p : Proof) (x : Nat) :
    out (p.writeNum x) = out p ++ numBytes x ∧ Same (p.writeNum x) p ∧
      (p.writeNum x).line = p.line := by
  induction x using Nat.strongRecOn generalizing p with
  | ind x ih =>
    unfold writeNum numBytes
    by_cases h : x / 128 ≠ 0
    · simp only [h, dif_pos, ne_eq, not_false_eq_true]
      have hlt : x / 128 < x := by omega
      obtain ⟨h1, h2, h3⟩ := ih _ hlt (p.writeChar (x % 128 + 128))
      have hw := same_writeChar p (x % 128 + 128)
      refine ⟨?_, h2.trans hw.1, h3.trans hw.2⟩
      rw [h1, out_writeChar]
      have : (x % 128 + 128) % 256 = x % 128 + 128 := by omega
      simp [this]
    · simp only [h, dif_neg, not_false_eq_true]
      have hw := same_writeChar p x
      refine ⟨?_, hw.1, hw.2⟩
      rw [out_writeChar]
      have : x % 256 = x := by omega
      simp [this]

theorem readNum_numBytes (x : Nat) (rest : List Nat) :
    readNum (numBytes x ++ rest) = some (x, rest) := by
  induction x using Nat.strongRecOn with
  | ind x ih =>
    unfold numBytes
    by_cases h : x / 128 ≠ 0
    · simp only [h, dif_pos, ne_eq, not_false_eq_true, List.cons_append]
      have := ih (x / 128) (by omega)
      simp only [readNum, show ¬ (x % 128 + 128 < 128) by omega, if_false, this, Option.map_some]
      congr 2; omega
    · simp only [h, dif_neg, not_false_eq_true, List.cons_append, List.nil_append]
      simp only [readNum, show x < 128 by omega, if_true]

theorem numBytes_length (x : Nat) (k : Nat) (h : x < 128 ^ k) (hk : 0 < k) :
    (numBytes x).length ≤ k := by
  induction k generalizing x with
  | zero => omega
  | succ k ih =>
    unfold numBytes
    by_cases hx : x / 128 ≠ 0
    · simp only [hx, dif_pos, ne_eq, not_false_eq_true, List.length_cons]
      have : x / 128 < 128 ^ k := by
        apply Nat.div_lt_of_lt_mul; rw [pow_succ] at h; omega
      have hk' : 0 < k := by
        rcases Nat.eq_zero_or_pos k with rfl | h0
        · simp at this; omega
        · exact h0
      have := ih (x / 128) this hk'
      omega
    · simp only [hx, dif_neg, not_false_eq_true, List.length_singleton]; omega

def litNum (l : Int) : Nat := (2 * l.natAbs + (if l < 0 then 1 else 0)) % 2 ^ 32

def Legal (l : Int) : Prop := l ≠ 0 ∧ l.natAbs < 2 ^ 30

theorem litNum_eq {l : Int} (h : Legal l) :
    litNum l = 2 * l.natAbs + (if l < 0 then 1 else 0) := by
  unfold litNum
  apply Nat.mod_eq_of_lt
  have := h.2
  split <;> omega

theorem litNum_lt {l : Int} (h : Legal l) : litNum l < 2 ^ 31 := by
  rw [litNum_eq h]; have := h.2; split <;> omega

theorem litNum_pos {l : Int} (h : Legal l) : litNum l ≠ 0 := by
  rw [litNum_eq h]; have := h.1; split <;> omega

theorem numToLit_litNum {l : Int} (h : Legal l) : numToLit (litNum l) = l := by
  rw [litNum_eq h]; unfold numToLit
  by_cases hl : l < 0
  · simp only [hl, if_true]
    rw [if_neg (by omega)]; omega
  · simp only [hl, if_false]
    rw [if_pos (by omega)]; omega

def binBytes (ls : List Int) : List Nat := (ls.flatMap fun l => numBytes (litNum l)) ++ [0]

theorem readLits_binBytes (ls : List Int) (hl : ∀ l ∈ ls, Legal l) (rest : List Nat) :
    readLits (binBytes ls ++ rest) = some (ls, rest) := by
  induction ls with
  | nil =>
    unfold readLits
    have : readNum (binBytes [] ++ rest) = some (0, rest) := by simp [binBytes, readNum]
    split <;> simp_all
  | cons l ls ih =>
    have ih := ih (fun x hx => hl x (by simp [hx]))
    have hleg := hl l (by simp)
    have hn : readNum (binBytes (l :: ls) ++ rest) = some (litNum l, binBytes ls ++ rest) := by
      have := readNum_numBytes (litNum l) (binBytes ls ++ rest)
      rw [← this]; simp [binBytes]
    have hne := litNum_pos hleg
    unfold readLits
    split
    · simp_all
    · simp_all
    · next n r _ hr =>
      rw [hn] at hr
      simp only [Option.some.injEq, Prod.mk.injEq] at hr
      obtain ⟨rfl, rfl⟩ := hr
      simp [ih, numToLit_litNum hleg]

theorem foldBin_spec (ls : List Int) (p : Proof) :
    let q := ls.foldl (fun p elit =>
      p.writeNum ((2 * elit.natAbs + (if elit < 0 then 1 else 0)) % 2 ^ 32)) p
    out q = out p ++ (ls.flatMap fun l => numBytes (litNum l)) ∧ Same q p ∧ q.line = p.line := by
  induction ls generalizing p with
  | nil => simp [Same.rfl']
  | cons l ls ih =>
    have h := writeNum_spec p (litNum l)
    have ih := ih (p.writeNum (litNum l))
    dsimp only at ih ⊢
    rw [List.foldl_cons]
    refine ⟨?_, ih.2.1.trans h.2.1, ih.2.2.trans h.2.2⟩
    have := ih.1
    unfold litNum at this h
    rw [this, h.1]; simp [litNum]

theorem printBinaryLine_spec (p : Proof) :
    out p.printBinaryLine = out p ++ binBytes p.line ∧ Same p.printBinaryLine p := by
  unfold printBinaryLine
  have h := foldBin_spec p.line p
  dsimp only at h
  have hw := same_writeChar (p.line.foldl (fun p elit =>
      p.writeNum ((2 * elit.natAbs + (if elit < 0 then 1 else 0)) % 2 ^ 32)) p) 0
  refine ⟨?_, hw.1.trans h.2.1⟩
  rw [out_writeChar, h.1]; simp [binBytes]

/-! text format -/

def litText (l : Int) : List Nat := (if l < 0 then [45] else []) ++ digits l.natAbs []

def textBytes (ls : List Int) : List Nat := (ls.flatMap fun l => litText l ++ [32]) ++ [48, 10]

theorem digits_append (n : Nat) (acc : List Nat) : digits n acc = digits n [] ++ acc := by
  induction n using Nat.strongRecOn generalizing acc with
  | ind n ih =>
    unfold digits
    by_cases h : n = 0
    · simp [h]
    · simp only [h, dif_neg, not_false_eq_true]
      rw [ih (n / 10) (by omega) (_ :: acc), ih (n / 10) (by omega) [_]]
      simp

theorem digits_isDigit (n : Nat) : ∀ b ∈ digits n [], 48 ≤ b ∧ b ≤ 57 := by
  induction n using Nat.strongRecOn with
  | ind n ih =>
    unfold digits
    by_cases h : n = 0
    · simp [h]
    · simp only [h, dif_neg, not_false_eq_true]
      rw [digits_append]
      intro b hb
      simp only [List.mem_append, List.mem_singleton] at hb
      rcases hb with hb | rfl
      · exact ih _ (by omega) b hb
      · omega

theorem digits_ne_nil {n : Nat} (h : n ≠ 0) : digits n [] ≠ [] := by
  unfold digits; simp only [h, dif_neg, not_false_eq_true]; rw [digits_append]; simp

theorem readNat_append (a b : List Nat) (acc : Nat) :
    readNat acc (a ++ b) = (readNat acc a).bind fun n => readNat n b := by
  induction a generalizing acc with
  | nil => simp [readNat]
  | cons x xs ih => simp only [List.cons_append, readNat]; split <;> simp [ih]

theorem readNat_digits (n : Nat) : readNat 0 (digits n []) = some n := by
  induction n using Nat.strongRecOn with
  | ind n ih =>
    unfold digits
    by_cases h : n = 0
    · simp [h, readNat]
    · simp only [h, dif_neg, not_false_eq_true]
      rw [digits_append, readNat_append, ih (n / 10) (by omega)]
      simp only [Option.bind_some, readNat]
      rw [if_pos (by omega)]
      congr 1; omega

theorem readInt_litText {l : Int} (h : l ≠ 0) : readInt (litText l) = some l := by
  have hn : l.natAbs ≠ 0 := by omega
  have hne := digits_ne_nil hn
  have hd := readNat_digits l.natAbs
  have hdig := digits_isDigit l.natAbs
  cases hds : digits l.natAbs [] with
  | nil => exact absurd hds hne
  | cons b rest =>
    rw [hds] at hd hdig
    by_cases hl : l < 0
    · simp only [litText, hl, if_true, hds, List.singleton_append]
      simp only [readInt, hd, Option.map_some]
      congr 1; omega
    · have hb := hdig b (by simp)
      have h45 : b ≠ 45 := by omega
      simp only [litText, hl, if_false, hds, List.nil_append]
      unfold readInt
      split
      · simp_all
      · simp_all
      · simp only [hd, Option.map_some]
        congr 1; omega

theorem litText_bytes (l : Int) : ∀ b ∈ litText l, b = 45 ∨ (48 ≤ b ∧ b ≤ 57) := by
  intro b hb
  simp only [litText, List.mem_append] at hb
  rcases hb with hb | hb
  · split at hb <;> simp_all
  · exact Or.inr (digits_isDigit _ b hb)

theorem foldWrite_spec (cs : List Nat) (p : Proof) (h : ∀ c ∈ cs, c < 256) :
    out (cs.foldl writeChar p) = out p ++ cs ∧ Same (cs.foldl writeChar p) p ∧
      (cs.foldl writeChar p).line = p.line := by
  induction cs generalizing p with
  | nil => simp [Same.rfl']
  | cons c cs ih =>
    have hw := same_writeChar p c
    have := ih (p.writeChar c) (fun x hx => h x (by simp [hx]))
    rw [List.foldl_cons]
    refine ⟨?_, this.2.1.trans hw.1, this.2.2.trans hw.2⟩
    rw [this.1, out_writeChar, Nat.mod_eq_of_lt (h c (by simp))]; simp

theorem writeTextLit_spec (p : Proof) (l : Int) :
    out (p.writeTextLit l) = out p ++ (litText l ++ [32]) ∧ Same (p.writeTextLit l) p ∧
      (p.writeTextLit l).line = p.line := by
  unfold writeTextLit
  have key : ∀ q : Proof, out (((digits l.natAbs []).foldl writeChar q).writeChar 32) =
      out q ++ (digits l.natAbs [] ++ [32]) ∧
      Same (((digits l.natAbs []).foldl writeChar q).writeChar 32) q ∧
      (((digits l.natAbs []).foldl writeChar q).writeChar 32).line = q.line := by
    intro q
    have h := foldWrite_spec (digits l.natAbs []) q
      (fun c hc => by have := digits_isDigit _ c hc; omega)
    have hw := same_writeChar ((digits l.natAbs []).foldl writeChar q) 32
    refine ⟨?_, hw.1.trans h.2.1, hw.2.trans h.2.2⟩
    rw [out_writeChar, h.1]; simp
  dsimp only
  by_cases hl : l < 0
  · simp only [hl, if_true]
    have hk := key (p.writeChar 45)
    have hw := same_writeChar p 45
    refine ⟨?_, hk.2.1.trans hw.1, hk.2.2.trans hw.2⟩
    rw [hk.1, out_writeChar]; simp [litText, hl]
  · simp only [hl, if_false]
    have hk := key p
    refine ⟨?_, hk.2.1, hk.2.2⟩
    rw [hk.1]; simp [litText, hl]

theorem foldText_spec (ls : List Int) (p : Proof) :
    out (ls.foldl writeTextLit p) = out p ++ (ls.flatMap fun l => litText l ++ [32]) ∧
      Same (ls.foldl writeTextLit p) p := by
  induction ls generalizing p with
  | nil => simp [Same.rfl']
  | cons l ls ih =>
    have h := writeTextLit_spec p l
    have ih := ih (p.writeTextLit l)
    rw [List.foldl_cons]
    refine ⟨?_, ih.2.trans h.2.1⟩
    rw [ih.1, h.1]; simp

theorem printNonBinaryLine_spec (p : Proof) :
    out p.printNonBinaryLine = out p ++ textBytes p.line ∧ Same p.printNonBinaryLine p := by
  unfold printNonBinaryLine
  have h := foldText_spec p.line p
  have h1 := same_writeChar (p.line.foldl writeTextLit p) 48
  have h2 := same_writeChar ((p.line.foldl writeTextLit p).writeChar 48) 10
  refine ⟨?_, h2.1.trans (h1.1.trans h.2)⟩
  rw [out_writeChar, out_writeChar, h.1]; simp [textBytes]

def lineBytes (b : Bool) (ls : List Int) : List Nat := if b then binBytes ls else textBytes ls

theorem printLine_spec (p : Proof) :
    out p.printLine = out p ++ lineBytes p.binary p.line ∧ Same p.printLine p ∧
      p.printLine.line = [] := by
  unfold printLine
  dsimp only
  have key : ∀ q : Proof, out q = out p ++ lineBytes p.binary p.line → Same q p →
      let r := (if q.flushproof then ({ q with line := [] } : Proof).flushBuffer
        else { q with line := [] })
      out r = out p ++ lineBytes p.binary p.line ∧ Same r p ∧ r.line = [] := by
    intro q hq hs
    dsimp only
    split
    · have := same_flush { q with line := [] }
      refine ⟨by rw [out_flush]; exact hq, this.1.trans hs, this.2⟩
    · exact ⟨hq, hs, rfl⟩
  by_cases hb : p.binary
  · simp only [hb, if_true]
    have h := printBinaryLine_spec p
    have := key p.printBinaryLine (by rw [h.1]; simp [lineBytes, hb]) h.2
    simpa [hb] using this
  · simp only [hb, if_false]
    have h := printNonBinaryLine_spec p
    have := key p.printNonBinaryLine (by rw [h.1]; simp [lineBytes, hb]) h.2
    simpa [hb] using this

/-- bytes of one proof line -/
def encode (b : Bool) : ProofLine → List Nat
  | .add ls => (if b then [0x61] else []) ++ lineBytes b ls
  | .delete ls => (if b then [100] else [100, 32]) ++ lineBytes b ls

theorem printAdded_spec (p : Proof) :
    out p.printAddedLine = out p ++ encode p.binary (.add p.line) ∧ Same p.printAddedLine p ∧
      p.printAddedLine.line = [] := by
  unfold printAddedLine
  by_cases hb : p.binary
  · simp only [hb, if_true]
    have hw := same_writeChar p 0x61
    have h := printLine_spec (p.writeChar 0x61)
    refine ⟨?_, h.2.1.trans hw.1, h.2.2⟩
    rw [h.1, out_writeChar, hw.1.1, hw.2]; simp [encode, hb]
  · have h := printLine_spec p
    simp only [hb]
    refine ⟨?_, h.2.1, h.2.2⟩
    have := h.1
    simp only [hb] at this
    simpa [encode] using this

theorem printDelete_spec (p : Proof) :
    out p.printDeleteLine = out p ++ encode p.binary (.delete p.line) ∧ Same p.printDeleteLine p ∧
      p.printDeleteLine.line = [] := by
  unfold printDeleteLine
  dsimp only
  have hw := same_writeChar p 100
  by_cases hb : p.binary
  · simp only [hw.1.1, hb, if_true]
    have h := printLine_spec (p.writeChar 100)
    refine ⟨?_, h.2.1.trans hw.1, h.2.2⟩
    rw [h.1, out_writeChar, hw.1.1, hw.2]; simp [encode, hb]
  · simp only [hw.1.1, hb]
    have hw2 := same_writeChar (p.writeChar 100) 32
    have h := printLine_spec ((p.writeChar 100).writeChar 32)
    refine ⟨?_, h.2.1.trans (hw2.1.trans hw.1), h.2.2⟩
    have e := h.1
    rw [out_writeChar, out_writeChar, hw2.1.1, hw2.2, hw.1.1, hw.2] at e
    simp only [hb] at e
    simpa [encode] using e

theorem importInternal_fold (ls : List Nat) (p : Proof) :
    ls.foldl importInternal p = { p with line := p.line ++ ls.map (exportLiteral p.exported) } := by
  induction ls generalizing p with
  | nil => simp
  | cons l ls ih => rw [List.foldl_cons, ih]; simp [importInternal]

theorem importExternal_fold (ls : List Int) (p : Proof) :
    ls.foldl importExternal p = { p with line := p.line ++ ls } := by
  induction ls generalizing p with
  | nil => simp
  | cons l ls ih => rw [List.foldl_cons, ih]; simp [importExternal]

/-- the lines a request stands for -/
def opLines (ex : Nat → Int) : Op → List ProofLine
  | .addInternal ls => [.add (ls.map (exportLiteral ex))]
  | .addEmpty => [.add []]
  | .deleteInternal ls => [.delete (ls.map (exportLiteral ex))]
  | .deleteExternal ls => [.delete ls]
  | .shrink ls remove keep falsified =>
    [.add ((ls.filter fun l => l ≠ remove && (l = keep || !falsified l)).map (exportLiteral ex)),
     .delete (ls.map (exportLiteral ex))]

theorem step_spec (p : Proof) (op : Op) (hl : p.line = []) :
    out (p.step op) = out p ++ (opLines p.exported op).flatMap (encode p.binary) ∧
      Same (p.step op) p ∧ (p.step op).line = [] := by
  have A : ∀ ls : List Int, ∀ q : Proof, q = { p with line := ls } →
      out q.printAddedLine = out p ++ encode p.binary (.add ls) ∧ Same q.printAddedLine p ∧
      q.printAddedLine.line = [] := by
    rintro ls q rfl
    have := printAdded_spec { p with line := ls }
    exact ⟨this.1, this.2.1, this.2.2⟩
  have D : ∀ ls : List Int, ∀ r q : Proof, q = { r with line := ls } →
      out q.printDeleteLine = out r ++ encode r.binary (.delete ls) ∧ Same q.printDeleteLine r ∧
      q.printDeleteLine.line = [] := by
    rintro ls r q rfl
    have := printDelete_spec { r with line := ls }
    exact ⟨this.1, this.2.1, this.2.2⟩
  cases op with
  | addInternal ls =>
    have := A (ls.map (exportLiteral p.exported)) (ls.foldl importInternal p)
      (by rw [importInternal_fold, hl]; simp)
    simpa [step, opLines] using this
  | addEmpty =>
    have := A [] p (by cases p; simp_all)
    simpa [step, opLines] using this
  | deleteInternal ls =>
    have := D (ls.map (exportLiteral p.exported)) p (ls.foldl importInternal p)
      (by rw [importInternal_fold, hl]; simp)
    simpa [step, opLines] using this
  | deleteExternal ls =>
    have := D ls p (ls.foldl importExternal p) (by rw [importExternal_fold, hl]; simp)
    simpa [step, opLines] using this
  | shrink ls remove keep falsified =>
    simp only [step, opLines]
    have hA := A ((ls.filter fun l => l ≠ remove && (l = keep || !falsified l)).map
      (exportLiteral p.exported))
      ((ls.filter fun l => l ≠ remove && (l = keep || !falsified l)).foldl importInternal p)
      (by rw [importInternal_fold, hl]; simp)
    generalize ((ls.filter fun l => l ≠ remove && (l = keep || !falsified l)).foldl
      importInternal p).printAddedLine = q at hA
    have hD := D (ls.map (exportLiteral p.exported)) q (ls.foldl importInternal q)
      (by rw [importInternal_fold, hA.2.2, hA.2.1.2.2]; simp)
    refine ⟨?_, hD.2.1.trans hA.2.1, hD.2.2⟩
    rw [hD.1, hA.1, hA.2.1.1]
    simp

theorem run_eq (b f : Bool) (ex : Nat → Int) (ops : List Op) :
    run b f ex ops = (ops.flatMap (opLines ex)).flatMap (encode b) := by
  have key : ∀ (ops : List Op) (p : Proof), p.line = [] →
      out (ops.foldl step p) = out p ++ (ops.flatMap (opLines p.exported)).flatMap (encode p.binary) := by
    intro ops
    induction ops with
    | nil => simp
    | cons op ops ih =>
      intro p hl
      have h := step_spec p op hl
      rw [List.foldl_cons, ih _ h.2.2, h.1, h.2.1.1, h.2.1.2.2]
      simp
  rw [run, release_eq, key _ _ rfl]
  simp [init, out]

/-! the buffer -/

/-- the buffer never overflows -/
def Fits (p : Proof) : Prop := 0 < p.capacity ∧ p.chars.length ≤ p.capacity

/-- `q` has been reached from `p` by writing -/
def Later (p q : Proof) : Prop :=
  (∃ bs, q.file = p.file ++ bs) ∧ q.capacity = p.capacity ∧ (Fits p → Fits q)

theorem Later.refl (p : Proof) : Later p p := ⟨⟨[], by simp⟩, rfl, id⟩
theorem Later.trans {p q r : Proof} (h : Later p q) (h' : Later q r) : Later p r := by
  obtain ⟨⟨a, ha⟩, hc, hf⟩ := h
  obtain ⟨⟨b, hb⟩, hc', hf'⟩ := h'
  exact ⟨⟨a ++ b, by rw [hb, ha]; simp⟩, hc'.trans hc, hf' ∘ hf⟩

theorem later_line (p : Proof) (ls : List Int) : Later p { p with line := ls } :=
  ⟨⟨[], by simp⟩, rfl, id⟩

theorem later_flush (p : Proof) : Later p p.flushBuffer := by
  unfold flushBuffer; split
  · exact .refl p
  · exact ⟨⟨p.chars, rfl⟩, rfl, fun h => ⟨h.1, by simp⟩⟩

theorem later_writeChar (p : Proof) (c : Nat) : Later p (p.writeChar c) := by
  unfold writeChar; dsimp only
  by_cases h : p.chars.length = p.capacity
  · simp only [h, if_true]
    refine ⟨(later_flush p).1, (later_flush p).2.1, fun hf => ?_⟩
    unfold flushBuffer
    have := hf.1
    rw [if_neg (by omega)]
    exact ⟨hf.1, by simp; omega⟩
  · simp only [h, if_false]
    exact ⟨⟨[], by simp⟩, rfl, fun hf => ⟨hf.1, by have := hf.2; simp; omega⟩⟩

theorem later_foldl {α : Type} (f : Proof → α → Proof) (hf : ∀ p a, Later p (f p a)) (as : List α)
    (p : Proof) : Later p (as.foldl f p) := by
  induction as generalizing p with
  | nil => exact .refl p
  | cons a as ih => exact (hf p a).trans (ih _)

theorem later_writeNum (p : Proof) (x : Nat) : Later p (p.writeNum x) := by
  induction x using Nat.strongRecOn generalizing p with
  | ind x ih =>
    unfold writeNum
    by_cases h : x / 128 ≠ 0
    · simp only [h, dif_pos, ne_eq, not_false_eq_true]
      exact (later_writeChar _ _).trans (ih _ (by omega) _)
    · simp only [h, dif_neg, not_false_eq_true]
      exact later_writeChar _ _

theorem later_printLine (p : Proof) : Later p p.printLine := by
  have h : Later p (if p.binary then p.printBinaryLine else p.printNonBinaryLine) := by
    split
    · exact (later_foldl _ (fun _ _ => later_writeNum _ _) _ _).trans (later_writeChar _ _)
    · refine ((later_foldl _ (fun q l => ?_) _ _).trans (later_writeChar _ _)).trans
        (later_writeChar _ _)
      unfold writeTextLit
      dsimp only
      refine Later.trans ?_ (later_writeChar _ _)
      refine Later.trans ?_ (later_foldl _ later_writeChar _ _)
      split
      · exact later_writeChar _ _
      · exact .refl _
  unfold printLine
  dsimp only
  refine h.trans ?_
  generalize (if p.binary then p.printBinaryLine else p.printNonBinaryLine) = q
  split
  · exact (later_line q []).trans (later_flush _)
  · exact later_line q []

theorem later_printAdded (p : Proof) : Later p p.printAddedLine := by
  unfold printAddedLine
  split
  · exact (later_writeChar _ _).trans (later_printLine _)
  · exact later_printLine _

theorem later_printDelete (p : Proof) : Later p p.printDeleteLine := by
  unfold printDeleteLine
  dsimp only
  refine (later_writeChar p 100).trans ?_
  split
  · exact later_printLine _
  · exact (later_writeChar _ _).trans (later_printLine _)

theorem later_step (p : Proof) (op : Op) : Later p (p.step op) := by
  have I : ∀ (ls : List Nat) (q : Proof), Later q (ls.foldl importInternal q) := by
    intro ls q; rw [importInternal_fold]; exact later_line _ _
  cases op with
  | addInternal ls => exact (I ls p).trans (later_printAdded _)
  | addEmpty => exact later_printAdded _
  | deleteInternal ls => exact (I ls p).trans (later_printDelete _)
  | deleteExternal ls =>
    refine Later.trans ?_ (later_printDelete _)
    rw [importExternal_fold]; exact later_line _ _
  | shrink ls remove keep falsified =>
    exact ((I _ p).trans (later_printAdded _)).trans ((I _ _).trans (later_printDelete _))

theorem later_steps (p : Proof) (ops : List Op) : Later p (ops.foldl step p) :=
  later_foldl _ later_step _ _

/-- with the option `flushproof` the buffer is empty after each request -/
theorem printLine_flushed (p : Proof) (hf : p.flushproof) : p.printLine.chars = [] := by
  unfold printLine
  dsimp only
  have h : (if p.binary then p.printBinaryLine else p.printNonBinaryLine).flushproof = true := by
    split
    · rw [(printBinaryLine_spec p).2.2.1, hf]
    · rw [(printNonBinaryLine_spec p).2.2.1, hf]
  generalize (if p.binary then p.printBinaryLine else p.printNonBinaryLine) = q at h
  simp only [h, if_true]
  unfold flushBuffer
  split
  · next hq => exact List.length_eq_zero_iff.mp hq
  · rfl

theorem step_flushed (p : Proof) (op : Op) (hl : p.line = []) (hf : p.flushproof) :
    (p.step op).chars = [] := by
  have A : ∀ q : Proof, q.flushproof = true → q.printAddedLine.chars = [] := by
    intro q hq
    unfold printAddedLine
    apply printLine_flushed
    split
    · rw [(same_writeChar q _).1.2.1, hq]
    · exact hq
  have D : ∀ q : Proof, q.flushproof = true → q.printDeleteLine.chars = [] := by
    intro q hq
    unfold printDeleteLine
    apply printLine_flushed
    split
    · rw [(same_writeChar q _).1.2.1, hq]
    · rw [(same_writeChar _ _).1.2.1, (same_writeChar q _).1.2.1, hq]
  cases op with
  | addInternal ls => exact A _ (by rw [importInternal_fold]; exact hf)
  | addEmpty => exact A _ hf
  | deleteInternal ls => exact D _ (by rw [importInternal_fold]; exact hf)
  | deleteExternal ls => exact D _ (by rw [importExternal_fold]; exact hf)
  | shrink ls remove keep falsified =>
    refine D _ ?_
    rw [importInternal_fold]
    show Proof.flushproof (printAddedLine _) = true
    rw [(printAdded_spec _).2.1.2.1, importInternal_fold]
    exact hf

/-! decoding -/

def lits : ProofLine → List Int
  | .add ls => ls
  | .delete ls => ls

theorem readBinary_encode (ls : List ProofLine) (h : ∀ l ∈ ls, ∀ x ∈ lits l, Legal x) :
    readBinary (ls.flatMap (encode true)) = some ls := by
  induction ls with
  | nil => simp [readBinary]
  | cons l ls ih =>
    have ih := ih (fun x hx => h x (by simp [hx]))
    have hl := h l (by simp)
    cases l with
    | add c =>
      have hr := readLits_binBytes c hl (ls.flatMap (encode true))
      simp only [List.flatMap_cons, encode, lineBytes, if_true, List.cons_append, List.nil_append]
      unfold readBinary
      simp only [true_or, if_true]
      split
      · simp_all
      · next c' r hr' =>
        rw [hr] at hr'; simp only [Option.some.injEq, Prod.mk.injEq] at hr'
        obtain ⟨rfl, rfl⟩ := hr'
        simp [ih]
    | delete c =>
      have hr := readLits_binBytes c hl (ls.flatMap (encode true))
      simp only [List.flatMap_cons, encode, lineBytes, if_true, List.cons_append, List.nil_append]
      unfold readBinary
      simp only [or_true, if_true]
      split
      · simp_all
      · next c' r hr' =>
        rw [hr] at hr'; simp only [Option.some.injEq, Prod.mk.injEq] at hr'
        obtain ⟨rfl, rfl⟩ := hr'
        simp [ih]

/-- the text of a line without its newline -/
def bodyText (ls : List Int) : List Nat := (ls.flatMap fun l => litText l ++ [32]) ++ [48]

theorem splitOn_first (sep : Nat) (w rest : List Nat) (h : sep ∉ w) :
    (w ++ sep :: rest).splitOn sep = w :: rest.splitOn sep := by
  simpa using List.splitOn_append_cons_self_of_not_mem h rest

theorem splitOn_body (ls : List Int) :
    (bodyText ls).splitOn 32 = ls.map litText ++ [[48]] := by
  induction ls with
  | nil => simp [bodyText]; decide
  | cons l ls ih =>
    have h32 : 32 ∉ litText l := by
      intro h; have := litText_bytes l _ h; omega
    have : bodyText (l :: ls) = litText l ++ 32 :: bodyText ls := by simp [bodyText]
    rw [this, splitOn_first _ _ _ h32, ih]; simp

theorem readWords_body (ls : List Int) (h : ∀ l ∈ ls, l ≠ 0) :
    readWords (ls.map litText ++ [[48]]) = some ls := by
  induction ls with
  | nil => simp [readWords]
  | cons l ls ih =>
    have ih := ih (fun x hx => h x (by simp [hx]))
    have hne : ls.map litText ++ [[48]] ≠ [] := by simp
    obtain ⟨w, ws, hw⟩ := List.exists_cons_of_ne_nil hne
    rw [List.map_cons, List.cons_append, hw]
    rw [hw] at ih
    simp only [readWords, readInt_litText (h l (by simp)), ih]

def lineText : ProofLine → List Nat
  | .add ls => bodyText ls
  | .delete ls => 100 :: 32 :: bodyText ls

theorem encode_text (l : ProofLine) : encode false l = lineText l ++ [10] := by
  cases l <;> simp [encode, lineBytes, lineText, textBytes, bodyText]

theorem readTextLine_lineText (l : ProofLine) (h : ∀ x ∈ lits l, x ≠ 0) :
    readTextLine (lineText l) = some l := by
  cases l with
  | delete ls =>
    have : (100 :: 32 :: bodyText ls).splitOn 32 = [100] :: (bodyText ls).splitOn 32 :=
      splitOn_first 32 [100] (bodyText ls) (by decide)
    simp only [readTextLine, lineText, this, splitOn_body, readWords_body ls h, Option.map_some]
  | add ls =>
    simp only [readTextLine, lineText, splitOn_body]
    split
    · next ws hw =>
      exfalso
      cases ls with
      | nil => simp at hw
      | cons l ls =>
        simp only [List.map_cons, List.cons_append, List.cons.injEq] at hw
        have := litText_bytes l 100 (by rw [hw.1]; simp)
        omega
    · simp only [readWords_body ls h, Option.map_some]

theorem lineText_no_newline (l : ProofLine) : 10 ∉ lineText l := by
  have key : ∀ ls : List Int, 10 ∉ bodyText ls := by
    intro ls h
    simp only [bodyText, List.mem_append, List.mem_flatMap, List.mem_singleton] at h
    rcases h with ⟨l, _, h | h⟩ | h
    · have := litText_bytes l _ h; omega
    · omega
    · omega
  cases l <;> simp [lineText, key]

theorem splitOn_lines (ls : List ProofLine) :
    (ls.flatMap (encode false)).splitOn 10 = ls.map lineText ++ [[]] := by
  induction ls with
  | nil => simp
  | cons l ls ih =>
    rw [List.flatMap_cons, encode_text]
    have := splitOn_first 10 (lineText l) (ls.flatMap (encode false)) (lineText_no_newline l)
    rw [List.append_assoc, List.singleton_append, this, ih]; simp

theorem readText_encode (ls : List ProofLine) (h : ∀ l ∈ ls, ∀ x ∈ lits l, x ≠ 0) :
    readText (ls.flatMap (encode false)) = some ls := by
  have hm : (ls.map lineText).mapM readTextLine = some ls := by
    induction ls with
    | nil => simp
    | cons l ls ih =>
      simp [List.mapM_cons, readTextLine_lineText l (h l (by simp)),
        ih (fun x hx => h x (by simp [hx]))]
  unfold readText
  rw [splitOn_lines]
  simp [hm]

end Verif.Proofs.ProofWriter
