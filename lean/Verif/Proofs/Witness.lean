import Verif.Model.Witness
import Verif.Spec.Printout

/-!
# The printout of the model
-/

namespace Verif.Proofs.Witness

open Verif.Spec Verif.Model Verif.Model.Witness
open Verif.Spec.Dimacs (Digits IsDigit Numeral value maxVar)

/-! ## Numbers -/

theorem decimalDigits_acc : ∀ (fuel n : Nat) (acc : List Nat), decimalDigits fuel n acc = decimalDigits fuel n [] ++ acc
  | 0, _, _ => rfl
  | fuel + 1, n, acc => by
    unfold decimalDigits
    dsimp only
    by_cases h : n / 10 = 0
    · rw [if_pos h, if_pos h]; rfl
    · rw [if_neg h, if_neg h, decimalDigits_acc fuel (n / 10) ((48 + n % 10) :: acc),
        decimalDigits_acc fuel (n / 10) [48 + n % 10], List.append_assoc]
      rfl

theorem value_snoc (w : List Nat) (d : Nat) : value (w ++ [d]) = 10 * value w + (d - 48) := by
  unfold value
  rw [List.foldl_append]
  rfl

theorem decimalDigits_spec : ∀ (fuel n : Nat), n < 10 ^ fuel → 0 < fuel →
    Digits (decimalDigits fuel n []) ∧ value (decimalDigits fuel n []) = n ∧
    (n ≠ 0 → (decimalDigits fuel n []).head? ≠ some 48) ∧
    ∀ k, n < 10 ^ k → 0 < k → (decimalDigits fuel n []).length ≤ k
  | 0, n, h, h0 => by omega
  | fuel + 1, n, h, _ => by
    unfold decimalDigits
    dsimp only
    have hd : IsDigit (48 + n % 10) := ⟨by omega, by omega⟩
    by_cases hz : n / 10 = 0
    · rw [if_pos hz]
      refine ⟨⟨by simp, fun d h => ?_⟩, ?_, ?_, ?_⟩
      · rw [List.mem_singleton] at h; rw [h]; exact hd
      · show 10 * 0 + (48 + n % 10 - 48) = n
        omega
      · intro hn hh
        have : 48 + n % 10 = 48 := Option.some.inj hh
        omega
      · intro k _ hk; exact hk
    · rw [if_neg hz, decimalDigits_acc]
      have hlt : n / 10 < 10 ^ fuel := by
        rw [Nat.div_lt_iff_lt_mul (by omega)]
        rw [Nat.pow_succ] at h; exact h
      have hf : 0 < fuel := by
        cases fuel with
        | zero => simp at hlt; omega
        | succ => omega
      obtain ⟨h1, h2, h3, h4⟩ := decimalDigits_spec fuel (n / 10) hlt hf
      refine ⟨⟨by simp, fun d h => ?_⟩, ?_, ?_, ?_⟩
      · rcases List.mem_append.1 h with h | h
        · exact h1.2 d h
        · rw [List.mem_singleton] at h; rw [h]; exact hd
      · rw [value_snoc, h2]; omega
      · intro _ hh
        have := h3 hz
        cases hw : decimalDigits fuel (n / 10) [] with
        | nil => exact h1.1 hw
        | cons x xs => rw [hw] at hh this; exact this hh
      · intro k hk hk0
        cases k with
        | zero => omega
        | succ k =>
          have hlt' : n / 10 < 10 ^ k := by
            rw [Nat.div_lt_iff_lt_mul (by omega)]
            rw [Nat.pow_succ] at hk; exact hk
          have hk' : 0 < k := by
            cases k with
            | zero => simp at hlt'; omega
            | succ => omega
          have := h4 k hlt' hk'
          rw [List.length_append, List.length_singleton]
          omega

theorem printNat_spec {n : Nat} (h : n < 2 ^ 64) : Digits (printNat n) ∧ value (printNat n) = n ∧
    (n ≠ 0 → (printNat n).head? ≠ some 48) ∧ ∀ k, n < 10 ^ k → 0 < k → (printNat n).length ≤ k :=
  decimalDigits_spec 20 n (Nat.lt_trans h (by decide)) (by decide)

theorem printInt_numeral {i : Int} (h : i.natAbs ≤ maxVar) : Numeral (printInt i) i := by
  have hm : i.natAbs ≤ 2 ^ 30 - 1 := h
  obtain ⟨h1, h2, h3, -⟩ := printNat_spec (n := i.natAbs) (by omega)
  unfold printInt
  by_cases hi : i < 0
  · rw [if_pos hi]
    right
    have h3 := h3 (by omega)
    cases hw : printNat i.natAbs with
    | nil => exact absurd hw h1.1
    | cons d ds =>
      rw [hw] at h1 h2 h3
      refine ⟨d, ds, rfl, h1, fun hd => h3 (by rw [hd]; rfl), ?_, by rw [h2]; exact h⟩
      rw [h2]; omega
  · rw [if_neg hi]
    left
    refine ⟨h1, ?_, ?_⟩
    · show i = (value (printNat i.natAbs) : Int)
      rw [h2]; omega
    · show value (printNat i.natAbs) ≤ maxVar
      rw [h2]; exact h

theorem printInt_length {i : Int} (h : i.natAbs ≤ maxVar) : (printInt i).length ≤ 11 := by
  have hm : i.natAbs ≤ 2 ^ 30 - 1 := h
  obtain ⟨-, -, -, h4⟩ := printNat_spec (n := i.natAbs) (by omega)
  have := h4 10 (by omega) (by omega)
  unfold printInt
  rw [List.length_append]
  split <;> simp <;> omega

/-! ## Lines -/

/-- The printed lines and the buffer hold these numbers. -/
structure OInv (o : Out) (ls : List Int) : Prop where
  ex : ∃ (lines : List (List (List Nat × Int))) (cur : List (List Nat × Int)),
    o.text = (lines.map fun line => valueLine (line.map Prod.fst)).flatten ∧
    o.buffer = ((cur.map Prod.fst).map fun w => 32 :: w).flatten ∧
    ls = lines.flatten.map Prod.snd ++ cur.map Prod.snd ∧ o.buffer.length ≤ 77 ∧
    (∀ x ∈ cur, Numeral x.1 x.2) ∧
    ∀ line ∈ lines, line ≠ [] ∧ (∀ x ∈ line, Numeral x.1 x.2) ∧ (valueLine (line.map Prod.fst)).length ≤ 78 + 1

theorem OInv.flush {o : Out} {ls : List Int} (h : OInv o ls) (hne : o.buffer ≠ []) :
    OInv o.flush ls ∧ ValueLines 78 o.flush.text ls := by
  obtain ⟨lines, cur, h1, h2, h3, h4, h5, h6⟩ := h.ex
  have hcur : cur ≠ [] := by rintro rfl; exact hne h2
  have ht : o.flush.text = ((lines ++ [cur]).map fun line => valueLine (line.map Prod.fst)).flatten := by
    rw [List.map_append, List.flatten_append, ← h1]
    show o.text ++ 118 :: o.buffer ++ [10] = o.text ++ (valueLine (cur.map Prod.fst) ++ [])
    unfold valueLine
    rw [← h2]
    simp
  have hl : ls = (lines ++ [cur]).flatten.map Prod.snd := by
    rw [h3, List.flatten_append, List.map_append]; simp
  have hline : ∀ line ∈ lines ++ [cur], line ≠ [] ∧ (∀ x ∈ line, Numeral x.1 x.2) ∧
      (valueLine (line.map Prod.fst)).length ≤ 78 + 1 := by
    intro line hm
    rcases List.mem_append.1 hm with hm | hm
    · exact h6 line hm
    · rw [List.mem_singleton] at hm
      subst hm
      refine ⟨hcur, h5, ?_⟩
      unfold valueLine
      rw [← h2]
      simp
      omega
  refine ⟨⟨lines ++ [cur], [], ht, rfl, ?_, by simp [Out.flush], fun x hx => by simp at hx, hline⟩,
    lines ++ [cur], ht, hl, hline⟩
  rw [← hl]; simp

theorem OInv.print {o : Out} {ls : List Int} {i : Int} (h : OInv o ls) (hi : i.natAbs ≤ maxVar) :
    ∃ o', o.print i = some o' ∧ OInv o' (ls ++ [i]) ∧ o'.buffer ≠ [] := by
  have hlen := printInt_length hi
  have hnum := printInt_numeral hi
  unfold Out.print
  dsimp only
  rw [if_neg (by simp; omega)]
  refine ⟨_, rfl, ?_, by simp⟩
  by_cases hf : o.buffer.length + (32 :: printInt i).length > 77
  · rw [if_pos hf]
    have hne : o.buffer ≠ [] := by
      intro h0
      rw [h0] at hf
      simp at hf
      omega
    obtain ⟨lines, cur, h1, h2, h3, h4, h5, h6⟩ := (h.flush hne).1.ex
    have hcur : cur = [] := by
      cases cur with
      | nil => rfl
      | cons x xs => simp [Out.flush] at h2
    subst hcur
    refine ⟨lines, [(printInt i, i)], h1, by simp [Out.flush], ?_, by simp [Out.flush]; omega, ?_, h6⟩
    · rw [h3]; simp
    · intro x hx; rw [List.mem_singleton] at hx; rw [hx]; exact hnum
  · rw [if_neg hf]
    obtain ⟨lines, cur, h1, h2, h3, h4, h5, h6⟩ := h.ex
    refine ⟨lines, cur ++ [(printInt i, i)], h1, ?_, ?_, ?_, ?_, h6⟩
    · show o.buffer ++ 32 :: printInt i = _
      rw [h2]; simp
    · rw [h3]; simp
    · show (o.buffer ++ 32 :: printInt i).length ≤ 77
      rw [List.length_append]; omega
    · intro x hx
      rcases List.mem_append.1 hx with hx | hx
      · exact h5 x hx
      · rw [List.mem_singleton] at hx; rw [hx]; exact hnum

/-- The numbers for `n` variables from `e` on. -/
def printedFrom (value : Nat → Int) (partially : Bool) (n e : Nat) : List Int :=
  (List.range' e n).filterMap fun i =>
    if value i = 0 then if partially then none else some (i : Int) else some (value i)

theorem printLoop_spec {val : Nat → Int} {partially : Bool} : ∀ {n e : Nat} {o : Out} {ls : List Int},
    (∀ i, (val i).natAbs = i ∨ val i = 0) → 0 < e → e + n ≤ maxVar + 1 → OInv o ls →
    ∃ o', printLoop val partially n e o = some o' ∧ OInv o' (ls ++ printedFrom val partially n e)
  | 0, e, o, ls, _, _, _, h => ⟨o, rfl, by unfold printedFrom; simpa using h⟩
  | n + 1, e, o, ls, hv, he, hb, h => by
    have step : ∀ (t : Int), t ≠ 0 → t.natAbs = e →
        ∃ o', (match o.print t with
          | none => none
          | some o => printLoop val partially n (e + 1) o) = some o' ∧
          OInv o' (ls ++ t :: printedFrom val partially n (e + 1)) := by
      intro t _ hte
      obtain ⟨o1, g1, g2, -⟩ := h.print (i := t) (by omega)
      rw [g1]
      obtain ⟨o2, k1, k2⟩ := printLoop_spec (partially := partially) (n := n) (e := e + 1) hv (by omega) (by omega) g2
      exact ⟨o2, k1, by rw [List.append_assoc] at k2; exact k2⟩
    unfold printLoop
    dsimp only
    have hp : printedFrom val partially (n + 1) e =
        ((if val e = 0 then if partially then none else some (e : Int) else some (val e)) :
          Option Int).toList ++ printedFrom val partially n (e + 1) := by
      unfold printedFrom
      rw [List.range'_succ, List.filterMap_cons]
      split <;> rename_i hh <;> rw [hh] <;> rfl
    rw [hp]
    by_cases h0 : val e = 0
    · rw [if_pos h0]
      rcases Bool.eq_false_or_eq_true partially with hpt | hpt
      · have hT : (if val e = 0 ∧ ¬ partially = true then (e : Int) else val e) = 0 := by
          rw [if_neg (by rintro ⟨_, h⟩; exact h hpt)]; exact h0
        rw [hT, if_neg (by simp), if_pos hpt]
        exact printLoop_spec hv (by omega) (by omega) h
      · have hpt' : ¬ partially = true := by rw [hpt]; decide
        have hT : (if val e = 0 ∧ ¬ partially = true then (e : Int) else val e) = e := if_pos ⟨h0, hpt'⟩
        rw [hT, if_neg hpt', if_pos (by omega)]
        exact step (e : Int) (by omega) (by omega)
    · have hT : (if val e = 0 ∧ ¬ partially = true then (e : Int) else val e) = val e :=
        if_neg (by rintro ⟨h, _⟩; exact h0 h)
      rw [hT, if_neg h0, if_pos h0]
      refine step (val e) h0 ?_
      rcases hv e with hve | hve
      · exact hve
      · exact absurd hve h0

theorem printedFrom_one (val : Nat → Int) (partially : Bool) (n : Nat) :
    printedFrom val partially n 1 = printedModel val partially n := by
  unfold printedFrom printedModel
  rw [List.range_eq_range', ← List.map_add_range' (a := 1) (s := 0), List.filterMap_map]
  congr 1
  funext i
  show (if val (1 + i) = 0 then if partially then none else some ((1 + i : Nat) : Int) else some (val (1 + i))) = _
  rw [Nat.add_comm 1 i]
  rfl

theorem printWitness_spec {val : Nat → Int} {partially : Bool} {n : Nat} (hv : ∀ i, (val i).natAbs = i ∨ val i = 0)
    (hn : n ≤ maxVar) :
    ∃ text, printWitness val n partially = some text ∧ ValueLines 78 text (printedModel val partially n ++ [0]) := by
  obtain ⟨o, h1, h2⟩ := printLoop_spec (partially := partially) (n := n) (e := 1) (o := ⟨[], []⟩) (ls := []) hv (by omega)
    (by omega) ⟨[], [], rfl, rfl, rfl, by simp, fun x hx => by simp at hx, fun x hx => by simp at hx⟩
  rw [List.nil_append, printedFrom_one] at h2
  obtain ⟨o', h3, h4, h5⟩ := h2.print (i := 0) (by simp)
  unfold printWitness
  rw [h1]
  dsimp only
  rw [h3]
  exact ⟨_, rfl, (h4.flush h5).2⟩

end Verif.Proofs.Witness
