import Verif.Model.Bits
import Mathlib.Tactic.Ring
import Mathlib.Tactic.NormNum
import Mathlib.Data.Nat.ModEq
/-
C33: random numbers stay in range and are reproducible; the bit utilities compute what they claim.
-/
namespace Verif.Props
open Verif.Model.Bits

private theorem round_le (x d : Nat) (hx : x + d ≤ d * 2 ^ 32) (hd : 0 < d) :
    roundDouble x < d * 2 ^ 32 := by
  unfold roundDouble
  split
  · omega
  · next h53 =>
    simp only
    have hne : x ≠ 0 := by omega
    have hle := Nat.log2_self_le hne
    have hlt := Nat.lt_log2_self (n := x)
    have hl : 53 ≤ x.log2 := by
      by_contra hc
      have : 2 ^ (x.log2 + 1) ≤ 2 ^ 53 := Nat.pow_le_pow_right (by decide) (by omega)
      omega
    obtain ⟨e, he⟩ : ∃ e, x.log2 = e + 52 := ⟨x.log2 - 52, by omega⟩
    have he1 : x.log2 - 52 = e := by omega
    rw [he1]
    have hdm := Nat.div_add_mod x (2 ^ e)
    have hmod := Nat.mod_lt x (Nat.two_pow_pos e)
    rw [he, pow_add] at hle
    have h2d : 2 ^ e < d := by
      by_contra hc
      have : d * 2 ^ 32 ≤ 2 ^ e * 2 ^ 32 := Nat.mul_le_mul_right _ (by omega)
      have : 2 ^ e * 2 ^ 32 ≤ 2 ^ e * 2 ^ 52 := Nat.mul_le_mul_left _ (by norm_num)
      omega
    have hqc : 2 ^ e * (x / 2 ^ e) = x / 2 ^ e * 2 ^ e := Nat.mul_comm _ _
    split
    · rw [Nat.add_mul, Nat.one_mul]
      omega
    · omega

/-- **C33.** Picking from the non-empty range `[l, r)` gives a number in this range, for every
state of the generator.  This includes the rounding of the floating point product. -/
theorem C33_pick_in_range (rng l r : Nat) (h : l < r) (hr : r < 2 ^ 32) :
    l ≤ (pickRandom rng l r).1 ∧ (pickRandom rng l r).1 < r := by
  unfold pickRandom
  rw [if_neg (by omega)]
  simp only [nextRandom32]
  have hs : nextRandom64 rng < 2 ^ 64 := Nat.mod_lt _ (by norm_num)
  have ht : nextRandom64 rng >>> 32 < 2 ^ 32 := by
    rw [Nat.shiftRight_eq_div_pow]; omega
  generalize nextRandom64 rng >>> 32 = t at ht
  have hd : (r + 2 ^ 32 - l) % 2 ^ 32 = r - l := by omega
  rw [hd]
  have hm : (r - l) * t + (r - l) ≤ (r - l) * 2 ^ 32 := by
    rw [← Nat.mul_succ]; exact Nat.mul_le_mul_left _ (by omega)
  have := round_le _ _ hm (by omega)
  have hq : roundDouble ((r - l) * t) / 2 ^ 32 < r - l :=
    Nat.div_lt_of_lt_mul (by rw [Nat.mul_comm (2 ^ 32)]; exact this)
  generalize roundDouble ((r - l) * t) / 2 ^ 32 = q at hq
  omega

/-- **C33.** An empty range gives its bound and does not consume a random number. -/
theorem C33_pick_empty (rng l : Nat) : pickRandom rng l l = (l, rng) := by
  simp [pickRandom]

/-- States of the generator after the `i`-th pick from the `i`-th range. -/
def pickSequence (rng : Nat) : List (Nat × Nat) → List Nat
  | [] => []
  | (l, r) :: ranges => (pickRandom rng l r).1 :: pickSequence (pickRandom rng l r).2 ranges

/-- **C33.** All numbers of any sequence of picks are in their ranges, and equal seeds (modulo
the 64 bits stored) give equal sequences. -/
theorem C33_sequence (seed : Nat) (ranges : List (Nat × Nat))
    (h : ∀ p ∈ ranges, p.1 < p.2 ∧ p.2 < 2 ^ 32) :
    List.Forall₂ (fun x p => p.1 ≤ x ∧ x < p.2) (pickSequence seed ranges) ranges ∧
    ∀ seed', seed' % 2 ^ 64 = seed % 2 ^ 64 →
      pickSequence seed' ranges = pickSequence seed ranges := by
  constructor
  · induction ranges generalizing seed with
    | nil => exact .nil
    | cons p ps ih =>
      obtain ⟨l, r⟩ := p
      have hp := h (l, r) (by simp)
      exact .cons (C33_pick_in_range _ _ _ hp.1 hp.2) (ih _ fun q hq => h q (by simp [hq]))
  · intro seed' hs
    cases ranges with
    | nil => rfl
    | cons p ps =>
      obtain ⟨l, r⟩ := p
      have hp := h (l, r) (by simp)
      have hn : nextRandom64 seed' = nextRandom64 seed := by
        simp only [nextRandom64]
        rw [Nat.mul_mod seed', Nat.mul_mod seed, hs]
      have : pickRandom seed' l r = pickRandom seed l r := by
        unfold pickRandom
        rw [if_neg (by omega), if_neg (by omega)]
        simp only [nextRandom32, hn]
      simp only [pickSequence, this]

private theorem generator_aux (m k c a b : Nat) (hc : Nat.Coprime m k)
    (h : (a * k % m + c) % m = (b * k % m + c) % m) (ha : a < m) (hb : b < m) : a = b := by
  have h1 : a * k + c ≡ b * k + c [MOD m] := by
    simpa [Nat.ModEq, Nat.mod_add_mod] using h
  have h2 : a ≡ b [MOD m] :=
    Nat.ModEq.cancel_right_of_coprime hc (Nat.ModEq.add_right_cancel' c h1)
  have h3 : a % m = b % m := h2
  rwa [Nat.mod_eq_of_lt ha, Nat.mod_eq_of_lt hb] at h3

/-- **C33.** The generator never maps two states to the same state. -/
theorem C33_generator_injective (a b : Nat) (ha : a < 2 ^ 64) (hb : b < 2 ^ 64)
    (h : nextRandom64 a = nextRandom64 b) : a = b := by
  unfold nextRandom64 at h
  exact generator_aux _ _ _ a b 
    (Nat.Coprime.pow_left 64 (by unfold Nat.Coprime; decide +kernel)) h ha hb

example : pickSequence 0 [(0, 10), (5, 6), (100, 200)] = [0, 5, 160] := by decide +kernel

private theorem clz_bound (x : Nat) (bits : Nat) (h : x ≠ 0) (hb : x < 2 ^ bits) :
    clz x bits = bits - 1 - x.log2 := by
  induction bits with
  | zero => omega
  | succ n ih =>
    rw [clz]
    by_cases ht : x.testBit n
    · rw [if_pos ht]
      have hge := Nat.ge_two_pow_of_testBit ht
      have : x.log2 = n := by
        rw [Nat.log2_eq_iff h]; exact ⟨hge, hb⟩
      omega
    · rw [if_neg ht]
      have hlt : x < 2 ^ n := by
        by_contra hc
        apply ht
        have : x.log2 = n := by
          rw [Nat.log2_eq_iff h]; exact ⟨by omega, hb⟩
        rw [← this]; exact Nat.testBit_log2 h
      rw [ih hlt]
      have : x.log2 < n := (Nat.log2_lt h).2 hlt
      omega

/-- **C33.** Floor logarithm. -/
theorem C33_log2_floor (x : Nat) (h : x ≠ 0) (hx : x < 2 ^ 64) :
    2 ^ log2Floor x ≤ x ∧ x < 2 ^ (log2Floor x + 1) := by
  have h1 : log2Floor x = x.log2 := by
    unfold log2Floor leadingZeroes64
    rw [if_pos h, if_neg h, clz_bound x 64 h hx]
    have := (Nat.log2_lt h).2 hx
    omega
  rw [h1]
  exact ⟨Nat.log2_self_le h, Nat.lt_log2_self⟩

/-- **C33.** Ceiling logarithm: the smallest exponent whose power of two is not below `x`. -/
theorem C33_log2_ceiling (x : Nat) (h : x ≠ 0) (hx : x < 2 ^ 64) (k : Nat) :
    x ≤ 2 ^ k ↔ log2Ceiling x ≤ k := by
  obtain ⟨h1, h2⟩ := C33_log2_floor x h hx
  unfold log2Ceiling
  rw [if_neg h]
  simp only [Nat.one_shiftLeft]
  by_cases he : x = 2 ^ log2Floor x
  · have : x ^^^ 2 ^ log2Floor x = 0 := by rw [← he]; simp
    rw [if_neg (by simp [this])]
    constructor
    · intro hk
      rw [he] at hk
      exact (Nat.pow_le_pow_iff_right (by decide)).1 hk
    · intro hk
      rw [he]
      exact Nat.pow_le_pow_right (by decide) (by omega)
  · have : x ^^^ 2 ^ log2Floor x ≠ 0 := by
      intro h0
      apply he
      have := congrArg (· ^^^ 2 ^ log2Floor x) h0
      simpa [Nat.xor_assoc] using this
    rw [if_pos this]
    constructor
    · intro hk
      have : 2 ^ log2Floor x < 2 ^ k := by omega
      exact (Nat.pow_lt_pow_iff_right (by decide)).1 this
    · intro hk
      have : 2 ^ (log2Floor x + 1) ≤ 2 ^ k := Nat.pow_le_pow_right (by decide) hk
      omega

/-- **C33.** Leading zeroes of a 32-bit number. -/
theorem C33_leading_zeroes_unsigned (x : Nat) (hx : x < 2 ^ 32) (k : Nat) :
    x < 2 ^ k ↔ 32 ≤ k + leadingZeroesOfUnsigned x := by
  unfold leadingZeroesOfUnsigned
  by_cases h : x = 0
  · subst h; simp
  · rw [if_pos h, clz_bound x 32 h hx]
    have := (Nat.log2_lt h).2 hx
    rw [← Nat.log2_lt h]; omega

private theorem and_pow (w k : Nat) : w &&& (2 ^ k - 1) = w % 2 ^ k := Nat.and_two_pow_sub_one_eq_mod w k

private theorem or_mask (w k : Nat) : w ||| (2 ^ k - 1) = w / 2 ^ k * 2 ^ k + (2 ^ k - 1) := by
  apply Nat.eq_of_testBit_eq
  intro i
  rw [Nat.testBit_or, Nat.testBit_two_pow_sub_one]
  have hlt : 2 ^ k - 1 < 2 ^ k := by have := Nat.two_pow_pos k; omega
  rw [Nat.mul_comm, Nat.testBit_two_pow_mul_add _ hlt]
  by_cases hi : i < k
  · simp [hi, Nat.testBit_two_pow_sub_one]
  · simp only [hi, decide_false, Bool.or_false, if_false]
    rw [Nat.testBit_div_two_pow]
    congr 1; omega

private theorem align_gen (w k : Nat) (hk : k ≤ 4) (hw : w ≤ 2 ^ 64 - 2 ^ k) (r : Nat)
    (hr : r = if w &&& (2 ^ k - 1) ≠ 0 then (1 + (w ||| (2 ^ k - 1))) % 2 ^ 64 else w) :
    2 ^ k ∣ r ∧ w ≤ r ∧ r < w + 2 ^ k := by
  have hp := Nat.two_pow_pos k
  have hd := Nat.div_add_mod w (2 ^ k)
  have hm := Nat.mod_lt w hp
  rw [and_pow, or_mask] at hr
  have h64 : (2 : Nat) ^ 64 = 2 ^ k * 2 ^ (64 - k) := by
    rw [← pow_add]; congr 1; omega
  have hc : 2 ^ k * (w / 2 ^ k) = w / 2 ^ k * 2 ^ k := Nat.mul_comm _ _
  by_cases h0 : w % 2 ^ k = 0
  · rw [if_neg (by simpa using h0)] at hr
    subst hr
    exact ⟨Nat.dvd_of_mod_eq_zero h0, le_refl _, by omega⟩
  · rw [if_pos h0] at hr
    have hb : w / 2 ^ k + 1 < 2 ^ (64 - k) := by
      by_contra hcon
      generalize hg : w / 2 ^ k = g at *
      have h1 : 2 ^ k * (2 ^ (64 - k) - 1) ≤ 2 ^ k * g := Nat.mul_le_mul_left _ (by omega)
      rw [Nat.mul_sub, ← h64] at h1
      omega
    have e : 1 + (w / 2 ^ k * 2 ^ k + (2 ^ k - 1)) = 2 ^ k * (w / 2 ^ k + 1) := by
      rw [Nat.mul_add, hc]; omega
    have hlt : 2 ^ k * (w / 2 ^ k + 1) < 2 ^ 64 := by
      rw [h64]; exact Nat.mul_lt_mul_of_pos_left hb hp
    rw [e, Nat.mod_eq_of_lt hlt] at hr
    subst hr
    refine ⟨Nat.dvd_mul_right _ _, ?_, ?_⟩ <;> rw [Nat.mul_add] <;> omega

/-- **C33.** Alignment gives the next multiple of the word size (unless that is `2^64`). -/
theorem C33_align_word (w : Nat) (hw : w ≤ 2 ^ 64 - 8) :
    8 ∣ alignWord w ∧ w ≤ alignWord w ∧ alignWord w < w + 8 :=
  align_gen w 3 (by decide) hw _ rfl

/-- **C33.** The same for pairs of words. -/
theorem C33_align_w2rd (w : Nat) (hw : w ≤ 2 ^ 64 - 16) :
    16 ∣ alignW2rd w ∧ w ≤ alignW2rd w ∧ alignW2rd w < w + 16 :=
  align_gen w 4 (by decide) hw _ rfl

/-- **C33.** Powers of two are recognised. -/
theorem C33_power_of_two (w : Nat) (hw : w < 2 ^ 64) :
    isPowerOfTwo w = true ↔ ∃ k, w = 2 ^ k := by
  unfold isPowerOfTwo
  by_cases h : w = 0
  · subst h
    simp only [ne_eq, not_true_eq_false, decide_false, Bool.false_and, Bool.false_eq_true, false_iff]
    rintro ⟨k, hk⟩
    have := Nat.two_pow_pos k; omega
  · have e : (w + 2 ^ 64 - 1) % 2 ^ 64 = w - 1 := by omega
    simp only [e, ne_eq, h, not_false_eq_true, decide_true, Bool.true_and, decide_eq_true_eq]
    constructor
    · intro h0
      refine ⟨w.log2, ?_⟩
      have hle := Nat.log2_self_le h
      have hlt := Nat.lt_log2_self (n := w)
      by_contra hne
      have h1 : w.testBit w.log2 = true := Nat.testBit_log2 h
      have h2 : (w - 1).testBit w.log2 = true := by
        have hl : (w - 1).log2 = w.log2 := by
          rw [Nat.log2_eq_iff (by have := Nat.two_pow_pos w.log2; omega)]; omega
        rw [← hl]
        exact Nat.testBit_log2 (by have := Nat.two_pow_pos w.log2; omega)
      have := Nat.testBit_and w (w - 1) w.log2
      rw [h0, h1, h2] at this
      simp at this
    · rintro ⟨k, rfl⟩
      rw [Nat.and_two_pow_sub_one_eq_mod, Nat.mod_self]

/-- **C33.** The number of cache lines of 32 elements each is rounded up. -/
theorem C33_cache_lines (n : Nat) (hn : n ≤ 2 ^ 64 - 32) :
    n ≤ 32 * cacheLines n ∧ 32 * cacheLines n < n + 32 := by
  unfold cacheLines
  split
  · omega
  · simp only [Nat.shiftRight_eq_div_pow]
    norm_num
    omega

example : log2Floor 1000 = 9 ∧ log2Ceiling 1000 = 10 ∧ log2Ceiling 1024 = 10 ∧
    alignWord 13 = 16 ∧ isPowerOfTwo 64 = true ∧ isPowerOfTwo 65 = false ∧
    cacheLines 33 = 2 := by decide +kernel

end Verif.Props
