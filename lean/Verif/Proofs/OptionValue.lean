import Verif.Model.Options
import Verif.Spec.OptionValue
import Mathlib.Tactic.Ring
import Mathlib.Tactic.Linarith
import Mathlib.Tactic.NormNum

namespace Verif.Proofs.Options
open Verif.Model.Options Verif.Spec.OptionValue

/-! ### strcmp -/

theorem strcmp_self (a : CStr) : strcmp a a = 0 := by
  induction a with
  | nil => rfl
  | cons x a ih => simp [strcmp, ih]

theorem strcmp_eq_zero {a b : CStr} (ha : 0 ∉ a) (hb : 0 ∉ b) : strcmp a b = 0 ↔ a = b := by
  induction a generalizing b with
  | nil =>
    cases b with
    | nil => simp [strcmp]
    | cons y b => 
      simp only [List.mem_cons, not_or] at hb
      simp [strcmp]; omega
  | cons x a ih =>
    simp only [List.mem_cons, not_or] at ha
    cases b with
    | nil => simp [strcmp]; omega
    | cons y b =>
      simp only [List.mem_cons, not_or] at hb
      simp only [strcmp, List.cons.injEq]
      by_cases h : x = y
      · simp [h, ih ha.2 hb.2]
      · simp [h]; omega

theorem strcmp_antisymm (a b : CStr) : strcmp b a = - strcmp a b := by
  induction a generalizing b with
  | nil => cases b <;> simp [strcmp]
  | cons x a ih =>
    cases b with
    | nil => simp [strcmp]
    | cons y b =>
      simp only [strcmp]
      by_cases h : x = y
      · simp [h, ih]
      · have h' : ¬ y = x := fun e => h e.symm
        simp [h, h']

theorem strcmp_trans {a b c : CStr} (h : strcmp a b < 0) (h' : strcmp b c < 0) :
    strcmp a c < 0 := by
  induction a generalizing b c with
  | nil =>
    cases b with
    | nil => exact h'
    | cons y b =>
      cases c with
      | nil => simp [strcmp] at h'; omega
      | cons z c =>
        simp only [strcmp] at h h' ⊢
        split at h' <;> omega
  | cons x a ih =>
    cases b with
    | nil => simp [strcmp] at h; omega
    | cons y b =>
      cases c with
      | nil => simp [strcmp] at h'; omega
      | cons z c =>
        simp only [strcmp] at h h' ⊢
        by_cases h1 : x = y <;> by_cases h2 : y = z
        · subst h1 h2; simp at h h' ⊢; exact ih h h'
        · subst h1; simp [h2] at h' ⊢; omega
        · subst h2; simp [h1] at h ⊢; omega
        · simp only [h1, h2, if_false] at h h'
          have : x ≠ z := by omega
          simp only [this, if_false]; omega

/-! ### values -/

/-- value after reading further digits -/
def cont (res : Nat) (ds : List Nat) : Nat := ds.foldl (fun n c => 10 * n + (c - 48)) res

theorem cont_ge (res : Nat) (ds : List Nat) : res ≤ cont res ds := by
  induction ds generalizing res with
  | nil => simp [cont]
  | cons d ds ih => 
    have := ih (10 * res + (d - 48))
    simp only [cont, List.foldl_cons] at this ⊢; omega

theorem isDigit_iff (c : Nat) : isDigit c = true ↔ 48 ≤ c ∧ c ≤ 57 := by
  simp [isDigit]

/-- the first character and what follows; zero at the end -/
def uncons : CStr → Nat × CStr
  | [] => (0, [])
  | c :: p => (c, p)

open scoped Classical in
theorem digitLoop_spec (ds rest : List Nat) (hd : ∀ c ∈ ds, 48 ≤ c ∧ c ≤ 57)
    (hr : ∀ c p, rest = c :: p → isDigit c = false) (res : Nat) (hres : res ≤ 2 ^ 31) :
    digitLoop res (ds ++ rest) =
      if cont res ds ≤ 2 ^ 31 ∧ ¬ (res = 0 ∧ ∃ t, ds = 48 :: t) then
        some (cont res ds, uncons rest) else none := by
  induction ds generalizing res with
  | nil =>
    have : cont res [] ≤ 2 ^ 31 ∧ ¬ (res = 0 ∧ ∃ t, ([] : List Nat) = 48 :: t) := by
      simp only [cont, List.foldl_nil]
      exact ⟨hres, by rintro ⟨_, t, ht⟩; cases ht⟩
    rw [if_pos this, List.nil_append]
    cases rest with
    | nil => simp [digitLoop, cont, uncons]
    | cons c p => simp [digitLoop, hr c p rfl, cont, uncons]
  | cons d ds ih =>
    have hdd := hd d (by simp)
    have hdig : isDigit d = true := (isDigit_iff d).2 hdd
    have hge := cont_ge (10 * res + (d - 48)) ds
    have hcont : cont res (d :: ds) = cont (10 * res + (d - 48)) ds := by
      simp [cont]
    rw [List.cons_append, digitLoop, if_pos hdig, hcont]
    by_cases h1 : maxVal / 10 < res
    · rw [if_pos h1, if_neg]
      rintro ⟨h, _⟩
      simp only [maxVal] at h1; omega
    · rw [if_neg h1]
      simp only [maxVal] at h1
      have hm : umul res 10 = 10 * res := by
        unfold umul; rw [Nat.mod_eq_of_lt] <;> omega
      simp only [hm]
      by_cases h2 : maxVal - (d - 48) < 10 * res
      · rw [if_pos h2, if_neg]
        rintro ⟨h, _⟩
        simp only [maxVal] at h2; omega
      · rw [if_neg h2]
        simp only [maxVal] at h2
        have ha : uadd (10 * res) (d - 48) = 10 * res + (d - 48) := by
          unfold uadd; rw [Nat.mod_eq_of_lt]; omega
        rw [ha]
        by_cases h3 : 10 * res + (d - 48) = 0
        · rw [if_pos h3, if_neg]
          rintro ⟨_, h⟩
          apply h
          refine ⟨by omega, ds, ?_⟩
          have : d = 48 := by omega
          rw [this]
        · rw [if_neg h3, ih (fun c hc => hd c (by simp [hc])) _ (by omega)]
          have e1 : ¬ (10 * res + (d - 48) = 0 ∧ ∃ t, ds = 48 :: t) := by
            rintro ⟨h, _⟩; exact h3 h
          have e2 : ¬ (res = 0 ∧ ∃ t, d :: ds = 48 :: t) := by
            rintro ⟨h, t, ht⟩
            simp only [List.cons.injEq] at ht
            omega
          simp only [e1, e2, not_false_eq_true, and_true]

theorem skipDigits_zero {p : CStr} (h0 : 0 ∉ p) :
    skipDigits p = 0 ↔ ∀ c ∈ p, 48 ≤ c ∧ c ≤ 57 := by
  induction p with
  | nil => simp [skipDigits]
  | cons c p ih =>
    simp only [List.mem_cons, not_or] at h0
    simp only [skipDigits]
    by_cases h : isDigit c
    · simp only [h, if_true, ih h0.2]
      have := (isDigit_iff c).1 h
      simp [this]
    · have h2 : ¬ (48 ≤ c ∧ c ≤ 57) := fun hh => h ((isDigit_iff c).2 hh)
      have h3 : c ≠ 0 := fun hh => h0.1 hh.symm
      rw [if_neg h]
      constructor
      · intro hc; exact absurd hc h3
      · intro hc; exact absurd (hc c (by simp)) h2

theorem mulLoop_spec (base n res : Nat) (hb : 1 ≤ base) (hr : res ≤ 2 ^ 31) (hpos : 1 ≤ res) :
    mulLoop base n res = some (if res * base ^ n ≤ 2 ^ 31 then some (res * base ^ n) else none) := by
  induction n generalizing res with
  | zero => simp [mulLoop]; omega
  | succ n ih =>
    rw [mulLoop, if_neg (by omega)]
    have key : maxVal / base < res ↔ 2 ^ 31 < res * base := by
      rw [maxVal, Nat.div_lt_iff_lt_mul hb]
    have hpow : res * base ^ (n + 1) = res * base * base ^ n := by ring
    by_cases h : maxVal / base < res
    · rw [if_pos h, if_neg]
      rw [key] at h
      rw [hpow]
      have : 1 ≤ base ^ n := Nat.one_le_pow _ _ hb
      nlinarith
    · rw [if_neg h]
      rw [key] at h
      have hm : umul res base = res * base := by
        unfold umul; rw [Nat.mod_eq_of_lt]; omega
      rw [hm, ih _ (by omega) (Nat.mul_pos hpos hb), hpow]

theorem finish_spec (neg : Bool) (n : Nat) (h : n ≤ 2 ^ 31) :
    finish neg n = if neg then .valid (- (n : Int)) else
      if n < 2 ^ 31 then .valid n else .invalid := by
  unfold finish
  cases neg
  · simp only [Bool.false_eq_true, not_false_eq_true, true_and, if_false, maxVal]
    by_cases h2 : n = 2 ^ 31
    · simp [h2]
    · rw [if_neg h2, if_pos (by omega)]
      rw [Nat.mod_eq_of_lt (by omega), if_pos (by omega)]
  · simp only [not_true_eq_false, false_and, if_false, if_true]
    congr 1
    by_cases h0 : n = 0
    · subst h0; simp
    · rw [Nat.mod_eq_of_lt (by omega), if_neg (by omega)]; omega

/-- result for a magnitude which fits into 31 bits plus one -/
def final (neg : Bool) (n : Nat) : Parsed :=
  if neg then (if n ≤ 2 ^ 31 then .valid (- (n : Int)) else .invalid)
  else if n < 2 ^ 31 then .valid n else .invalid

theorem finish_eq (neg : Bool) (n : Nat) (h : n ≤ 2 ^ 31) : finish neg n = final neg n := by
  rw [finish_spec neg n h, final, if_pos h]

theorem num_single (c : Nat) : num [c] = c - 48 := by simp [num]

theorem num_zero_iff_first {c : Nat} {p : List Nat} : num (c :: p) = cont (c - 48) p := by
  simp [num, cont]

theorem final_invalid (neg : Bool) (n : Nat) (h : ¬ n ≤ 2 ^ 31) : final neg n = .invalid := by
  unfold final; cases neg
  · simp only [Bool.false_eq_true, if_false]; rw [if_neg (by omega)]
  · simp only [if_true]; rw [if_neg h]

theorem mulLoop_final (neg : Bool) (base n res : Nat) (hb : 1 ≤ base) (hr : res ≤ 2 ^ 31)
    (hpos : 1 ≤ res) :
    afterLoop neg (mulLoop base n res) = final neg (res * base ^ n) := by
  rw [mulLoop_spec base n res hb hr hpos]
  by_cases h : res * base ^ n ≤ 2 ^ 31
  · rw [if_pos h]; exact finish_eq neg _ h
  · rw [if_neg h]; exact (final_invalid neg _ h).symm

open scoped Classical in
theorem parseExponent_spec (neg : Bool) (res : Nat) (hres : res ≤ 2 ^ 31) (d : CStr) (h0 : 0 ∉ d) :
    parseExponent neg res d =
      if (Digits d ∧ (res ≠ 0 → d.length = 1)) then final neg (res * 10 ^ num d) else .invalid := by
  cases d with
  | nil => simp [parseExponent, Digits]
  | cons c p =>
    simp only [List.mem_cons, not_or] at h0
    by_cases hc : isDigit c
    · have hc' := (isDigit_iff c).1 hc
      simp only [parseExponent, hc, not_true_eq_false, if_false]
      by_cases hz : res = 0
      · subst hz
        simp only [ne_eq, not_true_eq_false, if_false]
        by_cases hs : skipDigits p = 0
        · have := (skipDigits_zero h0.2).1 hs
          rw [if_neg (by simpa using hs), if_pos]
          · rw [finish_eq _ _ hres]; simp
          · refine ⟨⟨by simp, ?_⟩, by simp⟩
            intro x hx
            simp only [List.mem_cons] at hx
            rcases hx with rfl | hx
            · exact hc'
            · exact this x hx
        · rw [if_pos hs, if_neg]
          rintro ⟨⟨_, h⟩, _⟩
          exact hs ((skipDigits_zero h0.2).2 fun x hx => h x (by simp [hx]))
      · simp only [ne_eq, hz, not_false_eq_true, if_true]
        by_cases hp : p = []
        · subst hp
          simp only [not_true_eq_false, if_false]
          rw [mulLoop_final neg 10 (c - 48) res (by omega) hres (by omega), if_pos, num_single]
          exact ⟨⟨by simp, by simpa using hc'⟩, by simp⟩
        · simp only [hp, not_false_eq_true, if_true]
          rw [if_neg]
          rintro ⟨_, h⟩
          have := h trivial
          simp only [List.length_cons] at this
          exact hp (List.length_eq_zero_iff.mp (by omega))
    · simp only [parseExponent, hc, Bool.false_eq_true, not_false_eq_true, if_true]
      rw [if_neg]
      rintro ⟨⟨_, h⟩, _⟩
      exact hc ((isDigit_iff c).2 (h c (by simp)))

theorem power_spec (neg : Bool) (base exp : Nat) (hb : base ≤ 2 ^ 31) (hb1 : 1 ≤ base) :
    power neg base exp = final neg (base ^ exp) := by
  unfold power
  by_cases h : exp = 0
  · subst h
    simp only [ne_eq, not_true_eq_false, if_false, pow_zero]
    rw [if_pos (by omega)]; exact finish_eq neg 1 (by norm_num)
  · simp only [ne_eq, h, not_false_eq_true, if_true]
    rw [mulLoop_final neg base (exp - 1) base hb1 hb hb1]
    congr 1
    obtain ⟨k, rfl⟩ : ∃ k, exp = k + 1 := ⟨exp - 1, by omega⟩
    rw [pow_succ, Nat.add_sub_cancel, Nat.mul_comm]

/-- the strings on which the code divides by zero: exponents of base zero starting with 2..9 -/
def Crash (base : Nat) (e : CStr) : Prop := base = 0 ∧ Digits e ∧ ∃ c t, e = c :: t ∧ 50 ≤ c

open scoped Classical in
theorem parsePower_spec (neg : Bool) (base : Nat) (hb : base ≤ 2 ^ 31) (e : CStr) (h0 : 0 ∉ e) :
    parsePower neg base e =
      if Crash base e then .divisionByZero
      else if Digits e ∧ (2 ≤ base → e.length ≤ 2 ∧ e ≠ [48, 48]) ∧
        (base = 0 → ¬ ∃ t, e = 48 :: t) then final neg (base ^ num e) else .invalid := by
  cases e with
  | nil => simp [parsePower, Digits, Crash]
  | cons c p =>
    simp only [List.mem_cons, not_or] at h0
    by_cases hc : isDigit c
    · have hc' := (isDigit_iff c).1 hc
      simp only [parsePower, hc, not_true_eq_false, if_false]
      by_cases hlt : base < 2
      · rw [if_pos hlt]
        by_cases hs : skipDigits p = 0
        · have hpd := (skipDigits_zero h0.2).1 hs
          have hD : Digits (c :: p) := by
            refine ⟨by simp, ?_⟩
            intro x hx
            simp only [List.mem_cons] at hx
            rcases hx with rfl | hx
            · exact hc'
            · exact hpd x hx
          rw [if_neg (by simpa using hs)]
          rcases (by omega : base = 0 ∨ base = 1) with rfl | rfl
          · by_cases hc2 : 50 ≤ c
            · rw [if_pos ⟨rfl, hD, c, p, rfl, hc2⟩]
              unfold power
              rw [if_pos (by omega)]
              obtain ⟨k, hk⟩ : ∃ k, c - 48 - 1 = k + 1 := ⟨c - 50, by omega⟩
              rw [hk, mulLoop, if_pos rfl]; rfl
            · rw [if_neg]
              · by_cases h48 : c = 48
                · subst h48
                  rw [if_neg]
                  · simp [power]
                  · rintro ⟨_, _, h⟩; exact h rfl ⟨p, rfl⟩
                · have h49 : c = 49 := by omega
                  subst h49
                  rw [if_pos]
                  · simp only [power]
                    have hn : num (49 :: p) ≠ 0 := by
                      rw [num_zero_iff_first]
                      have := cont_ge (49 - 48) p; omega
                    rw [zero_pow hn]
                    exact finish_eq neg 0 (by norm_num)
                  · refine ⟨hD, by omega, fun _ ⟨t, ht⟩ => ?_⟩
                    simp at ht
              · rintro ⟨_, _, c', t, ht, h⟩
                simp only [List.cons.injEq] at ht
                omega
          · rw [if_neg (by rintro ⟨h, _⟩; omega), if_pos ⟨hD, by omega, by omega⟩, one_pow]
            rw [power_spec neg 1 _ (by norm_num) (le_refl _), one_pow]
        · rw [if_pos hs, if_neg, if_neg]
          · rintro ⟨⟨_, h⟩, _⟩
            exact hs ((skipDigits_zero h0.2).2 fun x hx => h x (by simp [hx]))
          · rintro ⟨_, ⟨_, h⟩, _⟩
            exact hs ((skipDigits_zero h0.2).2 fun x hx => h x (by simp [hx]))
      · rw [if_neg hlt, if_neg (by rintro ⟨h, _⟩; omega)]
        cases p with
        | nil =>
          rw [if_pos]
          · show power neg base (c - 48) = _
            rw [power_spec neg base _ hb (by omega), num_single]
          · exact ⟨⟨by simp, by simpa using hc'⟩, fun _ => ⟨by simp, by simp⟩, by omega⟩
        | cons c2 p2 =>
          by_cases h2 : isDigit c2
          · have h2' := (isDigit_iff c2).1 h2
            simp only [h2, if_true]
            by_cases hp : p2 = []
            · subst hp
              simp only [ne_eq, not_true_eq_false, if_false]
              have e1 : uadd (umul (c - 48) 10) (c2 - 48) = num [c, c2] := by
                simp only [uadd, umul, num, List.foldl_cons, List.foldl_nil]
                omega
              rw [e1]
              by_cases hz : num [c, c2] = 0
              · rw [if_pos hz, if_neg]
                rintro ⟨_, h, _⟩
                have := (h (by omega)).2
                apply this
                simp only [num, List.foldl_cons, List.foldl_nil] at hz
                have : c = 48 := by omega
                have : c2 = 48 := by omega
                simp [*]
              · rw [if_neg hz, if_pos]
                · exact power_spec neg base _ hb (by omega)
                · refine ⟨⟨by simp, ?_⟩, fun _ => ⟨by simp, ?_⟩, by omega⟩
                  · intro x hx
                    simp only [List.mem_cons, List.not_mem_nil, or_false] at hx
                    rcases hx with rfl | rfl
                    · exact hc'
                    · exact h2'
                  · intro h
                    rw [h] at hz
                    exact hz (by decide)
            · simp only [ne_eq, hp, not_false_eq_true, if_true]
              rw [if_neg]
              rintro ⟨_, h, _⟩
              have := (h (by omega)).1
              simp only [List.length_cons] at this
              exact hp (List.length_eq_zero_iff.mp (by omega))
          · simp only [h2, Bool.false_eq_true, if_false]
            rw [if_neg]
            rintro ⟨⟨_, h⟩, _⟩
            exact h2 ((isDigit_iff c2).2 (h c2 (by simp)))
    · simp only [parsePower, hc, Bool.false_eq_true, not_false_eq_true, if_true]
      rw [if_neg, if_neg]
      · rintro ⟨⟨_, h⟩, _⟩
        exact hc ((isDigit_iff c).2 (h c (by simp)))
      · rintro ⟨_, ⟨_, h⟩, _⟩
        exact hc ((isDigit_iff c).2 (h c (by simp)))

/-- every string is digits followed by something which does not start with a digit -/
theorem split_digits (s : CStr) : ∃ ds rest, s = ds ++ rest ∧ (∀ c ∈ ds, 48 ≤ c ∧ c ≤ 57) ∧
    (∀ c p, rest = c :: p → isDigit c = false) := by
  induction s with
  | nil => exact ⟨[], [], rfl, by simp, by simp⟩
  | cons c s ih =>
    by_cases h : isDigit c
    · obtain ⟨ds, rest, rfl, h1, h2⟩ := ih
      refine ⟨c :: ds, rest, rfl, ?_, h2⟩
      intro x hx
      simp only [List.mem_cons] at hx
      rcases hx with rfl | hx
      · exact (isDigit_iff x).1 h
      · exact h1 x hx
    · refine ⟨[], c :: s, rfl, by simp, ?_⟩
      rintro c' p hp
      simp only [List.cons.injEq] at hp
      rw [← hp.1]; simpa using h

/-- the split is unique -/
theorem split_unique {ds ds' rest rest' : CStr} (h : ds ++ rest = ds' ++ rest')
    (h1 : ∀ c ∈ ds, 48 ≤ c ∧ c ≤ 57) (h1' : ∀ c ∈ ds', 48 ≤ c ∧ c ≤ 57)
    (h2 : ∀ c p, rest = c :: p → isDigit c = false)
    (h2' : ∀ c p, rest' = c :: p → isDigit c = false) : ds = ds' ∧ rest = rest' := by
  induction ds generalizing ds' with
  | nil =>
    cases ds' with
    | nil => exact ⟨rfl, by simpa using h⟩
    | cons c ds' =>
      have := h2 c _ h
      have h3 := (isDigit_iff c).2 (h1' c (by simp))
      rw [h3] at this; cases this
  | cons c ds ih =>
    cases ds' with
    | nil =>
      have := h2' c _ h.symm
      have h3 := (isDigit_iff c).2 (h1 c (by simp))
      rw [h3] at this; cases this
    | cons c' ds' =>
      simp only [List.cons_append, List.cons.injEq] at h
      obtain ⟨rfl, h⟩ := h
      have := ih h (fun x hx => h1 x (by simp [hx])) (fun x hx => h1' x (by simp [hx]))
      exact ⟨by rw [this.1], this.2⟩

/-- The string is a power with base zero whose exponent starts with a digit 2..9. -/
def CrashString (s : CStr) : Prop := ∃ e, s = 48 :: 94 :: e ∧ Digits e ∧ ∃ c t, e = c :: t ∧ 50 ≤ c

theorem number_zero {m : CStr} (h : Number m) (h0 : num m = 0) : m = [48] := by
  obtain ⟨⟨hne, hd⟩, h2, _⟩ := h
  cases m with
  | nil => exact absurd rfl hne
  | cons c m =>
    have hc := hd c (by simp)
    rw [num_zero_iff_first] at h0
    have := cont_ge (c - 48) m
    have hc48 : c = 48 := by omega
    subst hc48
    cases m with
    | nil => rfl
    | cons d m =>
      have hd' := hd d (by simp)
      have hh : cont (48 - 48) (d :: m) = cont (d - 48) m := by simp [cont]
      rw [hh] at h0
      have := cont_ge (d - 48) m
      have hd48 : d = 48 := by omega
      subst hd48
      exact absurd ⟨m, rfl⟩ h2

theorem parseUnsigned_spec (neg : Bool) (s : CStr) (h0 : 0 ∉ s) :
    (CrashString s → parseUnsigned neg s = .divisionByZero) ∧
    (∀ n, Magnitude s n → ¬ CrashString s → parseUnsigned neg s = final neg n) ∧
    (¬ CrashString s → (¬ ∃ n, Magnitude s n) → parseUnsigned neg s = .invalid) := by
  obtain ⟨ds, rest, rfl, hd, hr⟩ := split_digits s
  have h0r : 0 ∉ rest := fun h => h0 (by simp [h])
  cases ds with
  | nil =>
    have hinv : parseUnsigned neg ([] ++ rest) = .invalid := by
      cases rest with
      | nil => rfl
      | cons c p => simp [parseUnsigned, hr c p rfl]
    have hnoM : ∀ n, ¬ Magnitude ([] ++ rest) n := by
      intro n hM
      have hnum : ∀ m t, Number m → [] ++ rest = m ++ t → False := by
        intro m t hm e
        obtain ⟨c, m', rfl⟩ := List.exists_cons_of_ne_nil hm.1.1
        have := hr c (m' ++ t) (by simpa using e)
        rw [(isDigit_iff c).2 (hm.1.2 c (by simp))] at this
        cases this
      generalize hg : [] ++ rest = g at hM hnum
      cases hM with
      | plain hm => exact hnum _ [] hm (by simp)
      | scientific hm => exact hnum _ _ hm rfl
      | power hm => exact hnum _ _ hm rfl
    have hnoC : ¬ CrashString ([] ++ rest) := by
      rintro ⟨e, he, _⟩
      have := hr 48 (94 :: e) (by simpa using he)
      simp [isDigit] at this
    exact ⟨fun h => absurd h hnoC, fun n h => absurd h (hnoM n), fun _ _ => hinv⟩
  | cons c ds =>
    have hc := hd c (by simp)
    have hds : ∀ x ∈ ds, 48 ≤ x ∧ x ≤ 57 := fun x hx => hd x (by simp [hx])
    have hcd : isDigit c = true := (isDigit_iff c).2 hc
    have hloop := digitLoop_spec ds rest hds hr (c - 48) (by omega)
    have hnum : num (c :: ds) = cont (c - 48) ds := num_zero_iff_first
    have hNumber : Number (c :: ds) ↔
        (cont (c - 48) ds ≤ 2 ^ 31 ∧ ¬ (c - 48 = 0 ∧ ∃ t, ds = 48 :: t)) := by
      unfold Number
      rw [hnum]
      constructor
      · rintro ⟨_, h1, h2⟩
        refine ⟨h2, ?_⟩
        rintro ⟨hc0, t, rfl⟩
        exact h1 ⟨t, by have : c = 48 := by omega
                        rw [this]⟩
      · rintro ⟨h1, h2⟩
        refine ⟨⟨by simp, hd⟩, ?_, h1⟩
        rintro ⟨t, ht⟩
        simp only [List.cons.injEq] at ht
        exact h2 ⟨by omega, t, ht.2⟩
    -- inversion of the specification
    have hinvM : ∀ n, Magnitude (c :: ds ++ rest) n →
        Number (c :: ds) ∧ ((rest = [] ∧ n = num (c :: ds)) ∨
          (∃ d, rest = 101 :: d ∧ Digits d ∧ (num (c :: ds) ≠ 0 → d.length = 1) ∧
            n = num (c :: ds) * 10 ^ num d) ∨
          (∃ e, rest = 94 :: e ∧ Digits e ∧
            (2 ≤ num (c :: ds) → e.length ≤ 2 ∧ e ≠ [48, 48]) ∧
            (num (c :: ds) = 0 → ¬ ∃ t, e = 48 :: t) ∧ n = num (c :: ds) ^ num e)) := by
      intro n hM
      generalize hg : c :: ds ++ rest = g at hM
      cases hM with
      | plain hm =>
        have := split_unique (rest' := []) (by simpa using hg) hd hm.1.2 hr (by simp)
        obtain ⟨rfl, rfl⟩ := this
        exact ⟨hm, Or.inl ⟨rfl, rfl⟩⟩
      | scientific hm hdd hl =>
        have := split_unique hg hd hm.1.2 hr (by
          intro c p h; simp only [List.cons.injEq] at h; rw [← h.1]; rfl)
        obtain ⟨rfl, rfl⟩ := this
        exact ⟨hm, Or.inr (Or.inl ⟨_, rfl, hdd, hl, rfl⟩)⟩
      | power hm he h1 h2 =>
        have := split_unique hg hd hm.1.2 hr (by
          intro c p h; simp only [List.cons.injEq] at h; rw [← h.1]; rfl)
        obtain ⟨rfl, rfl⟩ := this
        exact ⟨hm, Or.inr (Or.inr ⟨_, rfl, he, h1, h2, rfl⟩)⟩
    have hinvC : CrashString (c :: ds ++ rest) ↔
        ∃ e, c = 48 ∧ ds = [] ∧ rest = 94 :: e ∧ Digits e ∧ ∃ c t, e = c :: t ∧ 50 ≤ c := by
      constructor
      · rintro ⟨e, he, h⟩
        have := split_unique (ds' := [48]) (rest' := 94 :: e) he hd (by simp) hr (by
          intro c p h; simp only [List.cons.injEq] at h; rw [← h.1]; rfl)
        simp only [List.cons.injEq] at this
        exact ⟨e, this.1.1, this.1.2, this.2, h⟩
      · rintro ⟨e, rfl, rfl, rfl, h⟩
        exact ⟨e, rfl, h⟩
    by_cases hN : cont (c - 48) ds ≤ 2 ^ 31 ∧ ¬ (c - 48 = 0 ∧ ∃ t, ds = 48 :: t)
    · rw [if_pos hN] at hloop
      have hNum := hNumber.2 hN
      cases rest with
      | nil =>
        have hval : parseUnsigned neg (c :: ds ++ []) = final neg (num (c :: ds)) := by
          rw [List.cons_append, parseUnsigned]
          simp only [hcd, not_true_eq_false, if_false, hloop, uncons]
          rw [hnum]; exact finish_eq neg _ hN.1
        refine ⟨fun h => ?_, fun n hM _ => ?_, fun _ h => ?_⟩
        · obtain ⟨e, _, _, h, _⟩ := hinvC.1 h; cases h
        · rcases (hinvM n hM).2 with ⟨_, rfl⟩ | ⟨d, h, _⟩ | ⟨d, h, _⟩
          · exact hval
          · cases h
          · cases h
        · exact absurd ⟨_, by simpa using Magnitude.plain hNum⟩ h
      | cons r p =>
        have h0p : 0 ∉ p := fun h => h0r (by simp [h])
        have hrd := hr r p rfl
        have hstep : parseUnsigned neg (c :: ds ++ r :: p) =
            if r = 101 then parseExponent neg (cont (c - 48) ds) p
            else if r = 94 then parsePower neg (cont (c - 48) ds) p
            else if r ≠ 0 then .invalid else finish neg (cont (c - 48) ds) := by
          rw [List.cons_append, parseUnsigned]
          simp only [hcd, not_true_eq_false, if_false, hloop, uncons]
        rw [hstep]
        by_cases hre : r = 101
        · subst hre
          rw [if_pos rfl, parseExponent_spec neg _ hN.1 p h0p, ← hnum]
          refine ⟨fun h => ?_, fun n hM _ => ?_, fun _ h => ?_⟩
          · obtain ⟨e, _, _, h, _⟩ := hinvC.1 h; simp at h
          · rcases (hinvM n hM).2 with ⟨h, _⟩ | ⟨d, h, hd1, hd2, rfl⟩ | ⟨d, h, _⟩
            · cases h
            · simp only [List.cons.injEq, true_and] at h
              subst h
              rw [if_pos ⟨hd1, hd2⟩]
            · simp at h
          · rw [if_neg]
            rintro ⟨h1, h2⟩
            exact h ⟨_, Magnitude.scientific hNum h1 h2⟩
        · rw [if_neg hre]
          by_cases hrp : r = 94
          · subst hrp
            rw [if_pos rfl, parsePower_spec neg _ hN.1 p h0p, ← hnum]
            have hCC : CrashString (c :: ds ++ 94 :: p) ↔ Crash (num (c :: ds)) p := by
              rw [hinvC]
              constructor
              · rintro ⟨e, rfl, rfl, h, h1, h2⟩
                simp only [List.cons.injEq, true_and] at h
                subst h
                exact ⟨by decide, h1, h2⟩
              · rintro ⟨h1, h2, h3⟩
                have := number_zero hNum h1
                simp only [List.cons.injEq] at this
                exact ⟨p, this.1, this.2, rfl, h2, h3⟩
            refine ⟨fun h => ?_, fun n hM hC => ?_, fun hC h => ?_⟩
            · rw [if_pos (hCC.1 h)]
            · rw [if_neg (fun h => hC (hCC.2 h))]
              rcases (hinvM n hM).2 with ⟨h, _⟩ | ⟨d, h, _⟩ | ⟨e, h, he, h1, h2, rfl⟩
              · cases h
              · simp at h
              · simp only [List.cons.injEq, true_and] at h
                subst h
                rw [if_pos ⟨he, h1, h2⟩]
            · rw [if_neg (fun h => hC (hCC.2 h)), if_neg]
              rintro ⟨h1, h2, h3⟩
              exact h ⟨_, Magnitude.power hNum h1 h2 h3⟩
          · rw [if_neg hrp]
            have hr0 : r ≠ 0 := fun h => h0r (by simp [h])
            rw [if_pos hr0]
            refine ⟨fun h => ?_, fun n hM _ => ?_, fun _ _ => rfl⟩
            · obtain ⟨e, _, _, h, _⟩ := hinvC.1 h
              simp only [List.cons.injEq] at h
              exact absurd h.1 hrp
            · rcases (hinvM n hM).2 with ⟨h, _⟩ | ⟨d, h, _⟩ | ⟨d, h, _⟩
              · cases h
              · simp only [List.cons.injEq] at h; exact absurd h.1 hre
              · simp only [List.cons.injEq] at h; exact absurd h.1 hrp
    · rw [if_neg hN] at hloop
      have hval : parseUnsigned neg (c :: ds ++ rest) = .invalid := by
        rw [List.cons_append, parseUnsigned]
        simp only [hcd, not_true_eq_false, if_false, hloop]
      refine ⟨fun h => ?_, fun n hM _ => ?_, fun _ _ => hval⟩
      · obtain ⟨e, rfl, rfl, _⟩ := hinvC.1 h
        exact absurd ⟨by decide, by rintro ⟨_, t, ht⟩; cases ht⟩ hN
      · exact absurd (hNumber.1 (hinvM n hM).1) hN

theorem magnitude_first {s : CStr} {n : Nat} (h : Magnitude s n) :
    ∃ c p, s = c :: p ∧ 48 ≤ c ∧ c ≤ 57 := by
  have key : ∀ m t, Number m → ∃ c p, m ++ t = c :: p ∧ 48 ≤ c ∧ c ≤ 57 := by
    intro m t hm
    obtain ⟨c, m', rfl⟩ := List.exists_cons_of_ne_nil hm.1.1
    exact ⟨c, m' ++ t, rfl, hm.1.2 c (by simp)⟩
  cases h with
  | plain hm => simpa using key _ [] hm
  | scientific hm => exact key _ _ hm
  | power hm => exact key _ _ hm

end Verif.Proofs.Options
