import Verif.Model.Format
import Verif.Spec.NumberText
import Verif.Proofs.Witness
import Verif.Props.Bits

/-!
# Texts for numbers in messages
-/

namespace Verif.Proofs.Format

open Verif.Model Verif.Model.Format
open Verif.Spec.OptionValue (Digits num)

/-- Decimal numbers of at most 64 bits. -/
theorem printNat_num {n : Nat} (h : n < 2 ^ 64) : Digits (printNat n) ∧ num (printNat n) = n ∧
    (n ≠ 0 → (printNat n).head? ≠ some 48) ∧ ∀ k, n < 10 ^ k → 0 < k → (printNat n).length ≤ k :=
  Witness.printNat_spec h

theorem printNat_len {n : Nat} (h : n < 2 ^ 64) : (printNat n).length ≤ 20 :=
  (printNat_num h).2.2.2 20 (Nat.lt_trans h (by decide)) (by decide)

theorem exponentLoop_spec {k : Nat} : ∀ n l, l ≤ k → k < l + n → exponentLoop (2 ^ k) n l = k
  | 0, l, h1, h2 => by omega
  | n + 1, l, h1, h2 => by
    unfold exponentLoop
    rw [Nat.one_shiftLeft]
    by_cases h : l = k
    · subst h; simp
    · rw [if_pos (fun e => h (Nat.pow_right_injective (le_refl 2) e))]
      exact exponentLoop_spec n (l + 1) (by omega) (by omega)

theorem zeroesLoop_spec : ∀ n w l, w ≠ 0 → w < 10 ^ n →
    (zeroesLoop n w l).1 * 10 ^ ((zeroesLoop n w l).2 - l) = w ∧ l ≤ (zeroesLoop n w l).2 ∧
      (zeroesLoop n w l).2 ≤ l + n ∧ (zeroesLoop n w l).1 ≤ w ∧ (zeroesLoop n w l).1 % 10 ≠ 0
  | 0, w, l, h0, h => by simp at h; omega
  | n + 1, w, l, h0, h => by
    unfold zeroesLoop
    by_cases hz : w % 10 = 0
    · rw [if_pos hz]
      have hlt : w / 10 < 10 ^ n := by
        rw [Nat.div_lt_iff_lt_mul (by omega)]; rw [Nat.pow_succ] at h; exact h
      obtain ⟨i1, i2, i3, i4, i5⟩ := zeroesLoop_spec n (w / 10) (l + 1) (by omega) hlt
      refine ⟨?_, by omega, by omega, by omega, i5⟩
      rw [show (zeroesLoop n (w / 10) (l + 1)).2 - l = (zeroesLoop n (w / 10) (l + 1)).2 - (l + 1) + 1 by
        omega, Nat.pow_succ, ← Nat.mul_assoc, i1]
      omega
    · rw [if_neg hz]
      simp only [Nat.sub_self, Nat.pow_zero, Nat.mul_one]
      exact ⟨trivial, Nat.le_refl _, by omega, Nat.le_refl _, hz⟩

/-- The three forms of numbers. -/
theorem countText_cases {w : Nat} (h : w < 2 ^ 64) :
    countText w = printNat w ∨
    (∃ k, 7 ≤ k ∧ k < 64 ∧ w = 2 ^ k ∧ countText w = 50 :: 94 :: printNat k) ∨
    ∃ m e, m * 10 ^ e = w ∧ m ≠ 0 ∧ e ≤ 20 ∧ countText w = printNat m ++ 101 :: printNat e := by
  unfold countText
  split
  · rename_i hc
    obtain ⟨k, hk⟩ := (Props.C33_power_of_two w h).1 hc.2
    refine .inr (.inl ⟨k, ?_, ?_, hk, ?_⟩)
    · apply Nat.le_of_not_lt
      intro hlt
      have : 2 ^ k ≤ 2 ^ 6 := Nat.pow_le_pow_right (by decide) (by omega)
      omega
    · apply Nat.lt_of_not_le
      intro hle
      have : 2 ^ 64 ≤ 2 ^ k := Nat.pow_le_pow_right (by decide) hle
      omega
    · have hk64 : k < 64 := by
        apply Nat.lt_of_not_le
        intro hle
        have : 2 ^ 64 ≤ 2 ^ k := Nat.pow_le_pow_right (by decide) hle
        omega
      rw [hk, exponentLoop_spec 64 0 (by omega) (by omega)]; rfl
  · split
    · rename_i hc
      obtain ⟨h1, h2, h3, h4, h5⟩ := zeroesLoop_spec 20 w 0 (by omega) (Nat.lt_trans h (by decide))
      refine .inr (.inr ⟨(zeroesLoop 20 w 0).1, (zeroesLoop 20 w 0).2, by simpa using h1, fun e => ?_,
        by omega, rfl⟩)
      rw [e] at h5; omega
    · exact .inl rfl

theorem countText_len {w : Nat} (h : w < 2 ^ 64) : (countText w).length ≤ 41 := by
  rcases countText_cases h with e | ⟨k, _, h2, _, e⟩ | ⟨m, x, h1, _, h3, e⟩
  · rw [e]; have := printNat_len h; omega
  · rw [e]
    have := printNat_len (n := k) (by omega)
    simp only [List.length_cons]; omega
  · rw [e]
    have hm : m ≤ w := by rw [← h1]; exact Nat.le_mul_of_pos_right _ (by positivity)
    have := printNat_len (n := m) (by omega)
    have := printNat_len (n := x) (by omega)
    simp only [List.length_append, List.length_cons]; omega

theorem countText_denotes {w : Nat} (h : w < 2 ^ 64) : Spec.NumberText.Denotes (countText w) w := by
  rcases countText_cases h with e | ⟨k, _, h2, hw, e⟩ | ⟨m, x, h1, _, h3, e⟩
  · rw [e]
    obtain ⟨a, b, _⟩ := printNat_num h
    have := Spec.NumberText.Denotes.plain a
    rw [b] at this; exact this
  · rw [e]
    obtain ⟨a, b, _⟩ := printNat_num (n := k) (by omega)
    have := Spec.NumberText.Denotes.power (b := [50]) ⟨by simp, by simp⟩ a
    rw [b, show num [50] = 2 from rfl, ← hw] at this; exact this
  · rw [e]
    have hm : m ≤ w := by rw [← h1]; exact Nat.le_mul_of_pos_right _ (by positivity)
    obtain ⟨a, b, _⟩ := printNat_num (n := m) (by omega)
    obtain ⟨c, d, _⟩ := printNat_num (n := x) (by omega)
    have := Spec.NumberText.Denotes.scientific a c
    rw [b, d, h1] at this; exact this

/-- As values of options. -/
theorem countText_magnitude {w : Nat} (h : w < 2 ^ 31) :
    Spec.OptionValue.Magnitude (countText w) w := by
  open Spec.OptionValue in
  have hnum : ∀ {n}, n < 2 ^ 31 → Number (printNat n) := by
    intro n hn
    obtain ⟨a, b, c, d⟩ := printNat_num (n := n) (by omega)
    refine ⟨a, ?_, by rw [b]; omega⟩
    rintro ⟨t, ht⟩
    by_cases h0 : n = 0
    · have := d 1 (by omega) (by decide)
      rw [ht] at this; simp at this
    · exact c h0 (by rw [ht]; rfl)
  rcases countText_cases (w := w) (by omega) with e | ⟨k, h1, h2, hw, e⟩ | ⟨m, x, h1, hm0, h3, e⟩
  · rw [e]
    have := Magnitude.plain (hnum h)
    rw [(printNat_num (n := w) (by omega)).2.1] at this; exact this
  · rw [e]
    obtain ⟨a, b, c, d⟩ := printNat_num (n := k) (by omega)
    have := Magnitude.power (b := [50]) (e := printNat k) ⟨⟨by simp, by simp⟩, by simp, by decide⟩ a
      (fun _ => ⟨d 2 (by omega) (by decide), fun e => c (by omega) (by rw [e]; rfl)⟩)
      (fun e => by simp [num] at e)
    rw [b, show num [50] = 2 from rfl, ← hw] at this; exact this
  · rw [e]
    have hm : m ≤ w := by rw [← h1]; exact Nat.le_mul_of_pos_right _ (by positivity)
    have hx : x < 10 := by
      apply Nat.lt_of_not_le
      intro hle
      have h10 : 10 ^ 10 ≤ 10 ^ x := Nat.pow_le_pow_right (by decide) hle
      have : 10 ^ x ≤ m * 10 ^ x := Nat.le_mul_of_pos_left _ (by omega)
      omega
    obtain ⟨a, b, _⟩ := printNat_num (n := m) (by omega)
    obtain ⟨c, d, _, k⟩ := printNat_num (n := x) (by omega)
    have hl := k 1 (by omega) (by decide)
    have := Magnitude.scientific (m := printNat m) (d := printNat x) (hnum (by omega)) c
      (fun _ => by
        have := List.length_pos_iff.2 c.1
        omega)
    rw [b, d, h1] at this; exact this

theorem printNat_bytes {n c : Nat} (h : n < 2 ^ 64) (hc : c ∈ printNat n) : 48 ≤ c ∧ c ≤ 57 :=
  (printNat_num h).1.2 c hc

theorem countText_bytes {w c : Nat} (h : w < 2 ^ 64) (hc : c ∈ countText w) :
    (48 ≤ c ∧ c ≤ 57) ∨ c = 94 ∨ c = 101 := by
  rcases countText_cases h with e | ⟨k, _, h2, hw, e⟩ | ⟨m, x, h1, _, h3, e⟩ <;> rw [e] at hc
  · exact .inl (printNat_bytes h hc)
  · simp only [List.mem_cons] at hc
    rcases hc with rfl | rfl | hc
    · exact .inl (by omega)
    · exact .inr (.inl rfl)
    · exact .inl (printNat_bytes (by omega) hc)
  · have hm : m ≤ w := by rw [← h1]; exact Nat.le_mul_of_pos_right _ (by positivity)
    simp only [List.mem_append, List.mem_cons] at hc
    rcases hc with hc | rfl | hc
    · exact .inl (printNat_bytes (by omega) hc)
    · exact .inr (.inr rfl)
    · exact .inl (printNat_bytes (by omega) hc)

/-- Rounding. -/
theorem round_near (n k : Nat) (hk : 0 < k) :
    n ≤ (n + 2 ^ (k - 1)) / 2 ^ k * 2 ^ k + 2 ^ (k - 1) ∧
    (n + 2 ^ (k - 1)) / 2 ^ k * 2 ^ k ≤ n + 2 ^ (k - 1) := by
  obtain ⟨j, rfl⟩ : ∃ j, k = j + 1 := ⟨k - 1, by omega⟩
  have e : 2 ^ (j + 1) = 2 * 2 ^ j := by rw [Nat.pow_succ]; omega
  rw [Nat.add_sub_cancel]
  generalize hA : 2 ^ j = A at *
  have hp : 0 < A := by rw [← hA]; exact Nat.two_pow_pos j
  rw [e]
  have h1 := Nat.div_add_mod (n + A) (2 * A)
  have h2 := Nat.mod_lt (n + A) (show 0 < 2 * A by omega)
  rw [Nat.mul_comm] at h1
  constructor <;> omega

/-- The part of the text in parentheses. -/
def Rounded (n : Nat) (rest : List Nat) : Prop :=
  ∃ k q u, ((k, u) = (10, 75) ∨ (k, u) = (20, 77) ∨ (k, u) = (30, 71)) ∧ 2 ^ k ≤ n ∧
    (k < 30 → n < 2 ^ (k + 10)) ∧ rest = [32, 40] ++ q ++ [32, u, 66, 41] ∧ Digits q ∧
    n ≤ num q * 2 ^ k + 2 ^ (k - 1) ∧ num q * 2 ^ k ≤ n + 2 ^ (k - 1)

theorem rounded_ok {n k j u K H : Nat} (hku : (k, u) = (10, 75) ∨ (k, u) = (20, 77) ∨ (k, u) = (30, 71))
    (hj : j = k - 1) (hH : H = 2 ^ j) (hK : K = 2 ^ k) (hk : 0 < k) (h : n + H < 2 ^ 64) (h1 : K ≤ n)
    (h2 : k < 30 → n < 2 ^ (k + 10)) :
    Rounded n ([32, 40] ++ printNat (((n + H) % 2 ^ 64) >>> k) ++ [32, u, 66, 41]) := by
  subst hj hH hK
  rw [Nat.mod_eq_of_lt h, Nat.shiftRight_eq_div_pow]
  obtain ⟨a1, a2, _⟩ := printNat_num (n := (n + 2 ^ (k - 1)) / 2 ^ k)
    (Nat.lt_of_le_of_lt (Nat.div_le_self _ _) h)
  obtain ⟨r1, r2⟩ := round_near n k hk
  exact ⟨k, _, u, hku, h1, h2, rfl, a1, by rw [a2]; exact r1, by rw [a2]; exact r2⟩

theorem bytesText_shape {n : Nat} (hn : n + 2 ^ 29 < 2 ^ 64) :
    ∃ rest, bytesText n = printNat n ++ [32, 98, 121, 116, 101, 115] ++ rest ∧
      (n < 2 ^ 10 ∧ rest = [] ∨ Rounded n rest) := by
  unfold bytesText
  simp only []
  split
  · rename_i h
    exact ⟨[], by rw [List.append_nil], .inl ⟨h, rfl⟩⟩
  split
  · rename_i h1 h2
    refine ⟨_, by simp only [List.append_assoc]; rfl, .inr ?_⟩
    simpa only [List.append_assoc] using rounded_ok (n := n) (k := 10) (j := 9) (u := 75) (K := 2 ^ 10)
      (H := 2 ^ 9) (.inl rfl) rfl rfl rfl (by decide) (by omega) (by omega) (fun _ => h2)
  split
  · rename_i h1 h2 h3
    refine ⟨_, by simp only [List.append_assoc]; rfl, .inr ?_⟩
    simpa only [List.append_assoc] using rounded_ok (n := n) (k := 20) (j := 19) (u := 77) (K := 2 ^ 20)
      (H := 2 ^ 19) (.inr (.inl rfl)) rfl rfl rfl (by decide) (by omega) (by omega) (fun _ => h3)
  · rename_i h1 h2 h3
    refine ⟨_, by simp only [List.append_assoc]; rfl, .inr ?_⟩
    simpa only [List.append_assoc] using rounded_ok (n := n) (k := 30) (j := 29) (u := 71) (K := 2 ^ 30)
      (H := 2 ^ 29) (.inr (.inr rfl)) rfl rfl rfl (by decide) (by omega) (by omega)
      (fun h => absurd h (by decide))

theorem bytesText_len {n : Nat} (h : n < 2 ^ 64) : (bytesText n).length ≤ 60 := by
  have hn := printNat_len h
  have key : ∀ a k, (printNat ((a % 2 ^ 64) >>> k)).length ≤ 20 := fun a k => by
    refine printNat_len ?_
    rw [Nat.shiftRight_eq_div_pow]
    exact Nat.lt_of_le_of_lt (Nat.div_le_self _ _) (Nat.mod_lt _ (by decide))
  have k1 := key (n + 2 ^ 9) 10
  have k2 := key (n + 2 ^ 19) 20
  have k3 := key (n + 2 ^ 29) 30
  unfold bytesText
  simp only []
  split
  · simp only [List.length_append, List.length_cons, List.length_nil]; omega
  split
  · simp only [List.length_append, List.length_cons, List.length_nil]; omega
  split
  · simp only [List.length_append, List.length_cons, List.length_nil]; omega
  · simp only [List.length_append, List.length_cons, List.length_nil]; omega

theorem timePart_len {t : List Nat} {n u : Nat} (h : n < 2 ^ 64) :
    (timePart t n u).length ≤ t.length + 22 := by
  have := printNat_len h
  unfold timePart
  split
  · split <;> simp only [List.length_append, List.length_cons, List.length_nil] <;> omega
  · omega

theorem timeText_len {r : Nat} (h : r < 2 ^ 64) : (timeText r).length ≤ 88 := by
  unfold timeText
  simp only []
  have h1 := timePart_len (t := []) (n := r / 60 / 60 / 24) (u := 100) (by omega)
  have h2 := timePart_len (t := timePart [] (r / 60 / 60 / 24) 100) (n := r / 60 / 60 % 24) (u := 104)
    (by omega)
  have h3 := timePart_len (t := timePart (timePart [] (r / 60 / 60 / 24) 100) (r / 60 / 60 % 24) 104)
    (n := r / 60 % 60) (u := 109) (by omega)
  have h4 := timePart_len (t := timePart (timePart (timePart [] (r / 60 / 60 / 24) 100)
    (r / 60 / 60 % 24) 104) (r / 60 % 60) 109) (n := r % 60) (u := 115) (by omega)
  simp only [List.length_nil] at h1
  omega

open Spec.NumberText in
theorem duration_nil {t : List Nat} {a : Nat} (h : Duration t a) (ht : t = []) : a = 0 := by
  cases h with
  | zero => rfl
  | one => simp at ht
  | more => simp at ht

open Spec.NumberText in
theorem timePart_duration {t : List Nat} {a n u k : Nat} (h : n < 2 ^ 64) (ht : Duration t a)
    (hu : (u, k) ∈ [(100, 86400), (104, 3600), (109, 60), (115, 1)]) :
    Duration (timePart t n u) (a + n * k) := by
  obtain ⟨c, d, _⟩ := printNat_num h
  unfold timePart
  split
  · split
    · rename_i h1 h2
      have := Duration.more ht h2 c d.symm hu
      simpa using this
    · rename_i h1 h2
      have e : t = [] := by simpa using h2
      subst e
      have ha : a = 0 := duration_nil ht rfl
      subst ha
      have := Duration.one c d.symm hu
      simpa using this
  · rename_i h1
    have : n = 0 := by simpa using h1
    subst this
    simpa using ht

theorem timeText_duration {r : Nat} (h : r < 2 ^ 64) : Spec.NumberText.Duration (timeText r) r := by
  unfold timeText
  simp only []
  have h1 := timePart_duration (n := r / 60 / 60 / 24) (u := 100) (k := 86400) (by omega)
    Spec.NumberText.Duration.zero (by simp)
  have h2 := timePart_duration (n := r / 60 / 60 % 24) (u := 104) (k := 3600) (by omega) h1 (by simp)
  have h3 := timePart_duration (n := r / 60 % 60) (u := 109) (k := 60) (by omega) h2 (by simp)
  have h4 := timePart_duration (n := r % 60) (u := 115) (k := 1) (by omega) h3 (by simp)
  have e : 0 + r / 60 / 60 / 24 * 86400 + r / 60 / 60 % 24 * 3600 + r / 60 % 60 * 60 + r % 60 * 1 = r := by
    omega
  rw [e] at h4
  exact h4

/-- Every call succeeds, takes at most one string and leaves the others alone. -/
structure Done (b b' : Buffer) (p : Pointer) : Prop where
  pos : b'.pos < 16
  kept : (b' = b ∧ ∃ t, p = .constant t) ∨
    (b'.pos = (b.pos + 1) % 16 ∧ p = .buffer b.pos ∧ ∀ j, j ≠ b.pos → b'.str j = b.str j)

theorem next_spec {b : Buffer} (h : b.pos < 16) :
    b.next = some (⟨(b.pos + 1) % 16, b.str⟩, b.pos) := by
  unfold Buffer.next
  rw [if_pos h]
  congr 3
  split <;> omega

theorem write_done {b : Buffer} (h : b.pos < 16) {t : List Nat} (ht : t.length ≤ 127) :
    ∃ b', (b.next.bind fun (b, i) => (b.write i t).map fun b => (b, Pointer.buffer i)) =
      some (b', .buffer b.pos) ∧ Done b b' (.buffer b.pos) ∧ b'.str b.pos = t := by
  rw [next_spec h]
  refine ⟨⟨(b.pos + 1) % 16, fun j => if j = b.pos then t else b.str j⟩, ?_,
    ⟨Nat.mod_lt _ (by decide), .inr ⟨rfl, rfl, fun j hj => if_neg hj⟩⟩, if_pos rfl⟩
  simp only [Option.bind_some, Buffer.write]
  rw [if_pos (by omega)]
  rfl

theorem run_done {b : Buffer} (h : b.pos < 16) {c : Call} (hc : c.Typed) :
    ∃ b' p, c.run b = some (b', p) ∧ Done b b' p := by
  cases c with
  | count w =>
    obtain ⟨b', h1, h2, _⟩ := write_done h (t := countText w) (by have := countText_len hc; omega)
    exact ⟨b', _, h1, h2⟩
  | value boolean v =>
    obtain ⟨hl, hu⟩ := hc
    simp only [Call.run, formatValue]
    split
    · exact ⟨b, _, rfl, h, .inl ⟨rfl, _, rfl⟩⟩
    split
    · exact ⟨b, _, rfl, h, .inl ⟨rfl, _, rfl⟩⟩
    split
    · exact ⟨b, _, rfl, h, .inl ⟨rfl, _, rfl⟩⟩
    split
    · exact ⟨b, _, rfl, h, .inl ⟨rfl, _, rfl⟩⟩
    · have hlen : (if v < 0 then 45 :: countText v.natAbs else countText v.natAbs).length ≤ 127 := by
        have := countText_len (w := v.natAbs) (by omega)
        split
        · simp only [List.length_cons]; omega
        · omega
      obtain ⟨b', h1, h2, _⟩ := write_done h hlen
      exact ⟨b', _, h1, h2⟩
  | bytes n =>
    obtain ⟨b', h1, h2, _⟩ := write_done h (t := bytesText n) (by have := bytesText_len hc; omega)
    exact ⟨b', _, h1, h2⟩
  | time z r =>
    simp only [Call.run, formatTime]
    split
    · exact ⟨b, _, rfl, h, .inl ⟨rfl, _, rfl⟩⟩
    · by_cases hr : r = 0
      · simp only [if_pos hr]
        rw [next_spec h]
        exact ⟨_, _, rfl, Nat.mod_lt _ (by decide), .inr ⟨rfl, rfl, fun _ _ => rfl⟩⟩
      · simp only [if_neg hr]
        obtain ⟨b', h1, h2, _⟩ := write_done h (t := timeText r) (by have := timeText_len hc; omega)
        exact ⟨b', _, h1, h2⟩
  | ordinal n =>
    have hs : (ordinalSuffix n).length = 2 := by
      unfold ordinalSuffix; simp only []
      split
      · rfl
      · split <;> rfl
    obtain ⟨b', h1, h2, _⟩ := write_done h (t := printNat n ++ ordinalSuffix n) (by
      have := printNat_len hc
      rw [List.length_append]; omega)
    exact ⟨b', _, h1, h2⟩

/-- After `m` of at most 15 further calls the string `i`, which is at distance `d` behind the next one,
is the same. -/
theorem runAll_kept : ∀ (cs : List Call) (b : Buffer) (i d : Nat), b.pos < 16 → i < 16 →
    (i + d) % 16 = b.pos → d + cs.length ≤ 16 → 1 ≤ d → (∀ c ∈ cs, c.Typed) →
    ∃ b' ps, runAll b cs = some (b', ps) ∧ b'.str i = b.str i
  | [], b, i, d, _, _, _, _, _, _ => ⟨b, [], rfl, rfl⟩
  | c :: cs, b, i, d, h1, h2, h3, h4, h5, h6 => by
    obtain ⟨b1, p, e, hd⟩ := run_done h1 (h6 c (by simp))
    rw [List.length_cons] at h4
    unfold runAll
    rw [e]
    simp only []
    rcases hd.kept with ⟨rfl, _⟩ | ⟨k1, _, k2⟩
    · obtain ⟨b', ps, f, g⟩ := runAll_kept cs b1 i d h1 h2 h3 (by omega) h5 (fun c hc => h6 c (by simp [hc]))
      exact ⟨b', p :: ps, by rw [f]; rfl, g⟩
    · obtain ⟨b', ps, f, g⟩ := runAll_kept cs b1 i (d + 1) hd.pos h2 (by omega) (by omega) (by omega)
        (fun c hc => h6 c (by simp [hc]))
      exact ⟨b', p :: ps, by rw [f]; rfl, g.trans (k2 i (by omega))⟩

end Verif.Proofs.Format
