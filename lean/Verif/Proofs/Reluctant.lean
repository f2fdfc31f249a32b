import Verif.Spec.Luby
import Verif.Model.Reluctant
import Mathlib.Data.Nat.Bitwise
import Mathlib.Tactic.Ring
import Mathlib.Tactic.Linarith
import Mathlib.Logic.Function.Iterate

namespace Verif.Proofs.Reluctant
open Verif.Spec Verif.Model Verif.Model.Reluctant

/-- `u & -u` isolates the lowest bit -/
theorem lowbit (k m : Nat) (h : 2 ^ k * (2 * m + 1) < 2 ^ 64) :
    (2 ^ k * (2 * m + 1)) &&& ((2 ^ 64 - 2 ^ k * (2 * m + 1)) % 2 ^ 64) = 2 ^ k := by
  have hk : k < 64 := by
    by_contra hk
    have : 2 ^ 64 ≤ 2 ^ k := Nat.pow_le_pow_right (by decide) (by omega)
    have : 2 ^ k * 1 ≤ 2 ^ k * (2 * m + 1) := Nat.mul_le_mul_left _ (by omega)
    omega
  have hpos : 0 < 2 ^ k := Nat.two_pow_pos k
  have h64 : 2 ^ 64 = 2 ^ k * (2 * 2 ^ (63 - k)) := by
    rw [← Nat.pow_succ', ← Nat.pow_add]; congr 1; omega
  have hm : m < 2 ^ (63 - k) := by
    rw [h64] at h
    have := Nat.lt_of_mul_lt_mul_left h
    omega
  have hmod : (2 ^ 64 - 2 ^ k * (2 * m + 1)) % 2 ^ 64 =
      2 ^ k * (2 * (2 ^ (63 - k) - (m + 1)) + 1) := by
    rw [Nat.mod_eq_of_lt (by have : 0 < 2 ^ k * (2 * m + 1) := by positivity
                             omega), h64, ← Nat.mul_sub]
    congr 1
    omega
  rw [hmod]
  apply Nat.eq_of_testBit_eq
  intro i
  rw [Nat.testBit_and, Nat.testBit_two_pow_mul, Nat.testBit_two_pow_mul, Nat.testBit_two_pow]
  by_cases h1 : k ≤ i
  · obtain ⟨j, rfl⟩ := Nat.exists_eq_add_of_le h1
    cases j with
    | zero => simp
    | succ j =>
      have e : k + (j + 1) - k = j + 1 := by omega
      rw [e, Nat.testBit_succ, Nat.testBit_succ]
      have e1 : (2 * m + 1) / 2 = m := by omega
      have e2 : (2 * (2 ^ (63 - k) - (m + 1)) + 1) / 2 = 2 ^ (63 - k) - (m + 1) := by omega
      rw [e1, e2, Nat.testBit_two_pow_sub_succ hm]
      have : ¬ k = k + (j + 1) := by omega
      simp only [this, decide_false]
      cases m.testBit j <;> simp
  · have : ¬ k = i := by omega
    simp [h1, this]

/-- the exact step, without overflow -/
theorem nextUV_eq (k m v : Nat) (h : 2 ^ k * (2 * m + 1) + 1 < 2 ^ 64) (hv : v * 2 < 2 ^ 64) :
    nextUV (2 ^ k * (2 * m + 1)) v =
      if v = 2 ^ k then (2 ^ k * (2 * m + 1) + 1, 1) else (2 ^ k * (2 * m + 1), v * 2) := by
  unfold nextUV
  rw [lowbit k m (by omega), Nat.mod_eq_of_lt h, Nat.mod_eq_of_lt hv]
  by_cases hvk : v = 2 ^ k
  · rw [if_pos hvk, if_pos hvk.symm]
  · rw [if_neg hvk, if_neg (fun e => hvk e.symm)]

theorem luby_top (k : Nat) : luby (2 ^ (k + 1) - 1) = 2 ^ k := by
  unfold luby
  have h : 2 ^ (k + 1) - 1 + 1 = 2 ^ (k + 1) := by
    have : 0 < 2 ^ (k + 1) := Nat.two_pow_pos _
    omega
  rw [h, Nat.log2_two_pow]
  simp

theorem luby_rep (k i : Nat) (h1 : 1 ≤ i) (h2 : i < 2 ^ (k + 1)) :
    luby (2 ^ (k + 1) - 1 + i) = luby i := by
  have hp : 2 ^ (k + 2) = 2 * 2 ^ (k + 1) := by ring
  have h : 2 ^ (k + 1) - 1 + i + 1 = 2 ^ (k + 1) + i := by omega
  have hlog : (2 ^ (k + 1) + i).log2 = k + 1 := by
    rw [Nat.log2_eq_iff (by omega)]; omega
  rw [luby, h, hlog, if_neg (by omega)]
  congr 1
  omega

theorem two_pow_odd (n : Nat) (h : n ≠ 0) : ∃ j m, n = 2 ^ j * (2 * m + 1) := by
  induction n using Nat.strongRecOn with
  | ind n ih =>
    by_cases h2 : n % 2 = 1
    · exact ⟨0, n / 2, by omega⟩
    · obtain ⟨j, m, hjm⟩ := ih (n / 2) (by omega) (by omega)
      refine ⟨j + 1, m, ?_⟩
      have : n = 2 * (n / 2) := by omega
      rw [this, hjm]; ring

theorem luby_le (i : Nat) (h : 1 ≤ i) : luby i ≤ i := by
  induction i using Nat.strongRecOn with
  | ind i ih =>
    rw [luby]
    have hle := Nat.log2_self_le (n := i + 1) (by omega)
    have hlt := Nat.lt_log2_self (n := i + 1)
    have hl : (i + 1).log2 ≠ 0 := by
      intro h0; rw [h0] at hlt; omega
    have hp : 2 ^ (i + 1).log2 = 2 * 2 ^ ((i + 1).log2 - 1) := by
      rw [← Nat.pow_succ']; congr 1; omega
    have hpos : 0 < 2 ^ ((i + 1).log2 - 1) := Nat.two_pow_pos _
    split
    · omega
    · have := ih (i + 1 - 2 ^ (i + 1).log2) (by omega) (by omega)
      omega

theorem luby_pos (i : Nat) : 1 ≤ luby i := by
  induction i using Nat.strongRecOn with
  | ind i ih =>
    rw [luby]
    split
    · exact Nat.two_pow_pos _
    · next h =>
      by_cases h0 : i = 0
      · subst h0; exact absurd (by decide) h
      · have hlt := Nat.lt_log2_self (n := i + 1)
        have hle := Nat.log2_self_le (n := i + 1) (by omega)
        have hl : (i + 1).log2 ≠ 0 := by
          intro h0; rw [h0] at hlt; omega
        have hp : 2 ^ (i + 1).log2 = 2 * 2 ^ ((i + 1).log2 - 1) := by
          rw [← Nat.pow_succ']; congr 1; omega
        have hpos : 0 < 2 ^ ((i + 1).log2 - 1) := Nat.two_pow_pos _
        exact ih _ (by omega)

/-- step on pairs -/
def step (p : Nat × Nat) : Nat × Nat := nextUV p.1 p.2

theorem block (k u0 : Nat) (hd : 2 ^ k ∣ u0) (hb : u0 + 2 ^ k + 1 < 2 ^ 63) :
    (∀ i < 2 ^ (k + 1) - 1, (step^[i] (u0 + 1, 1)).2 = luby (i + 1) ∧
      (step^[i] (u0 + 1, 1)).2 ≤ 2 ^ k) ∧
    step^[2 ^ (k + 1) - 2] (u0 + 1, 1) = (u0 + 2 ^ k, 2 ^ k) := by
  induction k generalizing u0 with
  | zero =>
    constructor
    · intro i hi
      have : i = 0 := by simp at hi; omega
      subst this
      have := luby_top 0
      simp at this
      simp [this]
    · simp
  | succ k ih =>
    have hp : 2 ^ (k + 1) = 2 * 2 ^ k := by ring
    have hp2 : 2 ^ (k + 1 + 1) = 2 * 2 ^ (k + 1) := by ring
    have hpos : 0 < 2 ^ k := Nat.two_pow_pos k
    obtain ⟨w, rfl⟩ := hd
    obtain ⟨ha, hb1⟩ := ih (2 ^ (k + 1) * w) (Dvd.dvd.mul_right (pow_dvd_pow 2 (by omega)) w)
      (by omega)
    obtain ⟨hc, hd1⟩ := ih (2 ^ (k + 1) * w + 2 ^ k)
      (Nat.dvd_add (Dvd.dvd.mul_right (pow_dvd_pow 2 (by omega)) w) (dvd_refl _)) (by omega)
    -- the step between the two halves
    have hmid : step^[2 ^ (k + 1) - 1] (2 ^ (k + 1) * w + 1, 1) =
        (2 ^ (k + 1) * w + 2 ^ k + 1, 1) := by
      have e : 2 ^ (k + 1) - 1 = (2 ^ (k + 1) - 2) + 1 := by omega
      rw [e, Function.iterate_succ_apply', hb1]
      have e2 : 2 ^ (k + 1) * w + 2 ^ k = 2 ^ k * (2 * w + 1) := by rw [hp]; ring
      have := nextUV_eq k w (2 ^ k) (by rw [← e2]; omega) (by omega)
      simp only [step]
      rw [e2, this, if_pos rfl]
    have hlast : step^[2 ^ (k + 1 + 1) - 3] (2 ^ (k + 1) * w + 1, 1) =
        (2 ^ (k + 1) * w + 2 ^ (k + 1), 2 ^ k) := by
      have e : 2 ^ (k + 1 + 1) - 3 = (2 ^ (k + 1) - 2) + (2 ^ (k + 1) - 1) := by omega
      rw [e, Function.iterate_add_apply, hmid, hd1, Nat.add_assoc]
      congr 2
      omega
    have hfin : step^[2 ^ (k + 1 + 1) - 2] (2 ^ (k + 1) * w + 1, 1) =
        (2 ^ (k + 1) * w + 2 ^ (k + 1), 2 ^ (k + 1)) := by
      have e : 2 ^ (k + 1 + 1) - 2 = (2 ^ (k + 1 + 1) - 3) + 1 := by omega
      rw [e, Function.iterate_succ_apply', hlast]
      have e2 : 2 ^ (k + 1) * w + 2 ^ (k + 1) = 2 ^ (k + 1) * (w + 1) := by ring
      -- the lowest bit of the first component is at least 2^(k+1)
      obtain ⟨j, m', hjm⟩ := two_pow_odd (w + 1) (by omega)
      have e3 : 2 ^ (k + 1) * (w + 1) = 2 ^ (k + 1 + j) * (2 * m' + 1) := by
        rw [hjm, pow_add]; ring
      have := nextUV_eq (k + 1 + j) m' (2 ^ k) (by rw [← e3, ← e2]; omega) (by omega)
      simp only [step]
      rw [e2, e3, this, if_neg]
      · congr 1
      · intro h
        have : 2 ^ k < 2 ^ (k + 1 + j) := Nat.pow_lt_pow_right (by decide) (by omega)
        omega
    refine ⟨?_, hfin⟩
    intro i hi
    by_cases h1 : i < 2 ^ (k + 1) - 1
    · have := ha i h1; exact ⟨this.1, by omega⟩
    · by_cases h2 : i < 2 ^ (k + 1 + 1) - 2
      · obtain ⟨j, rfl⟩ := Nat.exists_eq_add_of_le' (Nat.le_of_not_lt h1)
        have hj : j < 2 ^ (k + 1) - 1 := by omega
        rw [Function.iterate_add_apply, hmid]
        have := hc j hj
        refine ⟨?_, by omega⟩
        rw [this.1]
        rw [← luby_rep k (j + 1) (by omega) (by omega)]; congr 1; omega
      · have : i = 2 ^ (k + 1 + 1) - 2 := by omega
        subst this
        rw [hfin]
        refine ⟨?_, le_refl _⟩
        have e : 2 ^ (k + 1 + 1) - 2 + 1 = 2 ^ (k + 1 + 1) - 1 := by omega
        rw [e, luby_top]

theorem luby_step (i : Nat) (hi : 1 ≤ i) (hb : i < 2 ^ 63) :
    (step^[i - 1] (1, 1)).2 = luby i := by
  have := (block 62 0 (dvd_zero _) (by norm_num)).1 (i - 1) (by norm_num at hb ⊢; omega)
  have h := this.1
  simp only [Nat.zero_add] at h
  rw [h]; congr 1; omega

/-- the concrete state implements the abstract one -/
structure Refines (period limit : Nat) (r : Reluctant) (s : Schedule) : Prop where
  per : r.period = period
  lim : r.limit = limit
  limited : r.limited = decide (limit ≠ 0)
  trigger : r.trigger = s.due
  wait : r.wait = s.remaining
  pos : 1 ≤ s.remaining
  small : s.remaining < 2 ^ 64
  index : 1 ≤ s.index
  uv : (r.u, r.v) = step^[s.index - 1] (1, 1)
  within : limit ≠ 0 → ∀ j, 1 ≤ j → j ≤ s.index → period * luby j ≤ limit

/-- no overflow can happen for this index -/
def Safe (period limit i : Nat) : Prop :=
  (limit ≠ 0 ∧ limit < 2 ^ 61) ∨ (limit = 0 ∧ (i + 1) * period < 2 ^ 61)

theorem refines_enable (period limit : Nat) (hp : 1 ≤ period) (hs : period < 2 ^ 64) :
    Refines (if limit ≠ 0 ∧ period > limit then limit else period) limit
      (Reluctant.enable period limit)
      ⟨1, if limit ≠ 0 ∧ period > limit then limit else period, false⟩ := by
  have h1 : luby 1 = 1 := luby_top 0
  generalize hP : (if limit ≠ 0 ∧ period > limit then limit else period) = P
  have hP1 : 1 ≤ P := by rw [← hP]; split <;> omega
  have hP2 : P < 2 ^ 64 := by rw [← hP]; split <;> omega
  have hP3 : limit ≠ 0 → P ≤ limit := by intro h; rw [← hP]; split <;> omega
  unfold Reluctant.enable
  simp only [hP]
  refine ⟨rfl, rfl, ?_, rfl, rfl, hP1, hP2, le_refl _, rfl, ?_⟩
  · simp only [decide_eq_decide]; omega
  · intro h j hj hj2
    have : j = 1 := by simp only at hj2; omega
    subst this
    rw [h1, Nat.mul_one]; exact hP3 h

theorem refines_tick {period limit : Nat} (hp : 1 ≤ period) {r : Reluctant} {s : Schedule}
    (h : Refines period limit r s) (hsafe : Safe period limit (s.index + 1)) :
    Refines period limit r.tick (s.next period limit .conflict).1 := by
  obtain ⟨h1, h2, h3, h4, h5, h6, h7, h8, h9, h10⟩ := h
  unfold Reluctant.tick Schedule.next
  rw [if_neg (by omega), h4]
  by_cases hdue : s.due
  · simp only [hdue, if_true]
    exact ⟨h1, h2, h3, by rw [h4, hdue], h5, h6, h7, h8, h9, h10⟩
  · simp only [hdue, Bool.false_eq_true, if_false]
    have hw : (r.wait + 2 ^ 64 - 1) % 2 ^ 64 = s.remaining - 1 := by
      rw [h5]; omega
    simp only [hw]
    by_cases hr : s.remaining = 1
    · have hz : ¬ (s.remaining - 1 ≠ 0) := by omega
      simp only [hz, if_false]
      simp only [hr, ne_eq, not_true_eq_false, if_false]
      -- bound on the index
      have hlim : limit ≠ 0 → s.index < 2 ^ 62 := by
        intro hl
        by_contra hge
        have := h10 hl (2 ^ (61 + 1) - 1) (by norm_num) (by omega)
        rw [luby_top] at this
        have h61 : limit < 2 ^ 61 := by
          rcases hsafe with ⟨_, h⟩ | ⟨h, _⟩
          · exact h
          · exact absurd h hl
        have : 1 * 2 ^ 61 ≤ period * 2 ^ 61 := Nat.mul_le_mul_right _ hp
        omega
      have hidx : s.index + 1 < 2 ^ 63 := by
        rcases hsafe with ⟨hl, _⟩ | ⟨_, hb⟩
        · have := hlim hl; omega
        · have : (s.index + 1 + 1) * 1 ≤ (s.index + 1 + 1) * period := Nat.mul_le_mul_left _ hp
          omega
      have hnext : nextUV r.u r.v = step^[s.index] (1, 1) := by
        have e : s.index = (s.index - 1) + 1 := by omega
        conv_rhs => rw [e]
        rw [Function.iterate_succ_apply', ← h9]
        rfl
      have hv : (step^[s.index] (1, 1)).2 = luby (s.index + 1) := by
        have := luby_step (s.index + 1) (by omega) hidx
        simpa using this
      generalize hq : step^[s.index] (1, 1) = q at hnext hv
      obtain ⟨u', v'⟩ := q
      simp only at hv
      subst hv
      rw [hnext]
      simp only
      -- no overflow of the new wait
      have hmul : period * luby (s.index + 1) < 2 ^ 64 := by
        rcases hsafe with ⟨hl, h61⟩ | ⟨_, hb⟩
        · have hle : luby (s.index + 1) ≤ 2 ^ 62 := by
            have := luby_le (s.index + 1) (by omega); have := hlim hl; omega
          -- luby grows at most by a factor of two over what was seen before
          by_cases h2 : s.index + 1 + 1 = 2 ^ (s.index + 1 + 1).log2
          · have hlog : (s.index + 1 + 1).log2 ≠ 0 := by
              intro h0; rw [h0] at h2; omega
            have hl1 : luby (s.index + 1) = 2 ^ ((s.index + 1 + 1).log2 - 1) := by
              rw [luby, if_pos h2]
            by_cases hk : (s.index + 1 + 1).log2 = 1
            · rw [hk] at h2; omega
            · obtain ⟨k, hk⟩ : ∃ k, (s.index + 1 + 1).log2 = k + 2 :=
                ⟨(s.index + 1 + 1).log2 - 2, by omega⟩
              rw [hk] at h2 hl1
              have e1 : 2 ^ (k + 2) = 2 * 2 ^ (k + 1) := by ring
              have e2 : 2 ^ (k + 1) = 2 * 2 ^ k := by ring
              have hp2 : 0 < 2 ^ k := Nat.two_pow_pos _
              have hh := h10 hl (2 ^ (k + 1) - 1) (by omega) (by omega)
              rw [luby_top] at hh
              have e3 : k + 2 - 1 = k + 1 := by omega
              rw [hl1, e3, e2]
              have : period * (2 * 2 ^ k) = 2 * (period * 2 ^ k) := by ring
              omega
          · have hrec : luby (s.index + 1) = luby (s.index + 1 + 1 - 2 ^ (s.index + 1 + 1).log2) := by
              conv_lhs => rw [luby, if_neg h2]
            have hle := Nat.log2_self_le (n := s.index + 1 + 1) (by omega)
            have hlt := Nat.lt_log2_self (n := s.index + 1 + 1)
            have hlog : (s.index + 1 + 1).log2 ≠ 0 := by
              intro h0; rw [h0] at hlt; omega
            have hp' : 2 ^ (s.index + 1 + 1).log2 = 2 * 2 ^ ((s.index + 1 + 1).log2 - 1) := by
              rw [← Nat.pow_succ']; congr 1
            have hpos : 0 < 2 ^ ((s.index + 1 + 1).log2 - 1) := Nat.two_pow_pos _
            have := h10 hl (s.index + 1 + 1 - 2 ^ (s.index + 1 + 1).log2) (by omega) (by omega)
            rw [← hrec] at this
            omega
        · have h1' := luby_le (s.index + 1) (by omega)
          have : period * luby (s.index + 1) ≤ period * (s.index + 1 + 1) :=
            Nat.mul_le_mul_left _ (by omega)
          rw [Nat.mul_comm] at hb
          omega
      have hwait : luby (s.index + 1) * r.period % 2 ^ 64 = period * luby (s.index + 1) := by
        rw [h1, Nat.mul_comm, Nat.mod_eq_of_lt hmul]
      have hpos : 1 ≤ period * luby (s.index + 1) := Nat.mul_pos hp (luby_pos _)
      rw [hwait]
      by_cases hc : limit ≠ 0 ∧ limit < period * luby (s.index + 1)
      · have hc' : r.limited = true ∧ period * luby (s.index + 1) > r.limit := by
          rw [h3, h2]; simp [hc]
        have hl1 : luby 1 = 1 := luby_top 0
        have hw1 := h10 hc.1 1 (le_refl _) h8
        rw [hl1, Nat.mul_one] at hw1
        rw [if_pos hc', if_pos hc]
        refine ⟨h1, h2, h3, rfl, ?_, ?_, ?_, le_refl _, rfl, ?_⟩
        · show r.period = period * luby 1
          rw [h1, hl1, Nat.mul_one]
        · show 1 ≤ period * luby 1
          rw [hl1]; omega
        · show period * luby 1 < 2 ^ 64
          rw [hl1, Nat.mul_one]
          have : limit < 2 ^ 61 := by
            rcases hsafe with ⟨_, h⟩ | ⟨h, _⟩
            · exact h
            · exact absurd h hc.1
          omega
        · intro hl j hj hj2
          have : j = 1 := by simp only at hj2; omega
          subst this; rw [hl1]; omega
      · have hc' : ¬ (r.limited = true ∧ period * luby (s.index + 1) > r.limit) := by
          rw [h3, h2]
          rintro ⟨ha, hb⟩
          exact hc ⟨by simpa using ha, hb⟩
        rw [if_neg hc', if_neg hc]
        refine ⟨h1, h2, h3, rfl, rfl, hpos, hmul, by show 1 ≤ s.index + 1; omega, ?_, ?_⟩
        · show (u', luby (s.index + 1)) = step^[s.index + 1 - 1] (1, 1)
          rw [Nat.add_sub_cancel, hq]
        · intro hl j hj hj2
          simp only at hj2
          by_cases hjj : j ≤ s.index
          · exact h10 hl j hj hjj
          · have : j = s.index + 1 := by omega
            subst this
            by_contra hgt
            exact hc ⟨hl, by omega⟩
    · have hz : s.remaining - 1 ≠ 0 := by omega
      simp only [hz, hr, ne_eq, not_false_eq_true, if_true]
      exact ⟨h1, h2, h3, rfl, rfl, by show 1 ≤ s.remaining - 1; omega,
        by show s.remaining - 1 < 2 ^ 64; omega, h8, h9, h10⟩

theorem refines_ask {period limit : Nat} {r : Reluctant} {s : Schedule}
    (h : Refines period limit r s) :
    Refines period limit r.triggered.2 (s.next period limit .ask).1 ∧
    (s.next period limit .ask).2 = some r.triggered.1 := by
  obtain ⟨h1, h2, h3, h4, h5, h6, h7, h8, h9, h10⟩ := h
  unfold Reluctant.triggered Schedule.next
  by_cases hdue : s.due
  · rw [hdue] at h4
    simp only [h4, hdue]
    exact ⟨⟨h1, h2, h3, rfl, h5, h6, h7, h8, h9, h10⟩, rfl⟩
  · have hdue' : s.due = false := by simpa using hdue
    rw [hdue'] at h4
    simp only [h4, hdue']
    exact ⟨⟨h1, h2, h3, h4, h5, h6, h7, h8, h9, h10⟩, rfl⟩

theorem index_le (period limit : Nat) (s : Schedule) (e : ScheduleEvent) (h : 1 ≤ s.index) :
    (s.next period limit e).1.index ≤ s.index + 1 := by
  cases e with
  | ask => simp [Schedule.next]
  | conflict =>
    simp only [Schedule.next]
    split
    · simp
    · split
      · simp
      · split
        · simp
        · simp

end Verif.Proofs.Reluctant
