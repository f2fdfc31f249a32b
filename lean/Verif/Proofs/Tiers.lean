import Verif.Model.Tiers
import Verif.Spec.Tiers

/-!
# Glue limits and the table of usage
-/

namespace Verif.Proofs.Tiers

open Verif.Model Verif.Model.Tiers Verif.Spec.Tiers

theorem total_eq : ∀ (us : List Nat) (acc : Nat), acc + us.sum < 2 ^ 64 → total us acc = acc + us.sum
  | [], acc, _ => by simp [total]
  | u :: us, acc, h => by
    rw [List.sum_cons] at h ⊢
    unfold total
    rw [Nat.mod_eq_of_lt (by omega), total_eq us _ (by omega)]
    omega

theorem scan_spec (limit : Nat) : ∀ (us : List Nat) (glue acc : Nat), acc + us.sum < 2 ^ 64 →
    (∃ i, i < us.length ∧ scan limit us glue acc = (some (glue + i), acc + (us.take (i + 1)).sum) ∧
      limit ≤ acc + (us.take (i + 1)).sum ∧ ∀ j, j < i → acc + (us.take (j + 1)).sum < limit) ∨
    (scan limit us glue acc = (none, acc + us.sum) ∧
      ∀ j, j < us.length → acc + (us.take (j + 1)).sum < limit)
  | [], glue, acc, _ => .inr ⟨by simp [scan], by simp⟩
  | u :: us, glue, acc, h => by
    rw [List.sum_cons] at h
    unfold scan
    dsimp only
    rw [Nat.mod_eq_of_lt (by omega)]
    by_cases hl : acc + u ≥ limit
    · rw [if_pos hl]
      exact .inl ⟨0, by simp, by simp, by simpa using hl, by simp⟩
    · rw [if_neg hl]
      have hz : ∀ j, (u :: us).take (j + 1 + 1) = u :: us.take (j + 1) := fun j => rfl
      rcases scan_spec limit us (glue + 1) (acc + u) (by omega) with ⟨i, h1, h2, h3, h4⟩ | ⟨h2, h4⟩
      · refine .inl ⟨i + 1, by simpa using h1, ?_, ?_, fun j hj => ?_⟩
        · rw [h2, hz, List.sum_cons]
          congr 1
          · congr 1; omega
          · omega
        · rw [hz, List.sum_cons]; omega
        · cases j with
          | zero => simp; omega
          | succ j => rw [hz, List.sum_cons]; have := h4 j (by omega); omega
      · refine .inr ⟨by rw [h2, List.sum_cons]; congr 1; omega, fun j hj => ?_⟩
        cases j with
        | zero => simp; omega
        | succ j =>
          rw [hz, List.sum_cons]
          have := h4 j (by simpa using hj)
          omega

theorem upTo_mono (used : List Nat) {i j : Nat} (h : i ≤ j) : upTo used i ≤ upTo used j := by
  unfold upTo
  obtain ⟨k, rfl⟩ := Nat.exists_eq_add_of_le h
  rw [show i + k + 1 = (i + 1) + k by omega, List.take_add (i := i + 1), List.sum_append]
  omega

theorem upTo_le (used : List Nat) (g : Nat) : upTo used g ≤ used.sum := by
  unfold upTo
  have := congrArg List.sum (List.take_append_drop (g + 1) used)
  rw [List.sum_append] at this
  omega

theorem upTo_last {used : List Nat} (h : used ≠ []) : upTo used (used.length - 1) = used.sum := by
  unfold upTo
  have := List.length_pos_iff.2 h
  rw [show used.length - 1 + 1 = used.length by omega, List.take_length]

theorem upTo_add (used : List Nat) (a i : Nat) :
    upTo used a + ((used.drop (a + 1)).take (i + 1)).sum = upTo used (a + 1 + i) := by
  unfold upTo
  rw [show a + 1 + i + 1 = (a + 1) + (i + 1) by omega, List.take_add (i := a + 1) (j := i + 1), List.sum_append]

/-- The first loop. -/
theorem scan_first (limit : Nat) (used : List Nat) (h : used.sum < 2 ^ 64) :
    (∃ g, scan limit used 0 0 = (some g, upTo used g) ∧ Smallest used limit g) ∨
    (scan limit used 0 0 = (none, used.sum) ∧ (used ≠ [] → used.sum < limit)) := by
  rcases scan_spec limit used 0 0 (by omega) with ⟨i, h1, h2, h3, h4⟩ | ⟨h2, h4⟩
  · simp only [Nat.zero_add] at h2 h3 h4
    exact .inl ⟨i, h2, h1, h3, h4⟩
  · simp only [Nat.zero_add] at h2 h4
    refine .inr ⟨h2, fun hn => ?_⟩
    have := h4 (used.length - 1) (by have := List.length_pos_iff.2 hn; omega)
    have e := upTo_last hn
    unfold upTo at e
    omega

/-- The second loop. -/
theorem scan_second (limit : Nat) (used : List Nat) (h : used.sum < 2 ^ 64) (a : Nat) (ha : a < used.length)
    (hl : upTo used a < limit) :
    (∃ g, (scan limit (used.drop (a + 1)) (a + 1) (upTo used a)).1 = some g ∧ a < g ∧ Smallest used limit g) ∨
    ((scan limit (used.drop (a + 1)) (a + 1) (upTo used a)).1 = none ∧ used.sum < limit) := by
  have e : upTo used a + (used.drop (a + 1)).sum = used.sum := by
    have := congrArg List.sum (List.take_append_drop (a + 1) used)
    rw [List.sum_append] at this
    exact this
  rcases scan_spec limit (used.drop (a + 1)) (a + 1) (upTo used a) (by omega) with ⟨i, h1, h2, h3, h4⟩ | ⟨h2, h4⟩
  · rw [List.length_drop] at h1
    refine .inl ⟨a + 1 + i, by rw [h2], by omega, by omega, ?_, fun j hj => ?_⟩
    · rw [upTo_add] at h3; exact h3
    · by_cases hj' : j ≤ a
      · exact Nat.lt_of_le_of_lt (upTo_mono used hj') hl
      · have := h4 (j - (a + 1)) (by omega)
        rw [upTo_add, show a + 1 + (j - (a + 1)) = j by omega] at this
        exact this
  · refine .inr ⟨by rw [h2], ?_⟩
    by_cases hn : a + 1 = used.length
    · rw [List.drop_of_length_le (by omega)] at e
      simp at e
      omega
    · have := h4 (used.length - (a + 1) - 1) (by rw [List.length_drop]; omega)
      rw [upTo_add, show a + 1 + (used.length - (a + 1) - 1) = used.length - 1 by omega,
        upTo_last (by intro h; rw [h] at ha; simp at ha)] at this
      exact this

/-- What `limits` computes. -/
theorem limits_spec (opt1 opt2 : Nat) (lim1 lim2 : Nat → Nat) (used : List Nat) (h : used.sum < 2 ^ 64) :
    ((used.sum = 0 ∨ used.sum < lim1 used.sum) ∧ limits opt1 opt2 lim1 lim2 used = (opt1, max opt2 opt1)) ∨
    (used.sum ≠ 0 ∧ ∃ t1 t2, limits opt1 opt2 lim1 lim2 used = (t1, t2) ∧ Smallest used (lim1 used.sum) t1 ∧
      ((lim2 used.sum ≤ upTo used t1 ∧ t2 = t1) ∨
        (upTo used t1 < lim2 used.sum ∧ t1 < t2 ∧ Smallest used (lim2 used.sum) t2) ∨
        (used.sum < lim2 used.sum ∧ t2 = t1))) := by
  unfold limits
  rw [total_eq used 0 (by omega), Nat.zero_add]
  generalize hs : used.sum = t at h
  dsimp only
  by_cases ht : t = 0
  · rw [if_neg (by simpa using ht)]
    exact .inl ⟨.inl ht, rfl⟩
  · rw [if_pos ht]
    rcases scan_first (lim1 t) used (by omega) with ⟨g, h1, h2⟩ | ⟨h1, h2⟩
    · refine .inr ⟨ht, ?_⟩
      rw [h1]
      dsimp only
      by_cases hl : upTo used g < lim2 t
      · rw [if_pos hl]
        rcases scan_second (lim2 t) used (by omega) g h2.1 hl with ⟨g', h3, h4, h5⟩ | ⟨h3, h4⟩
        · rw [h3]
          exact ⟨g, g', rfl, h2, .inr (.inl ⟨hl, h4, h5⟩)⟩
        · rw [h3]
          exact ⟨g, g, rfl, h2, .inr (.inr ⟨by omega, rfl⟩)⟩
      · rw [if_neg hl]
        exact ⟨g, g, rfl, h2, .inl ⟨by omega, rfl⟩⟩
    · refine .inl ⟨.inr ?_, ?_⟩
      · rw [← hs]; rw [← hs] at h2
        exact h2 (by rintro rfl; exact ht (by simpa using hs.symm))
      · rw [h1]
        dsimp only
        split <;> rename_i he
        · rfl
        all_goals (split at he <;> cases he)

/-! ## Digits -/

theorem decimalDigits_len : ∀ (fuel n : Nat) (acc : List Nat), 0 < fuel → n < 10 ^ fuel →
    ∃ k, (decimalDigits fuel n acc).length = acc.length + (k + 1) ∧ k + 1 ≤ fuel ∧ n < 10 ^ (k + 1) ∧
      (k = 0 ∨ 10 ^ k ≤ n)
  | 0, _, _, h, _ => by omega
  | fuel + 1, n, acc, _, h => by
    unfold decimalDigits
    dsimp only
    by_cases hn : n / 10 = 0
    · rw [if_pos hn]
      exact ⟨0, by simp, by omega, by simp; omega, .inl rfl⟩
    · rw [if_neg hn]
      rw [Nat.pow_succ] at h
      by_cases hf : fuel = 0
      · subst hf; simp at h; omega
      obtain ⟨k, h1, h2, h3, h4⟩ := decimalDigits_len fuel (n / 10) ((48 + n % 10) :: acc) (by omega) (by omega)
      refine ⟨k + 1, by rw [h1, List.length_cons]; omega, by omega, ?_, .inr ?_⟩
      · rw [Nat.pow_succ]; omega
      · rcases h4 with rfl | h4
        · simp; omega
        · rw [Nat.pow_succ]; omega

theorem digitsLoop_eq (i k : Nat) (hk : k ≤ 18) (h1 : i < 10 ^ (k + 1)) (h2 : k = 0 ∨ 10 ^ k ≤ i) :
    ∀ (n fuel : Nat), n ≤ k → n < fuel → digitsLoop i fuel (10 ^ (k - n + 1)) (k - n + 1) = some (k + 1)
  | _, 0, _, h => by omega
  | 0, fuel + 1, _, _ => by
    unfold digitsLoop
    rw [if_pos (by simpa using h1)]
    simp
  | n + 1, fuel + 1, hn, hf => by
    unfold digitsLoop
    have hle : 10 ^ (k - (n + 1) + 1) ≤ 10 ^ k := Nat.pow_le_pow_right (by decide) (by omega)
    have hle' : 10 ^ (k - (n + 1) + 1) * 10 < 2 ^ 64 := by
      rw [← Nat.pow_succ]
      exact Nat.lt_of_le_of_lt (Nat.pow_le_pow_right (n := 10) (by decide) (show _ ≤ 19 by omega)) (by decide)
    rw [if_neg (by omega), Nat.mod_eq_of_lt hle', ← Nat.pow_succ]
    have := digitsLoop_eq i k hk h1 h2 n fuel (by omega) (by omega)
    rw [show k - (n + 1) + 1 = k - n by omega]
    exact this

/-- `decimal_digits` is the length of the number printed. -/
theorem digits_eq {i : Nat} (h : i < 10 ^ 19) : digits i = some (printNat i).length := by
  obtain ⟨k, h1, h2, h3, h4⟩ := decimalDigits_len 20 i [] (by decide) (Nat.lt_trans h (by decide))
  have hk : k ≤ 18 := by
    refine Nat.le_of_not_lt fun hk => ?_
    rcases h4 with rfl | h4
    · omega
    · have := Nat.pow_le_pow_right (n := 10) (by decide) (show 19 ≤ k by omega)
      omega
  have := digitsLoop_eq i k hk h3 h4 k 64 (by omega) (by omega)
  unfold digits
  rw [Nat.sub_self, Nat.zero_add] at this
  unfold printNat
  rw [h1, List.length_nil, Nat.zero_add]
  exact this

/-! ## The table -/

/-- Sum of the counters before `g`. -/
def before (used : List Nat) (g : Nat) : Nat := (used.take g).sum

theorem before_succ {used : List Nat} {g u : Nat} (h : used[g]? = some u) :
    before used (g + 1) = before used g + u := by
  unfold before
  rw [List.take_add_one, h, List.sum_append]
  simp

theorem before_le (used : List Nat) (g : Nat) : before used g ≤ used.sum := by
  unfold before
  have := congrArg List.sum (List.take_append_drop g used)
  rw [List.sum_append] at this
  omega

theorem before_between (used : List Nat) {a b : Nat} (h : a ≤ b + 1) :
    before used (b + 1) = before used a + between used a b := by
  unfold before between
  conv => lhs; rw [show b + 1 = a + (b + 1 - a) by omega, List.take_add, List.sum_append]

theorem between_self {used : List Nat} {g u : Nat} (h : used[g]? = some u) : between used g g = u := by
  have h1 := before_between used (Nat.le_succ g)
  have h2 := before_succ h
  omega

/-- The tokens of a row. -/
def rowToks (t1 t2 gd cd : Nat) (used : List Nat) (r : Nat × Nat) : List Tok :=
  [.head, .line (pad gd (label r)) (between used r.1 r.2) cd (upTo used r.2) (r.1 == t1) (r.2 == t2)]

section
variable {t1 t2 pre suf : Nat} {used : List Nat}

theorem drop_cons {g : Nat} (h : g < used.length) : ∃ u, used[g]? = some u ∧ used.drop g = u :: used.drop (g + 1) :=
  ⟨used[g], List.getElem?_eq_getElem h, List.drop_eq_getElem_cons h⟩

theorem lines_skip (gd cd : Nat) (hs : used.sum < 2 ^ 64) (mid : Nat) : ∀ (n g : Nat), g + n = t1 →
    t1 < used.length →
    lines t1 t2 pre suf gd cd (used.drop g) g mid (before used g) =
      lines t1 t2 pre suf gd cd (used.drop t1) t1 mid (before used t1)
  | 0, g, h, _ => by rw [show g = t1 by omega]
  | n + 1, g, h, hl => by
    obtain ⟨u, h1, h2⟩ := drop_cons (used := used) (g := g) (by omega)
    rw [h2]
    conv => lhs; unfold lines
    dsimp only
    have := before_le used (g + 1)
    rw [if_pos (by omega), Nat.mod_eq_of_lt (by rw [← before_succ h1]; omega), ← before_succ h1]
    exact lines_skip gd cd hs mid n (g + 1) (by omega) hl

theorem lines_single (gd cd : Nat) (hs : used.sum < 2 ^ 64) (mid g : Nat) (h1 : t1 ≤ g) (hl : g < used.length)
    (hc : g ≤ pre ∨ suf ≤ g) :
    lines t1 t2 pre suf gd cd (used.drop g) g mid (before used g) =
      rowToks t1 t2 gd cd used (g, g) ++
        if g = t2 then [] else lines t1 t2 pre suf gd cd (used.drop (g + 1)) (g + 1) mid (before used (g + 1)) := by
  obtain ⟨u, x1, x2⟩ := drop_cons hl
  rw [x2]
  conv => lhs; unfold lines
  dsimp only
  have := before_le used (g + 1)
  rw [if_neg (by omega), Nat.mod_eq_of_lt (by rw [← before_succ x1]; omega), ← before_succ x1, if_pos hc,
    if_pos (by omega)]
  unfold rowToks label
  rw [between_self x1, if_pos rfl]
  rfl

theorem lines_singles (gd cd : Nat) (hs : used.sum < 2 ^ 64) (mid : Nat) (ht : t2 < used.length) :
    ∀ (n g : Nat), g + n = t2 → t1 ≤ g → (∀ j, g ≤ j → j ≤ t2 → j ≤ pre ∨ suf ≤ j) →
    lines t1 t2 pre suf gd cd (used.drop g) g mid (before used g) =
      ((List.range' g (n + 1)).map fun g => (g, g)).flatMap (rowToks t1 t2 gd cd used)
  | 0, g, h, h1, hc => by
    rw [lines_single gd cd hs mid g h1 (by omega) (hc g (by omega) (by omega)), if_pos (by omega)]
    simp
  | n + 1, g, h, h1, hc => by
    rw [lines_single gd cd hs mid g h1 (by omega) (hc g (by omega) (by omega)), if_neg (by omega),
      lines_singles gd cd hs mid ht n (g + 1) (by omega) (by omega) (fun j x y => hc j (by omega) y),
      List.range'_succ (n := n + 1), List.map_cons, List.flatMap_cons]

theorem lines_middle (gd cd : Nat) (hs : used.sum < 2 ^ 64) (ht : t2 < used.length) (hs2 : suf ≤ t2)
    (h1 : t1 ≤ pre) (hps : pre + 2 < suf) :
    ∀ (n g mid : Nat), g + n + 1 = suf → pre < g → before used g = before used (pre + 1) + mid →
    ∃ mid', lines t1 t2 pre suf gd cd (used.drop g) g mid (before used g) =
      rowToks t1 t2 gd cd used (pre + 1, suf - 1) ++
        lines t1 t2 pre suf gd cd (used.drop suf) suf mid' (before used suf)
  | n, g, mid, h, hp, hm => by
    obtain ⟨u, x1, x2⟩ := drop_cons (used := used) (g := g) (by omega)
    rw [x2]
    have hb := before_le used (g + 1)
    have hb' := before_succ x1
    cases n with
    | zero =>
      have hg : g + 1 = suf := by omega
      refine ⟨mid + u, ?_⟩
      conv => lhs; unfold lines
      dsimp only
      rw [if_neg (by omega), Nat.mod_eq_of_lt (by rw [← hb']; omega), ← hb', if_neg (c := g ≤ pre ∨ suf ≤ g) (by omega),
        if_pos (by omega), if_pos hg, if_neg (by omega), Nat.mod_eq_of_lt (by omega), hg]
      unfold rowToks label
      have e := before_between used (a := pre + 1) (b := g) (by omega)
      rw [if_neg (by show pre + 1 ≠ suf - 1; omega)]
      dsimp only
      have e2 : suf - 1 = g := by omega
      rw [e2, show between used (pre + 1) g = mid + u by omega]
      have e3 : (pre + 1 == t1) = false := by simp; omega
      have e4 : (g == t2) = false := by simp; omega
      rw [e3, e4, ← hg]
      rfl
    | succ n =>
      obtain ⟨mid', e⟩ := lines_middle gd cd hs ht hs2 h1 hps n (g + 1) (mid + u) (by omega) (by omega) (by omega)
      refine ⟨mid', ?_⟩
      rw [← e]
      conv => lhs; unfold lines
      dsimp only
      rw [if_neg (by omega), Nat.mod_eq_of_lt (by rw [← hb']; omega), ← hb', if_neg (c := g ≤ pre ∨ suf ≤ g) (by omega),
        if_neg (by omega), if_neg (by omega), if_neg (by omega), Nat.mod_eq_of_lt (by omega)]
      rfl

/-! ### Widths -/

/-- Widths for rows. -/
def wide (used : List Nat) (w : Nat × Nat) (r : Nat × Nat) : Nat × Nat :=
  (max w.1 (label r).length, max w.2 (printNat (between used r.1 r.2)).length)

theorem widths_skip (mid gd cd : Nat) : ∀ (n g : Nat), g + n = t1 → t1 < used.length →
    widths t1 t2 pre suf (used.drop g) g mid gd cd = widths t1 t2 pre suf (used.drop t1) t1 mid gd cd
  | 0, g, h, _ => by rw [show g = t1 by omega]
  | n + 1, g, h, hl => by
    obtain ⟨u, h1, h2⟩ := drop_cons (used := used) (g := g) (by omega)
    rw [h2]
    conv => lhs; unfold widths
    rw [if_pos (by omega)]
    exact widths_skip mid gd cd n (g + 1) (by omega) hl

theorem ite_max (a b : Nat) : (if a > b then a else b) = max b a := by
  split <;> omega

theorem widths_single (hs : used.sum < 10 ^ 19) (hl' : used.length ≤ 128) (mid g : Nat) (w : Nat × Nat) (h1 : t1 ≤ g)
    (hl : g < used.length) (hc : g ≤ pre ∨ suf ≤ g) :
    widths t1 t2 pre suf (used.drop g) g mid w.1 w.2 =
      if g = t2 then some (wide used w (g, g)) else
        widths t1 t2 pre suf (used.drop (g + 1)) (g + 1) mid (wide used w (g, g)).1 (wide used w (g, g)).2 := by
  obtain ⟨u, x1, x2⟩ := drop_cons hl
  rw [x2]
  conv => lhs; unfold widths
  have hb := before_le used (g + 1)
  have hb' := before_succ x1
  rw [if_neg (by omega), if_pos hc, digits_eq (i := g) (by omega), digits_eq (i := u) (by omega)]
  dsimp only [Option.bind_some, Option.map_some]
  unfold wide label
  rw [between_self x1, if_pos rfl, ite_max, ite_max]

theorem widths_singles (hs : used.sum < 10 ^ 19) (hl' : used.length ≤ 128) (mid : Nat) (ht : t2 < used.length) :
    ∀ (n g : Nat) (w : Nat × Nat), g + n = t2 → t1 ≤ g → (∀ j, g ≤ j → j ≤ t2 → j ≤ pre ∨ suf ≤ j) →
    widths t1 t2 pre suf (used.drop g) g mid w.1 w.2 =
      some (((List.range' g (n + 1)).map fun g => (g, g)).foldl (wide used) w)
  | 0, g, w, h, h1, hc => by
    rw [widths_single hs hl' mid g w h1 (by omega) (hc g (by omega) (by omega)), if_pos (by omega)]
    simp
  | n + 1, g, w, h, h1, hc => by
    rw [widths_single hs hl' mid g w h1 (by omega) (hc g (by omega) (by omega)), if_neg (by omega),
      widths_singles hs hl' mid ht n (g + 1) _ (by omega) (by omega) (fun j x y => hc j (by omega) y),
      List.range'_succ (n := n + 1), List.map_cons, List.foldl_cons]

theorem widths_middle (hs : used.sum < 10 ^ 19) (hl' : used.length ≤ 128) (ht : t2 < used.length) (hs2 : suf ≤ t2)
    (h1 : t1 ≤ pre) (hps : pre + 2 < suf) :
    ∀ (n g mid : Nat) (w : Nat × Nat), g + n + 1 = suf → pre < g → 1 ≤ w.1 → 1 ≤ w.2 →
    before used g = before used (pre + 1) + mid →
    ∃ mid', widths t1 t2 pre suf (used.drop g) g mid w.1 w.2 =
      widths t1 t2 pre suf (used.drop suf) suf mid' (wide used w (pre + 1, suf - 1)).1
        (wide used w (pre + 1, suf - 1)).2
  | n, g, mid, w, h, hp, hw1, hw2, hm => by
    obtain ⟨u, x1, x2⟩ := drop_cons (used := used) (g := g) (by omega)
    rw [x2]
    have hb := before_le used (g + 1)
    have hb' := before_succ x1
    cases n with
    | zero =>
      have hg : g + 1 = suf := by omega
      refine ⟨mid + u, ?_⟩
      conv => lhs; unfold widths
      dsimp only
      rw [if_neg (by omega), if_neg (c := g ≤ pre ∨ suf ≤ g) (by omega), Nat.mod_eq_of_lt (by omega), if_pos hg,
        digits_eq (i := pre + 1) (by omega), digits_eq (i := g) (by omega), digits_eq (i := mid + u) (by omega)]
      dsimp only [Option.bind_some, Option.map_some]
      rw [if_neg (by omega), hg, ite_max, ite_max]
      unfold wide label
      have e := before_between used (a := pre + 1) (b := g) (by omega)
      rw [if_neg (by show pre + 1 ≠ suf - 1; omega)]
      dsimp only
      have e2 : suf - 1 = g := by omega
      rw [e2, show between used (pre + 1) g = mid + u by omega, List.length_append, List.length_cons]
      rfl
    | succ n =>
      obtain ⟨mid', e⟩ := widths_middle hs hl' ht hs2 h1 hps n (g + 1) (mid + u) w (by omega) (by omega) hw1 hw2
        (by omega)
      refine ⟨mid', ?_⟩
      rw [← e]
      conv => lhs; unfold widths
      dsimp only
      rw [if_neg (by omega), if_neg (c := g ≤ pre ∨ suf ≤ g) (by omega), Nat.mod_eq_of_lt (by omega),
        if_neg (by omega)]
      dsimp only [Option.bind_some]
      rw [if_neg (by omega), ite_max, ite_max, Nat.max_eq_left (by omega), Nat.max_eq_left (by omega)]

end

theorem wide_mono (used : List Nat) : ∀ (rs : List (Nat × Nat)) (w : Nat × Nat),
    w.1 ≤ (rs.foldl (wide used) w).1 ∧ w.2 ≤ (rs.foldl (wide used) w).2 ∧
    ∀ r ∈ rs, (label r).length ≤ (rs.foldl (wide used) w).1 ∧
      (printNat (between used r.1 r.2)).length ≤ (rs.foldl (wide used) w).2
  | [], w => by simp
  | r :: rs, w => by
    obtain ⟨h1, h2, h3⟩ := wide_mono used rs (wide used w r)
    rw [List.foldl_cons]
    have e1 : w.1 ≤ (wide used w r).1 := Nat.le_max_left _ _
    have e2 : w.2 ≤ (wide used w r).2 := Nat.le_max_left _ _
    have e3 : (label r).length ≤ (wide used w r).1 := Nat.le_max_right _ _
    have e4 : (printNat (between used r.1 r.2)).length ≤ (wide used w r).2 := Nat.le_max_right _ _
    refine ⟨by omega, by omega, fun r' hr => ?_⟩
    rcases List.mem_cons.1 hr with rfl | hr
    · exact ⟨by omega, by omega⟩
    · exact h3 r' hr

/-- The table. -/
theorem table_eq {t1 t2 : Nat} {used : List Nat} (hl : used.length = 128) (hs : used.sum < 10 ^ 19) (h12 : t1 ≤ t2)
    (h2 : t2 ≤ 127) :
    ∃ w, (rows t1 t2).foldl (wide used) (1, 1) = w ∧
      table t1 t2 used = some ((rows t1 t2).flatMap (rowToks t1 t2 w.1 w.2 used)) := by
  refine ⟨_, rfl, ?_⟩
  have hs' : used.sum < 2 ^ 64 := Nat.lt_trans hs (by decide)
  have hz : before used 0 = 0 := rfl
  unfold table rows
  dsimp only
  by_cases hn : t2 < t1 + 5
  · rw [if_neg (by omega), if_pos hn]
    dsimp only
    have hc : ∀ j, t1 ≤ j → j ≤ t2 → j ≤ 2 ^ 32 - 1 ∨ 0 ≤ j := fun j _ _ => .inr (by omega)
    have e1 := widths_skip (used := used) (t1 := t1) (t2 := t2) (pre := 2 ^ 32 - 1) (suf := 0) 0 1 1 t1 0 (by omega) (by omega)
    have e2 := widths_singles (t1 := t1) (pre := 2 ^ 32 - 1) (suf := 0) hs (by omega) 0 (by omega) (t2 - t1) t1 (1, 1)
      (by omega) (by omega) hc
    rw [List.drop_zero] at e1
    rw [e1, e2, Option.map_some]
    have e3 := fun gd cd => lines_skip (used := used) (t1 := t1) (t2 := t2) (pre := 2 ^ 32 - 1) (suf := 0) gd cd hs' 0 t1 0
      (by omega) (by omega)
    have e4 := fun gd cd => lines_singles (t1 := t1) (pre := 2 ^ 32 - 1) (suf := 0) gd cd hs' 0 (by omega) (t2 - t1) t1
      (by omega) (by omega) hc
    simp only [List.drop_zero, hz] at e3
    rw [e3, e4, show t2 + 1 - t1 = t2 - t1 + 1 by omega]
  · rw [if_pos (by omega), if_neg hn]
    dsimp only
    rw [show t1 + 5 / 2 - 1 = t1 + 1 by omega, show t2 - 5 / 2 + 1 = t2 - 1 by omega]
    have e1 := widths_skip (used := used) (t1 := t1) (t2 := t2) (pre := t1 + 1) (suf := t2 - 1) 0 1 1 t1 0 (by omega) (by omega)
    rw [List.drop_zero] at e1
    have a1 := fun w => widths_single (t1 := t1) (t2 := t2) (pre := t1 + 1) (suf := t2 - 1) hs (by omega) 0 t1 w
      (by omega) (by omega) (.inl (by omega))
    have a2 := fun w => widths_single (t1 := t1) (t2 := t2) (pre := t1 + 1) (suf := t2 - 1) hs (by omega) 0 (t1 + 1) w
      (by omega) (by omega) (.inl (by omega))
    have m1 : ∀ w : Nat × Nat, 1 ≤ w.1 → 1 ≤ w.2 → _ := fun w x y =>
      widths_middle (t1 := t1) (t2 := t2) (pre := t1 + 1) (suf := t2 - 1) hs (by omega) (by omega) (by omega) (by omega)
        (by omega) (t2 - 1 - (t1 + 1 + 1) - 1) (t1 + 1 + 1) 0 w (by omega) (by omega) x y (by omega)
    have b1 := fun mid w => widths_singles (t1 := t1) (t2 := t2) (pre := t1 + 1) (suf := t2 - 1) hs (by omega) mid (by omega)
      1 (t2 - 1) w (by omega) (by omega) (fun j _ _ => .inr (by omega))
    have w1 : ∀ w : Nat × Nat, 1 ≤ w.1 → 1 ≤ w.2 → ∀ r, 1 ≤ (wide used w r).1 ∧ 1 ≤ (wide used w r).2 :=
      fun w x y r => ⟨Nat.le_trans x (Nat.le_max_left _ _), Nat.le_trans y (Nat.le_max_left _ _)⟩
    have a1' := a1 (1, 1)
    rw [if_neg (by omega)] at a1'
    have a2' := a2 (wide used (1, 1) (t1, t1))
    rw [if_neg (by omega)] at a2'
    have x1 := w1 (1, 1) (Nat.le_refl _) (Nat.le_refl _) (t1, t1)
    have x2 := w1 _ x1.1 x1.2 (t1 + 1, t1 + 1)
    obtain ⟨mid', m1'⟩ := m1 _ x2.1 x2.2
    have hr : List.range' (t2 - 1) (1 + 1) = [t2 - 1, t2] := by
      rw [List.range'_succ, List.range'_succ, show t2 - 1 + 1 = t2 by omega]; rfl
    rw [e1, a1', a2', m1', b1, hr, Option.map_some]
    have hpre : t1 + 1 + 1 = t1 + 2 := rfl
    have hsuf : t2 - 1 - 1 = t2 - 2 := by omega
    rw [hsuf, hpre]
    simp only [List.foldl_cons, List.foldl_nil, List.map_cons, List.map_nil]
    generalize wide used (wide used (wide used (wide used (wide used (1, 1) (t1, t1)) (t1 + 1, t1 + 1))
      (t1 + 2, t2 - 2)) (t2 - 1, t2 - 1)) (t2, t2) = W
    obtain ⟨gd, cd⟩ := W
    dsimp only
    have f1 := lines_skip (used := used) (t1 := t1) (t2 := t2) (pre := t1 + 1) (suf := t2 - 1) gd cd hs' 0 t1 0
      (by omega) (by omega)
    rw [List.drop_zero, hz] at f1
    have f2 := lines_single (t1 := t1) (t2 := t2) (pre := t1 + 1) (suf := t2 - 1) gd cd hs' 0 t1 (by omega) (by omega)
      (.inl (by omega))
    rw [if_neg (by omega)] at f2
    have f3 := lines_single (t1 := t1) (t2 := t2) (pre := t1 + 1) (suf := t2 - 1) gd cd hs' 0 (t1 + 1) (by omega)
      (by omega) (.inl (by omega))
    rw [if_neg (by omega)] at f3
    obtain ⟨mid2, f4⟩ := lines_middle (t1 := t1) (t2 := t2) (pre := t1 + 1) (suf := t2 - 1) gd cd hs' (by omega) (by omega)
      (by omega) (by omega) (t2 - 1 - (t1 + 1 + 1) - 1) (t1 + 1 + 1) 0 (by omega) (by omega) (by omega)
    have f5 := lines_singles (t1 := t1) (t2 := t2) (pre := t1 + 1) (suf := t2 - 1) gd cd hs' mid2 (by omega)
      1 (t2 - 1) (by omega) (by omega) (fun j _ _ => .inr (by omega))
    rw [f1, f2, f3, f4, f5, hr, hsuf, hpre]
    simp only [List.flatMap_cons, List.flatMap_nil, List.map_cons, List.map_nil, List.append_nil]

/-! ## Counting -/

theorem modify_sum : ∀ (l : List Nat) (i n : Nat), i < l.length → l.sum + 1 < 2 ^ 64 →
    ((l.modify i fun u => (u + 1) % 2 ^ 64).take n).sum = (l.take n).sum + if i < n then 1 else 0
  | [], i, n, h, _ => by simp at h
  | u :: l, i, 0, _, _ => by simp
  | u :: l, 0, n + 1, _, h => by
    rw [List.sum_cons] at h
    rw [List.modify_zero_cons, List.take_succ_cons, List.take_succ_cons, List.sum_cons, List.sum_cons,
      Nat.mod_eq_of_lt (by omega), if_pos (by omega)]
    omega
  | u :: l, i + 1, n + 1, hi, h => by
    rw [List.sum_cons] at h
    rw [List.modify_succ_cons, List.take_succ_cons, List.take_succ_cons, List.sum_cons, List.sum_cons,
      modify_sum l i n (by simpa using hi) (by omega)]
    by_cases hx : i < n
    · rw [if_pos hx, if_pos (by omega)]; omega
    · rw [if_neg hx, if_neg (by omega)]; omega

/-- Counting a history. -/
theorem count_spec (b : Bool) (g : Nat) : ∀ (es : List (Bool × Nat)) (s : State), (s.used b).length = 128 →
    (s.used b).sum + es.length < 2 ^ 64 →
    ((es.foldl (fun s e => s.count e.1 e.2) s).used b).length = 128 ∧
    upTo ((es.foldl (fun s e => s.count e.1 e.2) s).used b) g =
      upTo (s.used b) g + es.countP fun e => e.1 == b && decide (min e.2 127 ≤ g)
  | [], s, h, _ => by simp [h]
  | e :: es, s, h, hn => by
    rw [List.length_cons] at hn
    rw [List.foldl_cons, List.countP_cons]
    have hl : ((s.count e.1 e.2).used b).length = 128 := by
      unfold State.count
      dsimp only
      split
      · rw [List.length_modify]; exact h
      · exact h
    have hg : ∀ g, upTo ((s.count e.1 e.2).used b) g =
        upTo (s.used b) g + if (e.1 == b && decide (min e.2 127 ≤ g)) then 1 else 0 := by
      intro g
      unfold State.count
      dsimp only
      by_cases hb : b = e.1
      · rw [if_pos hb]
        unfold upTo
        rw [modify_sum _ _ _ (by omega) (by omega)]
        have : (e.1 == b) = true := by simp [hb]
        rw [this]
        congr 1
        by_cases hx : min e.2 127 ≤ g
        · rw [if_pos (by omega), if_pos (by simpa using hx)]
        · rw [if_neg (by omega), if_neg (by simpa using hx)]
      · rw [if_neg hb]
        have : (e.1 == b) = false := by simp; exact fun h => hb h.symm
        rw [this]
        simp
    have hsum : ((s.count e.1 e.2).used b).sum ≤ (s.used b).sum + 1 := by
      have h1 := hg 127
      have h2 : upTo ((s.count e.1 e.2).used b) 127 = ((s.count e.1 e.2).used b).sum := by
        unfold upTo; rw [List.take_of_length_le (by omega)]
      have h3 := upTo_le (s.used b) 127
      split at h1 <;> omega
    obtain ⟨i1, i2⟩ := count_spec b g es (s.count e.1 e.2) hl (by omega)
    refine ⟨i1, ?_⟩
    rw [i2, hg g]
    omega

end Verif.Proofs.Tiers
