import Verif.Model.Simp.Closure
import Verif.Proofs.Congruence.Imp

/-!
# Gates for unit propagation
-/

namespace Verif.Congruence

open Verif.Spec

variable {F G : Formula}

/-! ## Signs -/

/-- The second list has the literals of the first one with some signs flipped, an odd number of them if the first argument is
true. -/
inductive Flips : Bool → List Nat → List Nat → Prop
  | nil : Flips false [] []
  | keep {b : Bool} {L C : List Nat} {x : Nat} : Flips b L C → Flips b (x :: L) (x :: C)
  | flip {b : Bool} {L C : List Nat} {x : Nat} : Flips b L C → Flips (!b) (x :: L) (neg x :: C)

theorem Flips.refl : ∀ L : List Nat, Flips false L L
  | [] => .nil
  | _ :: L => .keep (Flips.refl L)

theorem Flips.trans {b b' : Bool} {L C : List Nat} (h : Flips b L C) : ∀ {D : List Nat}, Flips b' C D → Flips (b ^^ b') L D := by
  induction h generalizing b' with
  | nil => intro D h; simpa using h
  | keep h ih =>
    intro D h'
    cases h' with
    | keep h' => exact .keep (ih h')
    | @flip b'' _ _ _ h' =>
      have := Flips.flip (x := by assumption) (ih h')
      simpa using this
  | @flip b0 L0 C0 x h ih =>
    intro D h'
    cases h' with
    | keep h' =>
      have := Flips.flip (x := x) (ih h')
      simpa using this
    | @flip b'' _ C1 _ h' =>
      have := Flips.keep (x := x) (ih h')
      rw [neg_neg]
      simpa using this

theorem Flips.length {b : Bool} {L C : List Nat} (h : Flips b L C) : C.length = L.length := by
  induction h with
  | nil => rfl
  | keep _ ih => simp [ih]
  | flip _ ih => simp [ih]

theorem Flips.mem {b : Bool} {L C : List Nat} (h : Flips b L C) : ∀ x ∈ C, x ∈ L ∨ neg x ∈ L := by
  induction h with
  | nil => simp
  | keep _ ih =>
    intro y hy
    rcases List.mem_cons.1 hy with rfl | hy
    · simp
    · exact (ih y hy).imp (List.mem_cons_of_mem _) (List.mem_cons_of_mem _)
  | flip _ ih =>
    intro y hy
    rcases List.mem_cons.1 hy with rfl | hy
    · right; rw [neg_neg]; simp
    · exact (ih y hy).imp (List.mem_cons_of_mem _) (List.mem_cons_of_mem _)

theorem Flips.append {b b' : Bool} {L C L' C' : List Nat} (h : Flips b L C) (h' : Flips b' L' C') : Flips (b ^^ b') (L ++ L') (C ++ C') := by
  induction h with
  | nil => simpa using h'
  | keep _ ih => exact .keep ih
  | @flip b0 L0 C0 x _ ih =>
    have := Flips.flip (x := x) ih
    simpa using this

theorem Flips.split : ∀ {L L' C : List Nat} {b : Bool}, Flips b (L ++ L') C →
    ∃ b1 b2 C1 C2, Flips b1 L C1 ∧ Flips b2 L' C2 ∧ C = C1 ++ C2 ∧ b = (b1 ^^ b2)
  | [], L', C, b, h => ⟨false, b, [], C, .nil, h, rfl, by simp⟩
  | x :: L, L', C, b, h => by
    cases h with
    | keep h =>
      obtain ⟨b1, b2, C1, C2, h1, h2, rfl, rfl⟩ := Flips.split h
      exact ⟨b1, b2, x :: C1, C2, .keep h1, h2, rfl, rfl⟩
    | flip h =>
      obtain ⟨b1, b2, C1, C2, h1, h2, rfl, rfl⟩ := Flips.split h
      exact ⟨!b1, b2, neg x :: C1, C2, .flip h1, h2, rfl, by simp⟩

theorem Flips.perm {L L' : List Nat} (hp : L.Perm L') : ∀ {b : Bool} {C' : List Nat}, Flips b L' C' → ∃ C, Flips b L C ∧ C.Perm C' := by
  induction hp with
  | nil => intro b C' h; exact ⟨C', h, .refl _⟩
  | cons x _ ih =>
    intro b C' h
    cases h with
    | keep h => obtain ⟨C, h1, h2⟩ := ih h; exact ⟨_, .keep h1, h2.cons _⟩
    | flip h => obtain ⟨C, h1, h2⟩ := ih h; exact ⟨_, .flip h1, h2.cons _⟩
  | swap x y l =>
    intro b C' h
    cases h with
    | keep h =>
      cases h with
      | keep h => exact ⟨_, .keep (.keep h), .swap _ _ _⟩
      | flip h => exact ⟨_, .flip (.keep h), .swap _ _ _⟩
    | flip h =>
      cases h with
      | keep h => exact ⟨_, .keep (.flip h), .swap _ _ _⟩
      | flip h => exact ⟨_, .flip (.flip h), .swap _ _ _⟩
  | trans _ _ ih1 ih2 =>
    intro b C' h
    obtain ⟨C1, h1, h2⟩ := ih2 h
    obtain ⟨C2, h3, h4⟩ := ih1 h1
    exact ⟨C2, h3, h4.trans h2⟩

/-! ## Parity constraints -/

/-- All clauses of a parity constraint. -/
def XorL (F : Formula) (b : Bool) (L : List Nat) : Prop := ∀ C, Flips b L C → UC F C

theorem XorL.sub {b : Bool} {L : List Nat} (h : XorL F b L) (hs : Sub F G) : XorL G b L := fun C hC => (h C hC).sub hs

theorem XorL.perm {b : Bool} {L L' : List Nat} (h : XorL F b L) (hp : L.Perm L') : XorL F b L' := by
  intro C' hC'
  obtain ⟨C, h1, h2⟩ := Flips.perm hp hC'
  exact (h C h1).perm h2

theorem XorL.flip {b : Bool} {x : Nat} {L : List Nat} (h : XorL F b (x :: L)) : XorL F (!b) (neg x :: L) := by
  intro C hC
  generalize hb : (!b) = b' at hC
  cases hC with
  | keep hC =>
    subst hb
    exact h _ (by have := Flips.flip (x := x) hC; rwa [Bool.not_not] at this)
  | @flip b'' _ C' _ hC =>
    have e : b = b'' := by simpa using hb
    subst e
    rw [neg_neg]
    exact h _ (.keep hC)

theorem XorL.rename {b : Bool} {x y : Nat} {L : List Nat} (h : XorL F b (x :: L)) (h1 : Imp F [x] y) (h2 : Imp F [neg y] (neg x))
    (h3 : Imp F [neg x] (neg y)) (h4 : Imp F [y] x) : XorL F b (y :: L) := by
  intro C hC
  cases hC with
  | keep hC => exact (h _ (.keep hC)).rename1 h1 h2
  | flip hC => exact (h _ (.flip hC)).rename1 h3 (by rw [neg_neg, neg_neg]; exact h4)

theorem XorL.dropFalse {b : Bool} {x : Nat} {L : List Nat} (h : XorL F b (x :: L)) (hx : Imp F [] (neg x)) : XorL F b L :=
  fun _ hC => (h _ (.keep hC)).drop hx

theorem XorL.dropTrue {b : Bool} {x : Nat} {L : List Nat} (h : XorL F b (x :: L)) (hx : Imp F [] x) : XorL F (!b) L :=
  h.flip.dropFalse (by rw [neg_neg]; exact hx)

/-- Dropping assigned literals. -/
theorem XorL.filter {v : Nat → Int} (hv : ∀ l, 0 < v l → Imp F [] l) (hv' : ∀ l, v l < 0 → Imp F [] (neg l)) :
    ∀ {rhs : List Nat} {b : Bool} {L : List Nat}, XorL F b (rhs ++ L) →
    XorL F (b ^^ decide ((rhs.filter fun l => decide (v l > 0)).length % 2 = 1)) ((rhs.filter fun l => decide (v l = 0)) ++ L)
  | [], b, L, h => by simpa using h
  | x :: rhs, b, L, h => by
    rcases (show v x = 0 ∨ 0 < v x ∨ v x < 0 by omega) with h0 | h0 | h0
    · have h1 : XorL F b (rhs ++ x :: L) := h.perm List.perm_middle.symm
      have h2 := XorL.filter hv hv' h1
      rw [List.filter_cons_of_neg (by simp; omega), List.filter_cons_of_pos (by simpa using h0)]
      exact h2.perm List.perm_middle
    · have h1 : XorL F (!b) (rhs ++ L) := XorL.dropTrue h (hv x h0)
      have h2 := XorL.filter hv hv' h1
      rw [List.filter_cons_of_pos (by simpa using h0), List.filter_cons_of_neg (by simp; omega)]
      have e : (b ^^ decide ((x :: rhs.filter fun l => decide (v l > 0)).length % 2 = 1)) =
          ((!b) ^^ decide ((rhs.filter fun l => decide (v l > 0)).length % 2 = 1)) := by
        rw [List.length_cons]
        generalize (rhs.filter fun l => decide (v l > 0)).length = n
        rcases Nat.mod_two_eq_zero_or_one n with h | h
        · have : (n + 1) % 2 = 1 := by omega
          simp [h, this]
        · have : (n + 1) % 2 = 0 := by omega
          simp [h, this]
      rw [e]; exact h2
    · have h1 : XorL F b (rhs ++ L) := XorL.dropFalse h (hv' x h0)
      have h2 := XorL.filter hv hv' h1
      rw [List.filter_cons_of_neg (by simp; omega), List.filter_cons_of_neg (by simp; omega)]
      exact h2

/-- The clauses of an XOR gate. -/
def XorOk (F : Formula) (lhs : Nat) (rhs : List Nat) : Prop := XorL F false (neg lhs :: rhs)

theorem XorOk.sub {lhs : Nat} {rhs : List Nat} (h : XorOk F lhs rhs) (hs : Sub F G) : XorOk G lhs rhs := XorL.sub h hs

theorem XorOk.perm {lhs : Nat} {rhs rhs' : List Nat} (h : XorOk F lhs rhs) (hp : rhs.Perm rhs') : XorOk F lhs rhs' :=
  XorL.perm h (hp.cons _)

/-- With odd parity the left hand side is negated. -/
theorem xorOk_of {b : Bool} {lhs : Nat} {rhs : List Nat} (h : XorL F b (neg lhs :: rhs)) : XorOk F (if b then neg lhs else lhs) rhs := by
  cases b with
  | false => exact h
  | true =>
    show XorL F false (neg (neg lhs) :: rhs)
    exact XorL.flip h

/-! ## Counting -/

theorem incLits_flips : ∀ L : List Nat, ∃ b, Flips b L (incLits L)
  | [] => ⟨false, .nil⟩
  | l :: L => by
    unfold incLits
    split
    · exact ⟨_, .flip (.refl L)⟩
    · obtain ⟨b, h⟩ := incLits_flips L
      exact ⟨_, .flip h⟩

theorem incTimes_flips : ∀ (n : Nat) (L : List Nat), ∃ b, Flips b L (incTimes n L)
  | 0, L => ⟨false, .refl L⟩
  | n + 1, L => by
    obtain ⟨b1, h1⟩ := incLits_flips L
    obtain ⟨b2, h2⟩ := incTimes_flips n (incLits L)
    exact ⟨_, h1.trans h2⟩

theorem incTimes_add : ∀ (m n : Nat) (L : List Nat), incTimes (m + n) L = incTimes n (incTimes m L)
  | 0, n, L => by rw [Nat.zero_add]; rfl
  | m + 1, n, L => by
    rw [Nat.add_right_comm]
    exact incTimes_add m n (incLits L)

theorem neg_mod_one {l : Nat} (h : l % 2 = 0) : neg l % 2 = 1 := by
  unfold neg; rw [if_pos h]; omega

theorem neg_mod_zero {l : Nat} (h : l % 2 = 1) : neg l % 2 = 0 := by
  unfold neg; rw [if_neg (by omega)]; omega

theorem incLits_even {l : Nat} {L : List Nat} (h : l % 2 = 0) : incLits (l :: L) = neg l :: L := by
  unfold incLits; rw [if_pos (neg_mod_one h)]

theorem incLits_odd {l : Nat} {L : List Nat} (h : l % 2 = 1) : incLits (l :: L) = neg l :: incLits L := by
  unfold incLits; rw [if_neg (by rw [neg_mod_zero h]; simp)]; cases L <;> rfl

theorem incLits_two (l : Nat) (L : List Nat) : incLits (incLits (l :: L)) = l :: incLits L := by
  rcases Nat.mod_two_eq_zero_or_one l with h | h
  · rw [incLits_even h, incLits_odd (neg_mod_one h), neg_neg]
  · rw [incLits_odd h, incLits_even (neg_mod_zero h), neg_neg]

theorem incTimes_two : ∀ (k l : Nat) (L : List Nat), incTimes (2 * k) (l :: L) = l :: incTimes k L
  | 0, l, L => rfl
  | k + 1, l, L => by
    show incTimes (2 * k) (incLits (incLits (l :: L))) = l :: incTimes k (incLits L)
    rw [incLits_two, incTimes_two]

theorem incTimes_period : ∀ L : List Nat, incTimes (2 ^ L.length) L = L
  | [] => rfl
  | l :: L => by
    rw [List.length_cons, Nat.pow_succ, Nat.mul_comm, incTimes_two, incTimes_period L]

/-- All signs occur. -/
theorem incTimes_all : ∀ {L C : List Nat} {b : Bool}, Flips b L C → ∃ k, k < 2 ^ L.length ∧ incTimes k L = C
  | [], _, _, h => by cases h; exact ⟨0, by simp, rfl⟩
  | l :: L, C, b, h => by
    have hpow : 2 ^ (l :: L).length = 2 * 2 ^ L.length := by rw [List.length_cons, Nat.pow_succ, Nat.mul_comm]
    have hpos : 0 < 2 ^ L.length := Nat.pos_of_ne_zero (by simp)
    have hstep : ∀ k L', incTimes (2 * k + 1) L' = incTimes (2 * k) (incLits L') := fun _ _ => rfl
    cases h with
    | keep h =>
      obtain ⟨k, h1, h2⟩ := incTimes_all h
      exact ⟨2 * k, by omega, by rw [incTimes_two, h2]⟩
    | flip h =>
      obtain ⟨k, h1, h2⟩ := incTimes_all h
      rcases Nat.mod_two_eq_zero_or_one l with h0 | h0
      · exact ⟨2 * k + 1, by omega, by rw [hstep, incLits_even h0, incTimes_two, h2]⟩
      · rcases Nat.eq_zero_or_pos k with rfl | hk
        · refine ⟨2 * (2 ^ L.length - 1) + 1, by omega, ?_⟩
          rw [hstep, incLits_odd h0, incTimes_two]
          have e : incTimes (2 ^ L.length - 1) (incLits L) = incTimes (2 ^ L.length - 1 + 1) L := rfl
          rw [e, Nat.sub_add_cancel hpos, incTimes_period]
          rw [← h2]; rfl
        · refine ⟨2 * (k - 1) + 1, by omega, ?_⟩
          rw [hstep, incLits_odd h0, incTimes_two]
          have e : incTimes (k - 1) (incLits L) = incTimes (k - 1 + 1) L := rfl
          rw [e, Nat.sub_add_cancel hk, h2]

/-! ### Signs of the same parity -/

theorem parityLits_lt : ∀ L : List Nat, parityLits L < 2
  | [] => by unfold parityLits; omega
  | l :: L => by unfold parityLits; omega

theorem neg_parity (l : Nat) : neg l % 2 = (l + 1) % 2 := by
  unfold neg; split <;> omega

theorem Flips.parity {b : Bool} {L C : List Nat} (h : Flips b L C) : parityLits C = (parityLits L + b.toNat) % 2 := by
  induction h with
  | nil => rfl
  | @keep b L C x _ ih =>
    unfold parityLits
    rw [ih]; omega
  | @flip b L C x _ ih =>
    unfold parityLits
    have := neg_parity x
    cases b
    · simp only [Bool.toNat_false, Nat.add_zero, Bool.not_false, Bool.toNat_true] at ih ⊢
      omega
    · simp only [Bool.toNat_false, Nat.add_zero, Bool.not_true, Bool.toNat_true] at ih ⊢
      omega

theorem incUntil_flips (p : Nat) : ∀ (n : Nat) (L : List Nat), ∃ b, Flips b L (incUntil p n L)
  | 0, L => ⟨_, .refl L⟩
  | n + 1, L => by
    unfold incUntil
    split
    · exact ⟨_, .refl L⟩
    · obtain ⟨b1, h1⟩ := incLits_flips L
      obtain ⟨b2, h2⟩ := incUntil_flips p n (incLits L)
      exact ⟨_, h1.trans h2⟩

/-- The next clause of the same parity. -/
theorem incUntil_next {p l : Nat} {L : List Nat} (hp : parityLits (l :: L) = p) :
    ∃ h, (h = l ∨ h = neg l) ∧ incUntil p 3 (incLits (l :: L)) = h :: incLits L ∧ parityLits (h :: incLits L) = p := by
  have hn := neg_parity l
  have h1 := parityLits_lt L
  have h2 := parityLits_lt (incLits L)
  have hl : parityLits (l :: L) = (l + parityLits L) % 2 := rfl
  have hu : ∀ (n : Nat) (C : List Nat), incUntil p (n + 1) C = if parityLits C = p then C else incUntil p n (incLits C) := fun _ _ => rfl
  have hpar : ∀ x, parityLits (x :: incLits L) = (x + parityLits (incLits L)) % 2 := fun _ => rfl
  rcases Nat.mod_two_eq_zero_or_one l with h0 | h0
  · rw [incLits_even h0, hu, if_neg (by show ¬ (neg l + parityLits L) % 2 = p; omega), incLits_odd (neg_mod_one h0), neg_neg, hu]
    by_cases e : parityLits (l :: incLits L) = p
    · rw [if_pos e]; exact ⟨l, Or.inl rfl, rfl, e⟩
    · rw [if_neg e, incLits_even h0]
      have e' : parityLits (neg l :: incLits L) = p := by rw [hpar] at e ⊢; omega
      rw [hu, if_pos e']
      exact ⟨_, Or.inr rfl, rfl, e'⟩
  · rw [incLits_odd h0, hu]
    by_cases e : parityLits (neg l :: incLits L) = p
    · rw [if_pos e]; exact ⟨_, Or.inr rfl, rfl, e⟩
    · rw [if_neg e, incLits_even (neg_mod_zero h0), neg_neg]
      have e' : parityLits (l :: incLits L) = p := by rw [hpar] at e ⊢; omega
      rw [hu, if_pos e']
      exact ⟨_, Or.inl rfl, rfl, e'⟩

theorem flips_of_parity {b : Bool} {L C : List Nat} (h : Flips b L C) (hp : parityLits C = parityLits L) : Flips false L C := by
  cases b with
  | false => exact h
  | true =>
    have := h.parity
    rw [hp, Bool.toNat_true] at this
    have := parityLits_lt L
    omega

/-- The clauses visited have the right parity. -/
theorem parityClauses_sound {p : Nat} : ∀ {n : Nat} {L : List Nat}, L ≠ [] → parityLits L = p → ∀ C ∈ parityClauses p n L, Flips false L C
  | 0, L, _, _, C, h => by cases h
  | n + 1, [], hL, _, _, _ => absurd rfl hL
  | n + 1, l :: L, _, hp, C, h => by
    unfold parityClauses at h
    rcases List.mem_cons.1 h with rfl | h
    · exact .refl _
    · obtain ⟨x, hx, e1, e2⟩ := incUntil_next hp
      rw [e1] at h
      have h1 := parityClauses_sound (by simp) e2 C h
      obtain ⟨b, h2⟩ := incLits_flips L
      have h3 : ∃ b, Flips b (l :: L) (x :: incLits L) := by
        rcases hx with rfl | rfl
        · exact ⟨_, .keep h2⟩
        · exact ⟨_, .flip h2⟩
      obtain ⟨b', h3⟩ := h3
      have h4 := flips_of_parity h3 (by rw [hp]; exact e2)
      exact h4.trans h1

theorem parityClauses_head {p : Nat} : ∀ {n k l : Nat} {L : List Nat}, parityLits (l :: L) = p → k < n →
    ∃ h, (h = l ∨ h = neg l) ∧ h :: incTimes k L ∈ parityClauses p n (l :: L)
  | 0, _, _, _, _, h => absurd h (Nat.not_lt_zero _)
  | n + 1, 0, l, L, _, _ => ⟨l, Or.inl rfl, by unfold parityClauses; exact List.mem_cons_self⟩
  | n + 1, k + 1, l, L, hp, hk => by
    obtain ⟨x, hx, e1, e2⟩ := incUntil_next hp
    obtain ⟨y, hy, h⟩ := parityClauses_head (n := n) (k := k) e2 (by omega)
    refine ⟨y, ?_, ?_⟩
    · rcases hx with rfl | rfl
      · exact hy
      · rcases hy with rfl | rfl
        · exact Or.inr rfl
        · exact Or.inl (neg_neg l)
    · unfold parityClauses
      rw [e1]
      exact List.mem_cons_of_mem _ h

/-- All clauses of the parity are visited. -/
theorem parityClauses_all {p n l : Nat} {L C : List Nat} (hp : parityLits (l :: L) = p) (hn : 2 ^ L.length ≤ n)
    (h : Flips false (l :: L) C) : C ∈ parityClauses p n (l :: L) := by
  obtain ⟨x, D, b, hC, hx, hD⟩ : ∃ x D b, C = x :: D ∧ (x = l ∨ x = neg l) ∧ Flips b L D := by
    generalize hb : false = b at h
    cases h with
    | keep h => exact ⟨_, _, _, rfl, Or.inl rfl, h⟩
    | flip h => exact ⟨_, _, _, rfl, Or.inr rfl, h⟩
  obtain ⟨k, k1, k2⟩ := incTimes_all hD
  obtain ⟨y, hy, hmem⟩ := parityClauses_head (k := k) hp (Nat.lt_of_lt_of_le k1 hn)
  rw [k2] at hmem
  have h1 := (parityClauses_sound (by simp) hp _ hmem).parity
  have h2 := h.parity
  rw [hC] at h2
  have hxy : x = y := by
    have e1 : parityLits (y :: D) = (y + parityLits D) % 2 := rfl
    have e2 : parityLits (x :: D) = (x + parityLits D) % 2 := rfl
    have hn := neg_parity l
    rcases hx with rfl | rfl
    · rcases hy with rfl | rfl
      · rfl
      · omega
    · rcases hy with rfl | rfl
      · omega
      · rfl
  rw [hC, hxy]; exact hmem

/-! ## Matching XOR gates -/

/-- Clauses for both signs of the next literal, up to the two last literals. -/
def Level (F : Formula) (L : List Nat) (x : Nat) (T : List Nat) : Prop :=
  ∀ b C, Flips b L C → ∀ y, (y = x ∨ y = neg x) → ∃ D, (∀ m ∈ D, m ∈ C ++ T) ∧ UC F (y :: D)

theorem Level.bot {L T C : List Nat} {x : Nat} {b : Bool} (h : Level F L x T) (hC : Flips b L C) : Bot F ((C ++ T).map neg) := by
  obtain ⟨D1, h1, h2⟩ := h b C hC x (Or.inl rfl)
  obtain ⟨D2, h3, h4⟩ := h b C hC (neg x) (Or.inr rfl)
  exact UC.resolve h2 h4 h1 h3

theorem mem_xorRound {l1 l2 : Nat} : ∀ {n : Nat} {L C : List Nat}, C ∈ xorRound l1 l2 n L ↔
    ∃ k, k < n ∧ (C = incTimes k L ++ [neg l1, l2] ∨ C = incTimes k L ++ [l1, neg l2])
  | 0, L, C => by simp [xorRound]
  | n + 1, L, C => by
    unfold xorRound
    rw [List.mem_cons, List.mem_cons, mem_xorRound]
    constructor
    · rintro (h | h | ⟨k, h1, h2⟩)
      · exact ⟨0, by omega, Or.inl h⟩
      · exact ⟨0, by omega, Or.inr h⟩
      · exact ⟨k + 1, by omega, h2⟩
    · rintro ⟨k, h1, h2⟩
      cases k with
      | zero => exact h2.elim Or.inl fun h => Or.inr (Or.inl h)
      | succ k => exact Or.inr (Or.inr ⟨k, by omega, h2⟩)

theorem steps_xorRounds {l1 l2 : Nat} : ∀ {n : Nat} {L : List Nat} {F : Formula} {x : Nat}, L.length = n → Level F L x [neg l1, l2] →
    Level F L x [l1, neg l2] → Steps F (xorRounds l1 l2 n L) ∧ Bot (Pluses F (xorRounds l1 l2 n L)) [l1, neg l2] ∧
      Bot (Pluses F (xorRounds l1 l2 n L)) [neg l1, l2]
  | 0, L, F, x, hn, h1, h2 => by
    have e : L = [] := List.length_eq_zero_iff.1 hn
    subst e
    have b1 := h1.bot .nil
    have b2 := h2.bot .nil
    simp only [List.nil_append, List.map_cons, neg_neg, List.map_nil] at b1 b2
    exact ⟨trivial, b1, b2⟩
  | n + 1, L, F, x, hn, h1, h2 => by
    have hL : L ≠ [] := by intro e; rw [e] at hn; cases hn
    have hdl : L = L.dropLast ++ [L.getLast hL] := (List.dropLast_concat_getLast hL).symm
    have hper : (incTimes (2 ^ (n + 1)) L) = L := by rw [← hn]; exact incTimes_period L
    unfold xorRounds
    rw [hper]
    have hlvl : ∀ T, (T = [neg l1, l2] ∨ T = [l1, neg l2]) →
        Level (Pluses F (xorRound l1 l2 (2 ^ (n + 1)) L)) L.dropLast (L.getLast hL) T := by
      intro T hT b C hC y hy
      refine ⟨C ++ T, fun _ h => h, ?_⟩
      have hCy : ∃ b', Flips b' L (C ++ [y]) := by
        have hy' : ∃ b'', Flips b'' [L.getLast hL] [y] := by
          rcases hy with rfl | rfl
          · exact ⟨_, .keep .nil⟩
          · exact ⟨_, .flip .nil⟩
        obtain ⟨b'', hy'⟩ := hy'
        have := hC.append hy'
        rw [← hdl] at this
        exact ⟨_, this⟩
      obtain ⟨b', hCy⟩ := hCy
      obtain ⟨k, k1, k2⟩ := incTimes_all hCy
      have hmem : C ++ [y] ++ T ∈ xorRound l1 l2 (2 ^ (n + 1)) L := by
        rw [mem_xorRound]
        refine ⟨k, by rw [← hn]; exact k1, ?_⟩
        rw [k2]
        rcases hT with rfl | rfl
        · exact Or.inl rfl
        · exact Or.inr rfl
      refine (UC.of_clause (pluses_iff.2 (Or.inr hmem))).perm ?_
      rw [List.append_assoc]
      exact List.perm_middle
    obtain ⟨i1, i2, i3⟩ := steps_xorRounds (n := n) (L := L.dropLast) (F := Pluses F (xorRound l1 l2 (2 ^ (n + 1)) L))
      (x := L.getLast hL) (by rw [List.length_dropLast, hn]; rfl) (hlvl _ (Or.inl rfl)) (hlvl _ (Or.inr rfl))
    have happ : ∀ {cs ds : List (List Nat)} {F : Formula}, Pluses F (cs ++ ds) = Pluses (Pluses F cs) ds := by
      intro cs
      induction cs with
      | nil => intros; rfl
      | cons c cs ih => intro ds F; exact ih
    refine ⟨Steps.append (Steps.of_all fun C hC => ?_) i1, by rw [happ]; exact i2, by rw [happ]; exact i3⟩
    rw [mem_xorRound] at hC
    obtain ⟨k, _, hC⟩ := hC
    obtain ⟨b, hk⟩ := incTimes_flips k L
    rcases hC with rfl | rfl
    · exact h1.bot hk
    · exact h2.bot hk

theorem level_xor {l1 l2 x : Nat} {L : List Nat} (h1 : XorOk F l1 (L ++ [x])) (h2 : XorOk F l2 (L ++ [x])) :
    Level F L x [neg l1, l2] ∧ Level F L x [l1, neg l2] := by
  have key : ∀ b C, Flips b L C → ∀ y, (y = x ∨ y = neg x) →
      (UC F (y :: (neg l1 :: C)) ∧ UC F (y :: (neg l2 :: C))) ∨ (UC F (y :: (l1 :: C)) ∧ UC F (y :: (l2 :: C))) := by
    intro b C hC y hy
    have hy' : ∃ b'', Flips b'' [x] [y] := by
      rcases hy with rfl | rfl
      · exact ⟨_, .keep .nil⟩
      · exact ⟨_, .flip .nil⟩
    obtain ⟨b'', hy'⟩ := hy'
    have hCy := hC.append hy'
    have hperm : ∀ z, (z :: (C ++ [y])).Perm (y :: z :: C) := fun z =>
      (List.Perm.cons z (List.perm_append_comm (l₁ := C) (l₂ := [y]))).trans (List.Perm.swap y z C)
    cases hb : (b ^^ b'') with
    | false =>
      rw [hb] at hCy
      exact Or.inl ⟨(h1 _ (.keep hCy)).perm (hperm _), (h2 _ (.keep hCy)).perm (hperm _)⟩
    | true =>
      rw [hb] at hCy
      have i1 := h1 _ (.flip hCy)
      have i2 := h2 _ (.flip hCy)
      rw [neg_neg] at i1 i2
      exact Or.inr ⟨i1.perm (hperm _), i2.perm (hperm _)⟩
  have hsub : ∀ {z : Nat} {C T : List Nat}, z ∈ T → ∀ m ∈ z :: C, m ∈ C ++ T := by
    intro z C T hz m hm
    rcases List.mem_cons.1 hm with rfl | hm
    · simp [hz]
    · simp [hm]
  constructor
  · intro b C hC y hy
    rcases key b C hC y hy with ⟨u1, u2⟩ | ⟨u1, u2⟩
    · exact ⟨_, hsub (by simp), u1⟩
    · exact ⟨_, hsub (by simp), u2⟩
  · intro b C hC y hy
    rcases key b C hC y hy with ⟨u1, u2⟩ | ⟨u1, u2⟩
    · exact ⟨_, hsub (by simp), u2⟩
    · exact ⟨_, hsub (by simp), u1⟩

/-! ## AND gates and ITE gates -/

/-- The implications of an AND gate. -/
structure AndOk (F : Formula) (lhs : Nat) (rhs : List Nat) : Prop where
  fwd : ∀ r ∈ rhs, Imp F [lhs] r
  back : Imp F rhs lhs

theorem AndOk.sub {lhs : Nat} {rhs : List Nat} (h : AndOk F lhs rhs) (hs : Sub F G) : AndOk G lhs rhs :=
  ⟨fun r hr => (h.fwd r hr).sub hs, h.back.sub hs⟩

theorem AndOk.mem {lhs : Nat} {rhs rhs' : List Nat} (h : AndOk F lhs rhs) (hm : ∀ x, x ∈ rhs' ↔ x ∈ rhs) : AndOk F lhs rhs' :=
  ⟨fun r hr => h.fwd r ((hm r).1 hr), h.back.weaken fun b hb => (hm b).2 hb⟩

/-- Gates with the same inputs. -/
theorem AndOk.match_ {l1 l2 : Nat} {rhs : List Nat} (h1 : AndOk F l1 rhs) (h2 : AndOk F l2 rhs) : Bot F [l1, neg l2] := by
  refine Bot.contra (l := l2) (h2.back.cut fun b hb => ?_) (Imp.mem (by simp))
  exact (h1.fwd b hb).weaken (by simp)

/-- The clauses of an ITE gate. -/
structure IteOk (F : Formula) (lhs cond t e : Nat) : Prop where
  c1 : UC F [neg cond, neg t, lhs]
  c2 : UC F [neg cond, t, neg lhs]
  c3 : UC F [cond, neg e, lhs]
  c4 : UC F [cond, e, neg lhs]

theorem IteOk.sub {lhs cond t e : Nat} (h : IteOk F lhs cond t e) (hs : Sub F G) : IteOk G lhs cond t e :=
  ⟨h.c1.sub hs, h.c2.sub hs, h.c3.sub hs, h.c4.sub hs⟩

/-- Negating the left hand side and the inputs. -/
theorem IteOk.negate {lhs cond t e : Nat} (h : IteOk F lhs cond t e) : IteOk F (neg lhs) cond (neg t) (neg e) :=
  ⟨by rw [neg_neg]; exact h.c2, by rw [neg_neg]; exact h.c1, by rw [neg_neg]; exact h.c4, by rw [neg_neg]; exact h.c3⟩

theorem IteOk.swap {lhs cond t e : Nat} (h : IteOk F lhs cond t e) : IteOk F lhs (neg cond) e t :=
  ⟨by rw [neg_neg]; exact h.c3, by rw [neg_neg]; exact h.c4, h.c1, h.c2⟩

/-- `UC` for clauses of three literals. -/
theorem UC.three {a b d : Nat} (h : UC F [a, b, d]) :
    Imp F [neg a, neg b] d ∧ Imp F [neg a, neg d] b ∧ Imp F [neg b, neg d] a :=
  ⟨h [a, b] d [] rfl, h [a] b [d] rfl, h [] a [b, d] rfl⟩

theorem Imp.two {a b l : Nat} {A : List Nat} (h : Imp F [a, b] l) (ha : Imp F A a) (hb : Imp F A b) : Imp F A l :=
  h.cut fun x hx => by
    simp only [List.mem_cons, List.not_mem_nil, or_false] at hx
    rcases hx with rfl | rfl
    · exact ha
    · exact hb

theorem Imp.one {a l : Nat} {A : List Nat} (h : Imp F [a] l) (ha : Imp F A a) : Imp F A l :=
  h.cut fun x hx => by rw [List.mem_singleton.1 hx]; exact ha

end Verif.Congruence
