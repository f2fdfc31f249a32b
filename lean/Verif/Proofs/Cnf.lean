import Verif.Spec.Cnf

/-! Facts about literals, entailment and RUP. -/

namespace Verif.Spec

@[simp] theorem neg_neg (l : Nat) : neg (neg l) = l := by
  unfold neg; split <;> split <;> omega

theorem neg_ne (l : Nat) : neg l ≠ l := by
  unfold neg; split <;> omega

theorem ne_neg (l : Nat) : l ≠ neg l := fun h => neg_ne l h.symm

@[simp] theorem neg_div (l : Nat) : neg l / 2 = l / 2 := by
  unfold neg; split <;> omega

theorem neg_inj {a b : Nat} (h : neg a = neg b) : a = b := by
  rw [← neg_neg a, h, neg_neg]

@[simp] theorem neg_inj_iff {a b : Nat} : neg a = neg b ↔ a = b :=
  ⟨neg_inj, fun h => by rw [h]⟩

theorem neg_eq_iff {a b : Nat} : neg a = b ↔ a = neg b := by
  constructor
  · rintro rfl; simp
  · rintro rfl; simp

theorem eq_or_eq_neg {a b : Nat} (h : a / 2 = b / 2) : a = b ∨ a = neg b := by
  unfold neg; split <;> omega

theorem div_eq_iff {a b : Nat} : a / 2 = b / 2 ↔ a = b ∨ a = neg b :=
  ⟨eq_or_eq_neg, fun h => by rcases h with rfl | rfl <;> simp⟩

theorem litTrue_neg (σ : Assignment) (l : Nat) : litTrue σ (neg l) ↔ ¬ litTrue σ l := by
  have : (decide (neg l % 2 = 0)) = !(decide (l % 2 = 0)) := by
    by_cases h : l % 2 = 0
    · have : neg l % 2 ≠ 0 := by unfold neg; rw [if_pos h]; omega
      simp [h, this]
    · have : neg l % 2 = 0 := by unfold neg; rw [if_neg h]; omega
      simp [h, this]
  unfold litTrue
  rw [neg_div, this]
  cases σ (l / 2) <;> cases decide (l % 2 = 0) <;> simp

theorem litTrue_or_neg (σ : Assignment) (l : Nat) : litTrue σ l ∨ litTrue σ (neg l) := by
  rw [litTrue_neg]; exact Classical.em _

theorem UP.sound {F : Formula} {A : Nat → Prop} {σ : Assignment} (hF : SatFormula σ F)
    (hA : ∀ l, A l → litTrue σ l) {l : Nat} (h : UP F A l) : litTrue σ l := by
  induction h with
  | assumed h => exact hA _ h
  | @unit c l hc hl _ ih =>
    obtain ⟨m, hm, hs⟩ := hF c hc
    by_cases e : m = l
    · exact e ▸ hs
    · exact absurd hs ((litTrue_neg σ m).1 (ih m hm e))

theorem UPConflict.sound {F : Formula} {A : Nat → Prop} {σ : Assignment}
    (hA : ∀ l, A l → litTrue σ l) (h : UPConflict F A) : ¬ SatFormula σ F := by
  intro hF
  obtain ⟨c, hc, h⟩ := h
  obtain ⟨m, hm, hs⟩ := hF c hc
  exact (litTrue_neg σ m).1 ((h m hm).sound hF hA) hs

/-- RUP clauses are entailed. -/
theorem RUP.entails {F : Formula} {c : List Nat} (h : RUP F c) : Entails F c := by
  intro σ hF
  rcases h with h | ⟨l, hl, hn⟩
  · by_cases hs : SatClause σ c
    · exact hs
    · exact absurd hF (h.sound fun l hl => by
        rcases litTrue_or_neg σ l with h | h
        · exact h
        · exact absurd ⟨_, hl, h⟩ hs)
  · rcases litTrue_or_neg σ l with h | h
    · exact ⟨l, hl, h⟩
    · exact ⟨_, hn, h⟩

theorem UP.mono {F G : Formula} {A B : Nat → Prop}
    (hF : ∀ c, F c → ∃ d, G d ∧ SameLits c d) (hA : ∀ l, A l → UP G B l) {l : Nat}
    (h : UP F A l) : UP G B l := by
  induction h with
  | assumed h => exact hA _ h
  | @unit c l hc hl _ ih =>
    obtain ⟨d, hd, hs⟩ := hF c hc
    exact .unit hd ((hs l).1 hl) fun m hm hne => ih m ((hs m).2 hm) hne

theorem UPConflict.mono {F G : Formula} {A B : Nat → Prop}
    (hF : ∀ c, F c → ∃ d, G d ∧ SameLits c d) (hA : ∀ l, A l → UP G B l)
    (h : UPConflict F A) : UPConflict G B := by
  obtain ⟨c, hc, h⟩ := h
  obtain ⟨d, hd, hs⟩ := hF c hc
  exact ⟨d, hd, fun m hm => (h m ((hs m).2 hm)).mono hF hA⟩

theorem SameLits.refl (c : List Nat) : SameLits c c := fun _ => Iff.rfl
theorem SameLits.symm {c d : List Nat} (h : SameLits c d) : SameLits d c := fun l => (h l).symm
theorem SameLits.trans {c d e : List Nat} (h : SameLits c d) (h' : SameLits d e) :
    SameLits c e := fun l => (h l).trans (h' l)

theorem RUP.mono {F G : Formula} (hF : ∀ c, F c → ∃ d, G d ∧ SameLits c d) {c d : List Nat}
    (hcd : ∀ l, l ∈ c → l ∈ d) (h : RUP F c) : RUP G d := by
  rcases h with h | ⟨l, hl, hn⟩
  · exact .inl (h.mono hF fun l hl => .assumed (hcd _ hl))
  · exact .inr ⟨l, hcd _ hl, hcd _ hn⟩

theorem RUP.mono_sub {F G : Formula} (hF : ∀ c, F c → G c) {c : List Nat} (h : RUP F c) :
    RUP G c :=
  h.mono (fun c hc => ⟨c, hF c hc, .refl c⟩) fun _ h => h

theorem Entails.mono {F G : Formula} (hF : ∀ c, F c → G c) {c : List Nat} (h : Entails F c) :
    Entails G c := fun σ hG => h σ fun d hd => hG d (hF d hd)

theorem satClause_same {σ : Assignment} {c d : List Nat} (h : SameLits c d) :
    SatClause σ c ↔ SatClause σ d := by
  constructor
  · rintro ⟨l, hl, hs⟩; exact ⟨l, (h l).1 hl, hs⟩
  · rintro ⟨l, hl, hs⟩; exact ⟨l, (h l).2 hl, hs⟩

theorem SatClause.mono {σ : Assignment} {c d : List Nat} (h : ∀ l ∈ c, l ∈ d)
    (hs : SatClause σ c) : SatClause σ d := by
  obtain ⟨l, hl, ht⟩ := hs; exact ⟨l, h l hl, ht⟩

theorem not_satClause_nil (σ : Assignment) : ¬ SatClause σ [] := by
  rintro ⟨_, h, _⟩; cases h

/-- A clause already in the formula is RUP. -/
theorem RUP.of_mem {F : Formula} {c : List Nat} (h : F c) : RUP F c :=
  .inl ⟨c, h, fun m hm => .assumed (by simpa using hm)⟩

end Verif.Spec
