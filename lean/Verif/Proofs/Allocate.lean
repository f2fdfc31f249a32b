import Verif.Model.Allocate

/-!
# Allocation
-/

namespace Verif.Proofs.Allocate

open Verif.Spec.Ledger
open Verif.Model.Allocate hiding malloc free nalloc calloc dealloc realloc nrealloc

/-- The state agrees with the ledger. -/
structure Agree (s : State) (b : Blocks) (peak : Nat) : Prop where
  heap : s.heap = b
  current : s.current = total b
  max : s.max = peak
  le : total b ≤ peak

theorem total_cons (x : Nat × Nat) (b : Blocks) : total (x :: b) = x.2 + total b := by
  simp [total]

theorem total_without : ∀ {b : Blocks} {p n : Nat}, (b.map (·.1)).Nodup → (p, n) ∈ b →
    total (without b p) + n = total b
  | [], _, _, _, h => by simp at h
  | x :: b, p, n, hn, h => by
    rw [List.map_cons, List.nodup_cons] at hn
    have hkeep : ∀ {c : Blocks}, p ∉ c.map (·.1) → without c p = c := by
      intro c hc
      unfold without
      rw [List.filter_eq_self]
      intro y hy
      have : y.1 ≠ p := fun e => hc (List.mem_map.2 ⟨y, hy, e⟩)
      simpa using this
    rcases List.mem_cons.1 h with rfl | h
    · have : without ((p, n) :: b) p = b := by
        have h2 : without ((p, n) :: b) p = without b p := by unfold without; simp
        rw [h2, hkeep hn.1]
      rw [this, total_cons]; simp only []; omega
    · have hx : x.1 ≠ p := fun e => hn.1 (List.mem_map.2 ⟨(p, n), h, e.symm⟩)
      have h2 : without (x :: b) p = x :: without b p := by unfold without; simp [hx]
      rw [h2, total_cons, total_cons]
      have := total_without hn.2 h
      omega

theorem without_mem {b : Blocks} {p : Nat} {x : Nat × Nat} : x ∈ without b p ↔ x ∈ b ∧ x.1 ≠ p := by
  unfold without; simp

theorem without_total_le (b : Blocks) (p : Nat) : total (without b p) ≤ total b := by
  induction b with
  | nil => simp [total, without]
  | cons x b ih =>
    by_cases hx : x.1 = p
    · have h2 : without (x :: b) p = without b p := by unfold without; simp [hx]
      rw [h2, total_cons]; omega
    · have h2 : without (x :: b) p = x :: without b p := by unfold without; simp [hx]
      rw [h2, total_cons, total_cons]; omega

theorem _root_.Verif.Spec.Ledger.Sound.without {b : Blocks} (h : Sound b) (p : Nat) : Sound (without b p) where
  nodup := by
    have : ((Verif.Spec.Ledger.without b p).map (·.1)).Sublist (b.map (·.1)) :=
      List.Sublist.map _ List.filter_sublist
    exact this.nodup h.nodup
  nonzero := fun x hx => h.nonzero x (without_mem.1 hx).1
  pos := fun x hx => h.pos x (without_mem.1 hx).1
  size := Nat.lt_of_le_of_lt (without_total_le b p) h.size

theorem mem_size {b : Blocks} {p n : Nat} (h : (p, n) ∈ b) : n ≤ total b := by
  induction b with
  | nil => simp at h
  | cons x b ih =>
    rw [total_cons]
    rcases List.mem_cons.1 h with rfl | h
    · simp only []; omega
    · have := ih h; omega

theorem live_iff {s : State} {p : Nat} : s.live p = true ↔ ∃ n, (p, n) ∈ s.heap := by
  unfold State.live
  rw [List.any_eq_true]
  constructor
  · rintro ⟨x, h1, h2⟩
    have : x.1 = p := by simpa using h2
    exact ⟨x.2, by rw [← this]; exact h1⟩
  · rintro ⟨n, h⟩
    exact ⟨(p, n), h, by simp⟩

theorem prod_lt {n size : Nat} (h : ¬ ((2 ^ 64 - 1) / size < n)) (hs : size ≠ 0) : n * size < 2 ^ 64 := by
  have h1 : n ≤ (2 ^ 64 - 1) / size := Nat.le_of_not_lt h
  rw [Nat.le_div_iff_mul_le (by omega)] at h1
  omega

theorem prod_ge {n size : Nat} (h : (2 ^ 64 - 1) / size < n) (hs : size ≠ 0) : 2 ^ 64 ≤ n * size := by
  rw [Nat.div_lt_iff_lt_mul (by omega)] at h
  omega

/-- A new block. -/
theorem agree_new {s : State} {b : Blocks} {peak q bytes : Nat} (h : Agree s b peak)
    (ht : total b + bytes < 2 ^ 64) :
    Agree ((s.libAlloc q bytes).inc bytes) ((q, bytes) :: b) (max peak (total b + bytes)) := by
  unfold State.libAlloc State.inc
  refine ⟨by rw [← h.heap], ?_, ?_, by rw [total_cons]; simp only []; omega⟩
  · simp only []
    rw [h.current, Nat.mod_eq_of_lt ht, total_cons]; simp only []; omega
  · simp only []
    rw [h.current, Nat.mod_eq_of_lt ht, h.max]
    split <;> omega

/-- A block is given back. -/
theorem agree_dec {s : State} {b : Blocks} {peak p bytes : Nat} (h : Agree s b peak) (hb : Sound b)
    (hm : (p, bytes) ∈ b) : Agree { s.dec bytes with heap := without (s.dec bytes).heap p }
      (without b p) peak := by
  have h1 := total_without hb.nodup hm
  have h2 := hb.size
  unfold State.dec
  refine ⟨by simp only []; rw [h.heap], ?_, h.max,
    Nat.le_trans (without_total_le b p) h.le⟩
  simp only []
  rw [h.current, show total b + 2 ^ 64 - bytes = total (without b p) + 2 ^ 64 by omega,
    Nat.add_mod_right, Nat.mod_eq_of_lt (by omega)]

theorem with_heap (s : State) (c : Nat) : ({ s with current := c } : State).heap = s.heap := rfl

theorem with_max (s : State) (c : Nat) : ({ s with current := c } : State).max = s.max := rfl

theorem dec_heap (s : State) (n : Nat) : (s.dec n).heap = s.heap := by
  unfold State.dec; exact with_heap s _

theorem dec_max (s : State) (n : Nat) : (s.dec n).max = s.max := by
  unfold State.dec; exact with_max s _

theorem agree_of (s : State) (b : Blocks) (peak p : Nat) (h1 : s.heap = b)
    (h2 : s.current = total (without b p)) (h3 : s.max = peak) (h4 : total (without b p) ≤ peak) :
    Agree { s with heap := without s.heap p } (without b p) peak :=
  ⟨by rw [← h1], h2, h3, h4⟩

theorem dec_live (s : State) (n p : Nat) : (s.dec n).live p = s.live p := by
  unfold State.live; rw [dec_heap]

theorem owned_live {s : State} {b : Blocks} {peak : Nat} (h : Agree s b peak) {p n m : Nat}
    (ho : (p, n) ∈ b) : (s.dec m).live p = true := by
  rw [dec_live]
  exact live_iff.2 ⟨n, by rw [h.heap]; exact ho⟩

/-- What is proved about a call. -/
def Fine (b : Blocks) (peak : Nat) (answer : Option Nat) (r : Request) : Result → Prop
  | .ok q s' => Agree s' (after b q r) (max peak (total (after b q r))) ∧
      (Sound (after b q r)) ∧ ((∀ p n size, r ≠ .release p n size) → Owns (after b q r) q (need r)) ∧
      need r < 2 ^ 64
  | .fatal => 2 ^ 64 ≤ need r ∨ (answer = none ∧ need r ≠ 0)
  | .undefined => False

theorem agree_same {s : State} {b : Blocks} {peak : Nat} (h : Agree s b peak) :
    Agree s b (max peak (total b)) := by
  rw [Nat.max_eq_left h.le]; exact h

theorem alloc_fine {s : State} {b : Blocks} {peak n size : Nat} {answer : Option Nat}
    (h : Agree s b peak) (_ : Sound b)
    (ha : ∀ q, answer = some q → n * size < 2 ^ 64 → n * size ≠ 0 →
      Sound (after b q (.allocate n size)))
    (h0 : n * size ≠ 0) (hp : n * size < 2 ^ 64) :
    Fine b peak answer (.allocate n size)
      (match answer with
      | none => .fatal
      | some q => .ok q ((s.libAlloc q (n * size)).inc (n * size))) := by
  cases answer with
  | none => exact .inr ⟨rfl, h0⟩
  | some q =>
    have hs := ha q rfl hp h0
    have e : after b q (.allocate n size) = (q, n * size) :: b := if_neg h0
    have ht := hs.size
    rw [e, total_cons] at ht
    simp only [] at ht
    refine ⟨?_, hs, fun _ => ?_, hp⟩
    · have := agree_new (q := q) (bytes := n * size) h (by omega)
      rw [e, total_cons]; simp only []
      rw [Nat.add_comm (n * size)]; exact this
    · rw [e]; show Owns _ q (n * size)
      unfold Owns; rw [if_neg h0]; simp

theorem empty_fine {s : State} {b : Blocks} {peak n size : Nat} {answer : Option Nat}
    (h : Agree s b peak) (hb : Sound b) (h0 : n * size = 0) :
    Fine b peak answer (.allocate n size) (.ok 0 s) := by
  have e : after b 0 (.allocate n size) = b := if_pos h0
  refine ⟨by rw [e]; exact agree_same h, by rw [e]; exact hb, fun _ => ?_, by
    show n * size < 2 ^ 64; omega⟩
  rw [e]; show Owns _ 0 (n * size)
  unfold Owns; rw [if_pos h0]

theorem free_fine {s : State} {b : Blocks} {peak p n size : Nat} {answer : Option Nat}
    (h : Agree s b peak) (hb : Sound b) (ho : Owns b p (n * size)) :
    Fine b peak answer (.release p n size) (Model.Allocate.free s p (n * size)) := by
  unfold Owns at ho
  unfold Model.Allocate.free
  split at ho
  · rename_i h0
    rw [if_neg (by simp [ho])]
    have e : after b 0 (.release p n size) = b := if_pos h0
    exact ⟨by rw [e]; exact agree_same h, by rw [e]; exact hb,
      fun hr => absurd rfl (hr p n size), Nat.two_pow_pos 64⟩
  · rename_i h0
    have hp := hb.nonzero _ ho
    rw [if_pos hp]
    simp only []
    have hl : (s.dec (n * size)).live p = true := owned_live h ho
    rw [if_pos hl]
    have e : after b 0 (.release p n size) = Verif.Spec.Ledger.without b p := if_neg h0
    refine ⟨?_, by rw [e]; exact hb.without p, fun hr => absurd rfl (hr p n size), by
      exact Nat.two_pow_pos 64⟩
    rw [e, Nat.max_eq_left (Nat.le_trans (without_total_le b p) h.le)]
    exact agree_dec h hb ho

theorem owns_lt {b : Blocks} (hb : Sound b) {p n : Nat} (ho : Owns b p n) : n < 2 ^ 64 := by
  unfold Owns at ho
  split at ho
  · omega
  · exact Nat.lt_of_le_of_lt (mem_size ho) hb.size

theorem realloc_fine {s : State} {b : Blocks} {peak p o n size : Nat} {answer : Option Nat}
    (h : Agree s b peak) (hb : Sound b) (ho : Owns b p (o * size)) (hn : n * size < 2 ^ 64)
    (ha : ∀ q, answer = some q → n * size < 2 ^ 64 → n * size ≠ 0 →
      Sound (after b q (.resize p o n size))) :
    Fine b peak answer (.resize p o n size)
      (Model.Allocate.realloc s answer p (o * size) (n * size)) := by
  unfold Model.Allocate.realloc
  by_cases e1 : o * size = n * size
  · rw [if_pos e1]
    have e : after b p (.resize p o n size) = b := if_pos e1
    refine ⟨by rw [e]; exact agree_same h, by rw [e]; exact hb, fun _ => ?_, hn⟩
    rw [e]; show Owns b p (n * size)
    rw [← e1]; exact ho
  rw [if_neg e1]
  by_cases e2 : n * size = 0
  · rw [if_pos e2]
    have := free_fine (answer := answer) h hb ho
    have ho' := ho
    unfold Owns at ho'
    rw [if_neg (by omega)] at ho'
    have hp := hb.nonzero _ ho'
    unfold Model.Allocate.free at this ⊢
    rw [if_pos hp] at this ⊢
    simp only [] at this ⊢
    have hl : (s.dec (o * size)).live p = true := owned_live h ho'
    rw [if_pos hl] at this ⊢
    have f : after b 0 (.resize p o n size) = after b 0 (.release p o size) := by
      show (if _ then _ else if _ then _ else _) = if _ then _ else _
      rw [if_neg e1, if_pos e2, if_neg (by omega)]
    obtain ⟨t1, t2, _, _⟩ := this
    refine ⟨by rw [f]; exact t1, by rw [f]; exact t2, fun _ => ?_, hn⟩
    show Owns _ 0 (n * size)
    unfold Owns; rw [if_pos e2]
  rw [if_neg e2]
  simp only []
  have hlive : ¬ (p ≠ 0 ∧ (s.dec (o * size)).live p = false) := by
    rintro ⟨k1, k2⟩
    unfold Owns at ho
    split at ho
    · exact k1 ho
    · have hl : (s.dec (o * size)).live p = true := owned_live h ho
      rw [hl] at k2; cases k2
  rw [if_neg hlive]
  cases answer with
  | none => exact .inr ⟨rfl, e2⟩
  | some q =>
    have hs := ha q rfl hn e2
    have e : after b q (.resize p o n size) = (q, n * size) :: Verif.Spec.Ledger.without b p := by
      show (if _ then _ else if _ then _ else _) = _
      rw [if_neg e1, if_neg e2]
    have ht := hs.size
    rw [e, total_cons] at ht
    simp only [] at ht
    have hA : Agree { s.dec (o * size) with heap := Verif.Spec.Ledger.without (s.dec (o * size)).heap p }
        (Verif.Spec.Ledger.without b p) peak := by
      unfold Owns at ho
      split at ho
      · rename_i h0
        subst ho
        have hw : Verif.Spec.Ledger.without b 0 = b := by
          unfold Verif.Spec.Ledger.without
          rw [List.filter_eq_self]
          intro x hx
          simpa using hb.nonzero x hx
        have hd : (s.dec (o * size)).current = s.current := by
          unfold State.dec
          simp only []
          rw [h0, h.current, Nat.sub_zero, Nat.add_mod_right, Nat.mod_eq_of_lt hb.size]
        exact agree_of _ _ _ _ ((dec_heap s _).trans h.heap) (by rw [hw, hd, h.current])
          ((dec_max s _).trans h.max) (by rw [hw]; exact h.le)
      · exact agree_dec h hb ho
    refine ⟨?_, hs, fun _ => ?_, hn⟩
    · have := agree_new (q := q) (bytes := n * size) hA (by omega)
      rw [e, total_cons]; simp only []
      rw [Nat.add_comm (n * size)]; exact this
    · rw [e]; show Owns _ q (n * size)
      unfold Owns; rw [if_neg e2]; simp

theorem run_fine {s : State} {b : Blocks} {peak : Nat} {answer : Option Nat} {c : Call}
    (h : Agree s b peak) (hb : Sound b) (hl : Legal b (request c)) (ht : Typed c)
    (ha : ∀ q, answer = some q → need (request c) < 2 ^ 64 → need (request c) ≠ 0 →
      Sound (after b q (request c))) :
    Fine b peak answer (request c) (c.run s answer) := by
  cases c with
  | malloc bytes =>
    simp only [Call.run, Model.Allocate.malloc, request] at *
    by_cases h0 : bytes = 0
    · rw [if_pos h0]; exact empty_fine h hb (by omega)
    · rw [if_neg h0]
      have := alloc_fine (n := bytes) (size := 1) (answer := answer) h hb ha (by omega)
        (by have : bytes < 2 ^ 64 := ht; omega)
      cases answer with
      | none => exact this
      | some q => simpa only [Nat.mul_one] using this
  | free p bytes =>
    simp only [Call.run, request] at *
    have := free_fine (n := bytes) (size := 1) (answer := answer) h hb hl
    simpa only [Nat.mul_one] using this
  | nalloc n size =>
    simp only [Call.run, Model.Allocate.nalloc, request] at *
    by_cases h0 : n = 0 ∨ size = 0
    · rw [if_pos h0]; exact empty_fine h hb (by rcases h0 with rfl | rfl <;> simp)
    rw [if_neg h0]
    have h1 : n ≠ 0 := fun e => h0 (.inl e)
    have h2 : size ≠ 0 := fun e => h0 (.inr e)
    by_cases h3 : (2 ^ 64 - 1) / size < n
    · rw [if_pos h3]; exact .inl (prod_ge h3 h2)
    · rw [if_neg h3]
      have hp := prod_lt h3 h2
      rw [Nat.mod_eq_of_lt hp]
      exact alloc_fine h hb ha (Nat.mul_ne_zero h1 h2) hp
  | calloc n size =>
    simp only [Call.run, Model.Allocate.calloc, request] at *
    by_cases h0 : n = 0 ∨ size = 0
    · rw [if_pos h0]; exact empty_fine h hb (by rcases h0 with rfl | rfl <;> simp)
    rw [if_neg h0]
    have h1 : n ≠ 0 := fun e => h0 (.inl e)
    have h2 : size ≠ 0 := fun e => h0 (.inr e)
    by_cases h3 : (2 ^ 64 - 1) / size < n
    · rw [if_pos h3]; exact .inl (prod_ge h3 h2)
    · rw [if_neg h3]
      have hp := prod_lt h3 h2
      rw [Nat.mod_eq_of_lt hp]
      exact alloc_fine h hb ha (Nat.mul_ne_zero h1 h2) hp
  | dealloc p n size =>
    simp only [Call.run, Model.Allocate.dealloc, request] at *
    have hlt := owns_lt hb hl
    by_cases h0 : n = 0 ∨ size = 0
    · rw [if_pos h0]
      have e0 : n * size = 0 := by rcases h0 with rfl | rfl <;> simp
      have e : after b 0 (.release p n size) = b := if_pos e0
      exact ⟨by rw [e]; exact agree_same h, by rw [e]; exact hb,
        fun hr => absurd rfl (hr p n size), Nat.two_pow_pos 64⟩
    rw [if_neg h0]
    have h2 : size ≠ 0 := fun e => h0 (.inr e)
    by_cases h3 : (2 ^ 64 - 1) / size < n
    · have := prod_ge h3 h2; omega
    · rw [if_neg h3, Nat.mod_eq_of_lt hlt]
      exact free_fine h hb hl
  | realloc p old new =>
    simp only [Call.run, request] at *
    have := realloc_fine (o := old) (n := new) (size := 1) (answer := answer) h hb hl.2
      (by have := ht.2; omega) ha
    simpa only [Nat.mul_one] using this
  | nrealloc p o n size =>
    simp only [Call.run, Model.Allocate.nrealloc, request] at *
    have hlt := owns_lt hb hl.2
    rw [if_neg hl.1]
    by_cases h3 : (2 ^ 64 - 1) / size < o ∨ (2 ^ 64 - 1) / size < n
    · rw [if_pos h3]
      rcases h3 with h3 | h3
      · have := prod_ge h3 hl.1; omega
      · exact .inl (prod_ge h3 hl.1)
    · rw [if_neg h3]
      have hp := prod_lt (fun e => h3 (.inr e)) hl.1
      rw [Nat.mod_eq_of_lt hp, Nat.mod_eq_of_lt hlt]
      exact realloc_fine h hb hl.2 hp ha

end Verif.Proofs.Allocate
