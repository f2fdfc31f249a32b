import Verif.Model.Containers.Vector
import Verif.Proofs.Containers.Radix
import Verif.Proofs.Containers.Stack

/-!
# Watch list vectors refine a family of lists
-/

namespace Verif.Proofs.Containers

open Verif.Spec Verif.Model.Containers Verif.Model.Bits

theorem put_self {α : Type} {f : Nat → α} {i : Nat} {x : α} : put f i x i = x := if_pos rfl

theorem put_ne {α : Type} {f : Nat → α} {i j : Nat} {x : α} (h : j ≠ i) : put f i x j = f j := if_neg h

/-! ## Counting invalid elements -/

/-- Number of invalid elements among the `n` from `lo` on. -/
def invalids (mem : Nat → Nat) (lo n : Nat) : Nat := (List.range' lo n).countP fun i => mem i == invalidElement

theorem invalids_add {mem : Nat → Nat} {lo a b : Nat} :
    invalids mem lo (a + b) = invalids mem lo a + invalids mem (lo + a) b := by
  unfold invalids
  rw [← List.range'_append_1, List.countP_append]

theorem invalids_congr {mem mem' : Nat → Nat} {lo n : Nat} (h : ∀ i, lo ≤ i → i < lo + n → mem i = mem' i) :
    invalids mem lo n = invalids mem' lo n := by
  unfold invalids
  refine List.countP_congr fun i hi => ?_
  rw [List.mem_range'_1] at hi
  rw [h i hi.1 hi.2]

theorem invalids_all {mem : Nat → Nat} {lo n : Nat} (h : ∀ i, lo ≤ i → i < lo + n → mem i = invalidElement) :
    invalids mem lo n = n := by
  unfold invalids
  rw [List.countP_eq_length.2, List.length_range']
  intro i hi
  rw [List.mem_range'_1] at hi
  rw [h i hi.1 hi.2]; simp

theorem invalids_none {mem : Nat → Nat} {lo n : Nat} (h : ∀ i, lo ≤ i → i < lo + n → mem i ≠ invalidElement) :
    invalids mem lo n = 0 := by
  unfold invalids
  rw [List.countP_eq_zero]
  intro i hi
  rw [List.mem_range'_1] at hi
  simpa using h i hi.1 hi.2

/-- Changing a range. -/
theorem invalids_range {mem mem' : Nat → Nat} {lo n a k : Nat} (h1 : lo ≤ a) (h2 : a + k ≤ lo + n)
    (hout : ∀ i, lo ≤ i → i < lo + n → ¬ (a ≤ i ∧ i < a + k) → mem' i = mem i) :
    invalids mem' lo n + invalids mem a k = invalids mem lo n + invalids mem' a k := by
  obtain ⟨d, rfl⟩ : ∃ d, a = lo + d := ⟨a - lo, by omega⟩
  obtain ⟨e, rfl⟩ : ∃ e, n = d + (k + e) := ⟨n - d - k, by omega⟩
  rw [invalids_add, invalids_add (a := k), invalids_add (a := d), invalids_add (a := k) (mem := mem),
    invalids_congr (mem := mem') (mem' := mem) (lo := lo) (n := d)
      (fun i g1 g2 => hout i (by omega) (by omega) (by omega)),
    invalids_congr (mem := mem') (mem' := mem) (lo := lo + d + k) (n := e)
      (fun i g1 g2 => hout i (by omega) (by omega) (by omega))]
  omega

theorem invalids_put {mem : Nat → Nat} {lo n i e : Nat} (h1 : lo ≤ i) (h2 : i < lo + n) (hm : mem i = invalidElement)
    (he : e ≠ invalidElement) : invalids (put mem i e) lo n + 1 = invalids mem lo n := by
  have := invalids_range (mem := mem) (mem' := put mem i e) (lo := lo) (n := n) (a := i) (k := 1) h1 (by omega)
    (fun j _ _ h => put_ne (by omega))
  rw [invalids_all (mem := mem) (lo := i) (fun j g1 g2 => by rw [show j = i by omega]; exact hm),
    invalids_none (mem := put mem i e) (lo := i) (fun j g1 g2 => by
      rw [show j = i by omega, put_self]; exact he)] at this
  omega

/-! ## The invariant -/

/-- Sum of the sizes of the vectors. -/
def total (s : Vectors) (n : Nat) : Nat := ((List.range n).map fun v => s.last v - s.first v).sum

theorem sum_change {f g : Nat → Nat} {v : Nat} (hne : ∀ w, w ≠ v → g w = f w) : ∀ {n : Nat}, v < n →
    ((List.range n).map g).sum + f v = ((List.range n).map f).sum + g v
  | n + 1, h => by
    rw [List.range_succ, List.map_append, List.map_append, List.sum_append, List.sum_append]
    simp only [List.map_cons, List.map_nil, List.sum_cons, List.sum_nil, Nat.add_zero]
    by_cases hv : v = n
    · subst hv
      have : (List.range v).map g = (List.range v).map f :=
        List.map_congr_left fun w hw => hne w (by have := List.mem_range.1 hw; omega)
      rw [this]; omega
    · have := sum_change hne (n := n) (by omega)
      rw [hne n (Ne.symm hv)]; omega

/-- Blocks returned by the allocator: not null and inside of the address space. -/
structure Block.Valid (b : Block) : Prop where
  pos : 1 ≤ b.address
  space : 4 * (b.address + maxVectors) ≤ 2 ^ 64

/-- The capacity is zero or a power of two. -/
def CapOk (c : Nat) : Prop := c = 0 ∨ ∃ k, 1 ≤ k ∧ k ≤ 48 ∧ c = 2 ^ k

/-- The invariant of the vectors. -/
structure VInv (n : Nat) (s : Vectors) : Prop where
  cap : CapOk s.capacity
  fits : s.size ≤ s.capacity
  fresh : s.size = 0 → s.capacity = 0
  base : s.size ≠ 0 → 1 ≤ s.base ∧ 4 * (s.base + maxVectors) ≤ 2 ^ 64
  ptr : ∀ v, (s.first v = 0 ∧ s.last v = 0) ∨
    (v < n ∧ s.base + 1 ≤ s.first v ∧ s.first v ≤ s.last v ∧ s.last v ≤ s.base + s.size ∧ s.size ≠ 0 ∧
      s.first v < s.base + s.size)
  disj : ∀ v w, v ≠ w → s.first v < s.last v → s.first w < s.last w → s.last v ≤ s.first w ∨ s.last w ≤ s.first v
  valid : ∀ v i, s.first v ≤ s.base + i → s.base + i < s.last v → s.mem i ≠ invalidElement
  count : s.usable = invalids s.mem 1 (s.size - 1)
  exact : s.size ≠ 0 → s.usable + total s n + 1 = s.size

theorem capOk_le {c : Nat} (h : CapOk c) : c ≤ maxVectors := by
  rcases h with rfl | ⟨k, -, h2, rfl⟩
  · exact Nat.zero_le _
  · exact Nat.pow_le_pow_right (by omega) h2

theorem contents_congr {s s' : Vectors} {v : Nat} (h1 : s'.last v - s'.first v = s.last v - s.first v)
    (h2 : ∀ i, i < s.last v - s.first v → s'.mem (s'.first v - s'.base + i) = s.mem (s.first v - s.base + i)) :
    s'.contents v = s.contents v := by
  unfold Vectors.contents
  rw [h1]
  exact List.map_congr_left fun i hi => h2 i (List.mem_range.1 hi)

theorem contents_length {s : Vectors} {v : Nat} : (s.contents v).length = s.last v - s.first v := by
  simp [Vectors.contents]

/-- Moving the stack to another block. -/
theorem VInv.moveTo {n : Nat} {s : Vectors} (h : VInv n s) {b : Block} (hb : Block.Valid b) {c : Nat} (hc : CapOk c)
    (hs : s.size ≤ c) (hs0 : s.size ≠ 0) : VInv n (s.moveTo b c) ∧ (∀ v, (s.moveTo b c).contents v = s.contents v) := by
  have hp := h.ptr
  have hf : ∀ v, ((s.moveTo b c).first v = 0 ∧ (s.moveTo b c).last v = 0 ∧ s.first v = 0 ∧ s.last v = 0) ∨
      (v < n ∧ s.base + 1 ≤ s.first v ∧ s.first v ≤ s.last v ∧ s.last v ≤ s.base + s.size ∧ s.size ≠ 0 ∧
      s.first v < s.base + s.size ∧
      (s.moveTo b c).first v + s.base = s.first v + b.address ∧ (s.moveTo b c).last v + s.base = s.last v + b.address) := by
    intro v
    rcases hp v with h1 | h1
    · left; simp only [Vectors.moveTo, fixPointer, h1]; simp
    · right
      have h2 := h.base h1.2.2.2.2.1
      refine ⟨h1.1, h1.2.1, h1.2.2.1, h1.2.2.2.1, h1.2.2.2.2.1, h1.2.2.2.2.2, ?_, ?_⟩
      · simp only [Vectors.moveTo, fixPointer]; rw [if_neg (by omega)]; omega
      · simp only [Vectors.moveTo, fixPointer]; rw [if_neg (by omega)]; omega
  have hmem : ∀ i, i < s.size → (s.moveTo b c).mem i = s.mem i := by
    intro i hi
    have := h.fits
    simp only [Vectors.moveTo]; rw [if_pos (by omega)]
  have hbase : (s.moveTo b c).base = b.address := rfl
  have hsize : (s.moveTo b c).size = s.size := rfl
  have htot : total (s.moveTo b c) n = total s n := by
    unfold total
    congr 1
    refine List.map_congr_left fun v _ => ?_
    have := hf v; omega
  refine ⟨⟨hc, hs, fun h => absurd h hs0, fun _ => ⟨hb.pos, hb.space⟩, ?_, ?_, ?_, ?_, ?_⟩, fun v => contents_congr ?_ ?_⟩
  · intro v; have := hf v; rw [hbase, hsize]; omega
  · intro v w hvw h1 h2
    have h3 := hf v
    have h4 := hf w
    have := h.disj v w hvw (by omega) (by omega)
    omega
  · intro v i h1 h2
    rw [hbase] at h1 h2
    have h3 := hf v
    rw [hmem i (by omega)]
    exact h.valid v i (by omega) (by omega)
  · rw [hsize, show (s.moveTo b c).usable = s.usable from rfl, h.count]
    exact invalids_congr fun i h1 h2 => (hmem i (by omega)).symm
  · intro h0
    rw [htot, hsize, show (s.moveTo b c).usable = s.usable from rfl]; exact h.exact h0
  · have := hf v; omega
  · intro i hi
    have h3 := hf v
    rw [hbase, show (s.moveTo b c).first v - b.address + i = s.first v - s.base + i by omega]
    exact hmem _ (by omega)

theorem growCapacity_spec {size need : Nat} : ∀ {fuel c : Nat}, CapOk c →
    (∀ k, c = 2 ^ k → 50 ≤ fuel + k) → (c = 0 → 51 ≤ fuel) → size ≤ c →
    growCapacity size need fuel c = .fatal ∨
      ∃ c', growCapacity size need fuel c = .ok c' ∧ CapOk c' ∧ need ≤ c' - size ∧ size ≤ c'
  | 0, c, hc, h1, h2, _ => by
    rcases hc with rfl | ⟨k, -, hk, rfl⟩
    · have := h2 rfl; omega
    · have := h1 k rfl; omega
  | fuel + 1, c, hc, h1, h2, h3 => by
    unfold growCapacity
    by_cases hm : c = maxVectors
    · rw [if_pos hm]; exact .inl rfl
    rw [if_neg hm]
    dsimp only
    have hc' : CapOk (if c ≠ 0 then 2 * c else 2) ∧ size ≤ (if c ≠ 0 then 2 * c else 2) := by
      rcases hc with rfl | ⟨k, hk0, hk, rfl⟩
      · exact ⟨.inr ⟨1, by omega, by omega, rfl⟩, by omega⟩
      · have hk' : k ≠ 48 := fun e => hm (by rw [e]; rfl)
        have : (2 : Nat) ^ k ≠ 0 := Nat.pos_iff_ne_zero.1 (Nat.two_pow_pos k)
        rw [if_pos this]
        exact ⟨.inr ⟨k + 1, by omega, by omega, by rw [Nat.pow_succ]; omega⟩, by omega⟩
    have hfu : (∀ k, (if c ≠ 0 then 2 * c else 2) = 2 ^ k → 50 ≤ fuel + k) := by
      intro k hk
      by_cases h0 : c = 0
      · have := h2 h0; omega
      · rw [if_pos h0] at hk
        cases k with
        | zero => simp at hk
        | succ k =>
          rw [Nat.pow_succ] at hk
          have := h1 k (by omega)
          omega
    have hz : (if c ≠ 0 then 2 * c else 2) ≠ 0 := by split <;> omega
    generalize (if c ≠ 0 then 2 * c else 2) = c' at hc' hfu hz ⊢
    by_cases hn : need > c' - size
    · rw [if_pos hn]
      exact growCapacity_spec hc'.1 hfu (fun h => absurd h hz) hc'.2
    · rw [if_neg hn]
      exact .inr ⟨c', rfl, hc'.1, by omega, hc'.2⟩

theorem VInv.reserve {n : Nat} {s : Vectors} (h : VInv n s) {b : Block} (hb : Block.Valid b) (need : Nat)
    (hs0 : s.size ≠ 0) :
    s.reserve b need = .fatal ∨ ∃ s', s.reserve b need = .ok s' ∧ VInv n s' ∧ (∀ v, s'.contents v = s.contents v) ∧
      s'.size + need ≤ s'.capacity ∧ s'.size = s.size ∧
      (∀ v, s'.last v - s'.first v = s.last v - s.first v) ∧ s'.usable = s.usable ∧
      (∀ v, s.first v ≠ 0 → s'.first v ≠ 0) := by
  unfold Vectors.reserve
  have hfit := h.fits
  by_cases hn : need > s.capacity - s.size
  · rw [if_pos hn]
    rcases growCapacity_spec (size := s.size) (need := need) (fuel := 64) h.cap (fun k _ => by omega)
      (fun _ => by omega) hfit with hg | ⟨c, hg, hc, h1, h2⟩
    · left; rw [hg]
    · right
      rw [hg]
      obtain ⟨h3, h4⟩ := h.moveTo hb hc h2 hs0
      refine ⟨_, rfl, h3, h4, ?_, rfl, fun v => ?_, rfl, fun v hv => ?_⟩
      · show s.size + need ≤ c; omega
      · rw [← contents_length, h4, contents_length]
      · rcases h.ptr v with hp | hp
        · exact absurd hp.1 hv
        · have := h.base hp.2.2.2.2.1
          have := hb.pos
          simp only [Vectors.moveTo, fixPointer]; rw [if_neg hv]; omega
  · rw [if_neg hn]
    exact .inr ⟨s, rfl, h, fun _ => rfl, by omega, rfl, fun _ => rfl, rfl, fun _ hv => hv⟩

theorem VInv.enlarge {n : Nat} {s : Vectors} (h : VInv n s) {b : Block} (hb : Block.Valid b) {v : Nat} (hv : v < n)
    (hs0 : s.size ≠ 0) : s.enlarge b v = .fatal ∨ ∃ s', s.enlarge b v = .ok s' ∧ VInv n s' ∧
      (∀ w, s'.contents w = s.contents w) ∧ s'.first v ≠ 0 ∧ s'.last v < s'.base + s'.size ∧
      s'.mem (s'.last v - s'.base) = invalidElement := by
  unfold Vectors.enlarge
  dsimp only
  have hnew : (if s.last v - s.first v ≠ 0 then 2 * (s.last v - s.first v) else 1) ≥ (s.last v - s.first v) + 1 := by
    split <;> omega
  generalize (if s.last v - s.first v ≠ 0 then 2 * (s.last v - s.first v) else 1) = new at hnew ⊢
  rcases h.reserve hb new hs0 with hr | ⟨t, hr, ht, hcon, hroom, hsz, hlen, hus, -⟩
  · left; rw [hr]
  rw [hr]
  dsimp only
  have hl := hlen v
  rw [← hl] at hnew ⊢
  clear hl hlen hus hr h
  have hp := ht.ptr v
  have hts : t.size ≠ 0 := by rw [hsz]; exact hs0
  have hbase := ht.base hts
  generalize hold : t.last v - t.first v = old at hnew ⊢
  rw [if_pos (by omega)]
  right
  refine ⟨_, rfl, ?_⟩
  have hsrc : old ≠ 0 → t.first v - t.base + old ≤ t.size ∧ 1 ≤ t.first v - t.base := by intro; omega
  generalize hS : t.first v - t.base = src at hsrc ⊢
  -- the new memory
  have hm : ∀ i, i < t.size → ¬ (src ≤ i ∧ i < src + old) →
      (if t.size + old ≤ i ∧ i < t.size + new then invalidElement
        else if old ≠ 0 ∧ src ≤ i ∧ i < src + old then invalidElement
        else if t.size ≤ i ∧ i < t.size + old then t.mem (src + (i - t.size)) else t.mem i) = t.mem i := by
    intro i h1 h2
    rw [if_neg (by omega), if_neg (by omega), if_neg (by omega)]
  have hm2 : ∀ i, i < old →
      (if t.size + old ≤ t.size + i ∧ t.size + i < t.size + new then invalidElement
        else if old ≠ 0 ∧ src ≤ t.size + i ∧ t.size + i < src + old then invalidElement
        else if t.size ≤ t.size + i ∧ t.size + i < t.size + old then t.mem (src + (t.size + i - t.size))
          else t.mem (t.size + i)) = t.mem (src + i) := by
    intro i h1
    have := hsrc (by omega)
    rw [if_neg (by omega), if_neg (by omega), if_pos (by omega), show t.size + i - t.size = i by omega]
  have hm3 : ∀ i, t.size + old ≤ i → i < t.size + new →
      (if t.size + old ≤ i ∧ i < t.size + new then invalidElement
        else if old ≠ 0 ∧ src ≤ i ∧ i < src + old then invalidElement
        else if t.size ≤ i ∧ i < t.size + old then t.mem (src + (i - t.size)) else t.mem i) = invalidElement := by
    intro i h1 h2
    rw [if_pos ⟨h1, h2⟩]
  have hm4 : ∀ i, old ≠ 0 → src ≤ i → i < src + old →
      (if t.size + old ≤ i ∧ i < t.size + new then invalidElement
        else if old ≠ 0 ∧ src ≤ i ∧ i < src + old then invalidElement
        else if t.size ≤ i ∧ i < t.size + old then t.mem (src + (i - t.size)) else t.mem i) = invalidElement := by
    intro i h0 h1 h2
    have := hsrc h0
    rw [if_neg (by omega), if_pos ⟨h0, h1, h2⟩]
  have hvv : t.first v < t.last v ∨ old = 0 := by omega
  have hdis : ∀ w, w ≠ v → t.first w < t.last w → ∀ i, t.first w ≤ t.base + i → t.base + i < t.last w →
      ¬ (src ≤ i ∧ i < src + old) ∧ i < t.size := by
    intro w hw h1 i h2 h3
    have h4 := ht.ptr w
    refine ⟨fun h5 => ?_, by omega⟩
    have := ht.disj v w (Ne.symm hw) (by omega) h1
    omega
  refine ⟨⟨ht.cap, hroom, fun h => by dsimp only at h; omega, fun _ => hbase, ?_, ?_, ?_, ?_, ?_⟩, ?_, ?_, ?_, ?_⟩
  · intro w
    by_cases hw : w = v
    · subst hw; right; dsimp only; rw [put_self, put_self]; omega
    · dsimp only; rw [put_ne hw, put_ne hw]; have := ht.ptr w; omega
  · intro a c hac h1 h2
    dsimp only at h1 h2 ⊢
    have key : ∀ w, w ≠ v → t.first w < t.last w → t.last w ≤ t.base + t.size := by
      intro w _ h; have := ht.ptr w; omega
    by_cases ha : a = v
    · subst ha
      rw [put_ne (Ne.symm hac), put_ne (Ne.symm hac)] at h2 ⊢
      rw [put_self, put_self]
      right; exact key c (Ne.symm hac) h2
    · by_cases hc : c = v
      · subst hc
        rw [put_ne hac, put_ne hac] at h1 ⊢
        rw [put_self, put_self]
        left; exact key a hac h1
      · rw [put_ne ha, put_ne ha] at h1 ⊢
        rw [put_ne hc, put_ne hc] at h2 ⊢
        exact ht.disj a c hac h1 h2
  · intro w i h1 h2
    dsimp only at h1 h2 ⊢
    by_cases hw : w = v
    · subst hw
      rw [put_self] at h1 h2
      obtain ⟨j, rfl⟩ : ∃ j, i = t.size + j := ⟨i - t.size, by omega⟩
      rw [hm2 j (by omega)]
      exact ht.valid w _ (by omega) (by omega)
    · rw [put_ne hw] at h1 h2
      obtain ⟨h3, h4⟩ := hdis w hw (by omega) i h1 h2
      rw [hm i h4 h3]
      exact ht.valid w i h1 h2
  · dsimp only
    rw [ht.count, show t.size + new - 1 = (t.size - 1) + (old + (new - old)) by omega, invalids_add,
      show 1 + (t.size - 1) = t.size by omega, invalids_add]
    rw [invalids_all (lo := t.size + old) (n := new - old) (fun i h1 h2 => hm3 i h1 (by omega))]
    rw [invalids_none (lo := t.size) (n := old) (fun i h1 h2 => by
      obtain ⟨j, rfl⟩ : ∃ j, i = t.size + j := ⟨i - t.size, by omega⟩
      rw [hm2 j (by omega)]
      exact ht.valid v _ (by omega) (by omega))]
    by_cases h0 : old = 0
    · rw [invalids_congr (mem' := t.mem) (lo := 1) (n := t.size - 1) (fun i h1 h2 => hm i (by omega) (by omega))]
      omega
    · have h5 := hsrc h0
      have := invalids_range (mem := t.mem) (mem' := fun i =>
        (if t.size + old ≤ i ∧ i < t.size + new then invalidElement
        else if old ≠ 0 ∧ src ≤ i ∧ i < src + old then invalidElement
        else if t.size ≤ i ∧ i < t.size + old then t.mem (src + (i - t.size)) else t.mem i))
        (lo := 1) (n := t.size - 1) (a := src) (k := old) (by omega) (by omega)
        (fun i h1 h2 h3 => hm i (by omega) h3)
      rw [invalids_none (mem := t.mem) (lo := src) (n := old) (fun i h1 h2 =>
        ht.valid v i (by omega) (by omega)),
        invalids_all (lo := src) (n := old) (fun i h1 h2 => hm4 i h0 h1 h2)] at this
      omega
  · intro _
    dsimp only
    have h6 := ht.exact hts
    have h7 : total { t with
        mem := fun i => if t.size + old ≤ i ∧ i < t.size + new then invalidElement
          else if old ≠ 0 ∧ src ≤ i ∧ i < src + old then invalidElement
          else if t.size ≤ i ∧ i < t.size + old then t.mem (src + (i - t.size)) else t.mem i
        usable := t.usable + old + (new - old)
        first := put t.first v (t.base + t.size)
        last := put t.last v (t.base + t.size + old)
        size := t.size + new } n = total t n := by
      unfold total
      congr 1
      refine List.map_congr_left fun w _ => ?_
      dsimp only
      by_cases hw : w = v
      · subst hw; rw [put_self, put_self]; omega
      · rw [put_ne hw, put_ne hw]
    rw [h7]; omega
  · intro w
    rw [← hcon w]
    refine contents_congr ?_ ?_
    · dsimp only
      by_cases hw : w = v
      · subst hw; rw [put_self, put_self]; omega
      · rw [put_ne hw, put_ne hw]
    · intro i hi
      dsimp only
      by_cases hw : w = v
      · subst hw
        rw [put_self, show t.base + t.size - t.base + i = t.size + i by omega, hm2 i (by omega), hS]
      · rw [put_ne hw]
        have h4 := ht.ptr w
        obtain ⟨h3, h4⟩ := hdis w hw (by omega) (t.first w - t.base + i) (by omega) (by omega)
        exact hm _ h4 h3
  · dsimp only; rw [put_self]; omega
  · dsimp only; rw [put_self]; omega
  · dsimp only
    rw [put_self]
    exact hm3 _ (by omega) (by omega)

/-- Appending an element to the contents. -/
theorem contents_snoc {s s' : Vectors} {v e : Nat} (h1 : s'.last v - s'.first v = s.last v - s.first v + 1)
    (h2 : ∀ i, i < s.last v - s.first v → s'.mem (s'.first v - s'.base + i) = s.mem (s.first v - s.base + i))
    (h3 : s'.mem (s'.first v - s'.base + (s.last v - s.first v)) = e) : s'.contents v = s.contents v ++ [e] := by
  unfold Vectors.contents
  rw [h1, List.range_succ, List.map_append]
  congr 1
  · exact List.map_congr_left fun i hi => h2 i (List.mem_range.1 hi)
  · simp [h3]

theorem total_put {s : Vectors} {n v : Nat} (hv : v < n) {f l : Nat} (s' : Vectors)
    (hf : s'.first = put s.first v f) (hl : s'.last = put s.last v l) :
    total s' n + (s.last v - s.first v) = total s n + (l - f) := by
  unfold total
  rw [hf, hl]
  have := sum_change (f := fun w => s.last w - s.first w) (g := fun w => put s.last v l w - put s.first v f w) (v := v)
    (fun w hw => by rw [put_ne hw, put_ne hw]) hv
  simp only [put_self] at this
  exact this

theorem VInv.storeUsable {n : Nat} {s : Vectors} (h : VInv n s) {v e : Nat} (hv : v < n) (he : e ≠ invalidElement)
    (h0 : s.first v ≠ 0) (hend : s.last v < s.base + s.size) (hinv : s.mem (s.last v - s.base) = invalidElement) :
    ∃ s', s.storeUsable v e = .ok s' ∧ VInv n s' ∧
      (∀ w, s'.contents w = if w = v then s.contents v ++ [e] else s.contents w) := by
  have hp : v < n ∧ s.base + 1 ≤ s.first v ∧ s.first v ≤ s.last v ∧ s.last v ≤ s.base + s.size ∧ s.size ≠ 0 ∧
      s.first v < s.base + s.size := by
    rcases h.ptr v with hp | hp
    · exact absurd hp.1 h0
    · exact hp
  have hpos := invalids_put (mem := s.mem) (lo := 1) (n := s.size - 1) (i := s.last v - s.base) (e := e) (by omega)
    (by omega) hinv he
  have hu := h.count
  unfold Vectors.storeUsable
  dsimp only
  rw [if_pos ⟨by omega, by omega⟩]
  have hoff : ∀ w i, s.first w ≤ s.base + i → s.base + i < s.last w → i ≠ s.last v - s.base := by
    intro w i h1 h2 he
    exact h.valid w i h1 h2 (by rw [he]; exact hinv)
  refine ⟨_, rfl, ⟨h.cap, h.fits, h.fresh, h.base, ?_, ?_, ?_, ?_, ?_⟩, ?_⟩
  · intro w
    dsimp only
    by_cases hw : w = v
    · subst hw; rw [put_self]; right; omega
    · rw [put_ne hw]; exact h.ptr w
  · intro a c hac h1 h2
    dsimp only at h1 h2 ⊢
    have key : ∀ w, w ≠ v → s.first w < s.last w → s.last v + 1 ≤ s.first w ∨ s.last w ≤ s.first v := by
      intro w hw h3
      have h4 := h.ptr w
      have h5 := hoff w (s.last v - s.base)
      by_cases h6 : s.first v < s.last v
      · have := h.disj v w (Ne.symm hw) h6 h3; omega
      · omega
    by_cases ha : a = v
    · subst ha
      rw [put_ne (Ne.symm hac)] at h2 ⊢
      rw [put_self]
      exact key c (Ne.symm hac) h2
    · by_cases hc : c = v
      · subst hc
        rw [put_ne hac] at h1 ⊢
        rw [put_self]
        exact (key a hac h1).symm
      · rw [put_ne ha] at h1 ⊢
        rw [put_ne hc] at h2 ⊢
        exact h.disj a c hac h1 h2
  · intro w i h1 h2
    dsimp only at h1 h2 ⊢
    by_cases hi : i = s.last v - s.base
    · rw [hi, put_self]; exact he
    · rw [put_ne hi]
      by_cases hw : w = v
      · subst hw; rw [put_self] at h2; exact h.valid w i h1 (by omega)
      · rw [put_ne hw] at h2; exact h.valid w i h1 h2
  · dsimp only; omega
  · intro hs
    have h6 := h.exact hs
    have h7 := total_put hv (s := s) (f := s.first v) (l := s.last v + 1)
      { s with mem := put s.mem (s.last v - s.base) e, usable := s.usable - 1, last := put s.last v (s.last v + 1) }
      (by funext w; by_cases hw : w = v
          · rw [hw, put_self]
          · rw [put_ne hw]) rfl
    dsimp only at h7 ⊢
    omega
  · intro w
    by_cases hw : w = v
    · subst hw
      rw [if_pos rfl]
      refine contents_snoc ?_ ?_ ?_
      · dsimp only; rw [put_self]; omega
      · intro i hi; dsimp only; rw [put_ne (by omega)]
      · dsimp only
        rw [show s.first w - s.base + (s.last w - s.first w) = s.last w - s.base by omega, put_self]
    · rw [if_neg hw]
      refine contents_congr ?_ ?_
      · dsimp only; rw [put_ne hw]
      · intro i hi
        dsimp only
        have h4 := h.ptr w
        rw [put_ne (hoff w _ (by omega) (by omega))]

/-- Appending at the end of the stack. -/
theorem VInv.append {n : Nat} {s : Vectors} (h : VInv n s) {v e : Nat} (hv : v < n) (he : e ≠ invalidElement)
    (hs0 : s.size ≠ 0) (hroom : s.size < s.capacity) {f : Nat}
    (hf : (f = s.base + s.size ∧ s.last v = s.first v) ∨ (f = s.first v ∧ s.last v = s.base + s.size ∧ s.first v ≠ 0))
    (s' : Vectors) (hs' : s' = { s with
      mem := put s.mem s.size e
      first := put s.first v f
      last := put s.last v (s.base + s.size + 1)
      size := s.size + 1 }) :
    VInv n s' ∧ (∀ w, s'.contents w = if w = v then s.contents v ++ [e] else s.contents w) := by
  subst hs'
  have hb := h.base hs0
  have hp := h.ptr v
  have hlt : ∀ w i, s.first w ≤ s.base + i → s.base + i < s.last w → i < s.size := by
    intro w i h1 h2; have := h.ptr w; omega
  refine ⟨⟨h.cap, hroom, fun h => by dsimp only at h; omega, fun _ => hb, ?_, ?_, ?_, ?_, ?_⟩, ?_⟩
  · intro w
    dsimp only
    by_cases hw : w = v
    · subst hw; rw [put_self, put_self]; right; omega
    · rw [put_ne hw, put_ne hw]; have := h.ptr w; omega
  · intro a c hac h1 h2
    dsimp only at h1 h2 ⊢
    have key : ∀ w, w ≠ v → s.first w < s.last w → s.last w ≤ f := by
      intro w hw h3
      have h4 := h.ptr w
      rcases hf with ⟨rfl, -⟩ | ⟨rfl, h5, h6⟩
      · omega
      · have := h.disj v w (Ne.symm hw)
        omega
    by_cases ha : a = v
    · subst ha
      rw [put_ne (Ne.symm hac), put_ne (Ne.symm hac)] at h2 ⊢
      rw [put_self]
      right
      rw [put_self]
      exact key c (Ne.symm hac) h2
    · by_cases hc : c = v
      · subst hc
        rw [put_ne hac, put_ne hac] at h1 ⊢
        rw [put_self, put_self]
        exact .inl (key a hac h1)
      · rw [put_ne ha, put_ne ha] at h1 ⊢
        rw [put_ne hc, put_ne hc] at h2 ⊢
        exact h.disj a c hac h1 h2
  · intro w i h1 h2
    dsimp only at h1 h2 ⊢
    by_cases hi : i = s.size
    · rw [hi, put_self]; exact he
    · rw [put_ne hi]
      by_cases hw : w = v
      · subst hw
        rw [put_self] at h1 h2
        exact h.valid w i (by omega) (by omega)
      · rw [put_ne hw] at h1 h2; exact h.valid w i h1 h2
  · dsimp only
    rw [h.count, show s.size + 1 - 1 = (s.size - 1) + 1 by omega, invalids_add,
      show 1 + (s.size - 1) = s.size by omega,
      invalids_none (lo := s.size) (n := 1) (fun i h1 h2 => by rw [show i = s.size by omega, put_self]; exact he)]
    exact invalids_congr fun i h1 h2 => (put_ne (by omega)).symm
  · intro _
    have h6 := h.exact hs0
    have h7 := total_put hv (s := s) (f := f) (l := s.base + s.size + 1)
      { s with
        mem := put s.mem s.size e
        first := put s.first v f
        last := put s.last v (s.base + s.size + 1)
        size := s.size + 1 } rfl rfl
    dsimp only at h7 ⊢
    omega
  · intro w
    by_cases hw : w = v
    · subst hw
      rw [if_pos rfl]
      refine contents_snoc ?_ ?_ ?_
      · dsimp only; rw [put_self, put_self]; omega
      · intro i hi
        dsimp only
        rw [put_self, show f = s.first w by omega, put_ne (by omega)]
      · dsimp only
        rw [put_self, show f - s.base + (s.last w - s.first w) = s.size by omega, put_self]
    · rw [if_neg hw]
      refine contents_congr ?_ ?_
      · dsimp only; rw [put_ne hw, put_ne hw]
      · intro i hi
        dsimp only
        have h4 := h.ptr w
        rw [put_ne hw, put_ne (by omega)]

theorem VInv.pushZero {n : Nat} {s : Vectors} (h : VInv n s) (h0 : s.size = 0) {b : Block} (hb : Block.Valid b) :
    ∃ s', s.pushZero b = .ok s' ∧ VInv n s' ∧ (∀ w, s'.contents w = s.contents w) ∧ s'.size ≠ 0 ∧
      s'.first = s.first ∧ s'.last = s.last := by
  have hc := h.fresh h0
  have hnull : ∀ v, s.first v = 0 ∧ s.last v = 0 := by
    intro v; have := h.ptr v; omega
  unfold Vectors.pushZero
  dsimp only
  rw [if_pos (show s.size = s.capacity by omega), if_neg (show ¬ s.capacity ≠ 0 by omega)]
  dsimp only
  rw [if_pos (show s.size < 2 by omega)]
  refine ⟨_, rfl, ⟨.inr ⟨1, by omega, by omega, rfl⟩, by dsimp only; omega, fun h => by dsimp only at h; omega,
    fun _ => ⟨hb.pos, hb.space⟩, fun v => .inl (hnull v), ?_, ?_, ?_, ?_⟩, ?_, by dsimp only; omega, rfl, rfl⟩
  · intro v w _ h1; have := hnull v; dsimp only at h1; omega
  · intro v i h1 h2; have := hnull v; dsimp only at h2; omega
  · have := h.count
    dsimp only
    rw [this, h0]; rfl
  · intro _
    have h1 := h.count
    rw [h0] at h1
    have h2 : total s n = 0 := by
      unfold total
      rw [List.sum_eq_zero_iff_forall_eq_nat]
      intro x hx
      obtain ⟨v, -, rfl⟩ := List.mem_map.1 hx
      have := hnull v; omega
    dsimp only
    unfold total at h2 ⊢
    dsimp only
    rw [h2, h1, h0]; rfl
  · intro w
    have := hnull w
    refine contents_congr rfl ?_
    intro i hi; omega

theorem VInv.push {n : Nat} {s : Vectors} (h : VInv n s) {b0 b : Block} (hb0 : Block.Valid b0) (hb : Block.Valid b)
    {v e : Nat} (hv : v < n) (he : e ≠ invalidElement) : s.push b0 b v e = .fatal ∨ ∃ s', s.push b0 b v e = .ok s' ∧
      VInv n s' ∧ (∀ w, s'.contents w = if w = v then s.contents v ++ [e] else s.contents w) := by
  have grow : ∀ t : Vectors, VInv n t → t.size ≠ 0 → (∀ w, t.contents w = s.contents w) →
      (match t.enlarge b v with
        | .fatal => VOut.fatal
        | .undefined => .undefined
        | .ok s => s.storeUsable v e) = .fatal ∨ ∃ s', (match t.enlarge b v with
        | .fatal => VOut.fatal
        | .undefined => .undefined
        | .ok s => s.storeUsable v e) = .ok s' ∧
      VInv n s' ∧ (∀ w, s'.contents w = if w = v then s.contents v ++ [e] else s.contents w) := by
    intro t ht ht0 hcon
    rcases ht.enlarge hb hv ht0 with hf | ⟨u, hu, iu, c1, c2, c3, c4⟩
    · left; rw [hf]
    · right
      rw [hu]
      dsimp only
      obtain ⟨s', e1, e2, e3⟩ := iu.storeUsable hv he c2 c3 c4
      refine ⟨s', e1, e2, fun w => ?_⟩
      rw [e3, c1, c1, hcon, hcon]
  have store : ∀ t : Vectors, VInv n t → t.size ≠ 0 → (∀ w, t.contents w = s.contents w) → t.first v = 0 →
      (if t.size = t.capacity then
        match t.enlarge b v with
        | .fatal => VOut.fatal
        | .undefined => .undefined
        | .ok s => s.storeUsable v e
      else if t.size < t.capacity then
        .ok { t with
          mem := put t.mem t.size e
          first := put t.first v (t.base + t.size)
          last := put t.last v (t.base + t.size + 1)
          size := t.size + 1 }
      else .undefined) = .fatal ∨ ∃ s', (if t.size = t.capacity then
        match t.enlarge b v with
        | .fatal => VOut.fatal
        | .undefined => .undefined
        | .ok s => s.storeUsable v e
      else if t.size < t.capacity then
        .ok { t with
          mem := put t.mem t.size e
          first := put t.first v (t.base + t.size)
          last := put t.last v (t.base + t.size + 1)
          size := t.size + 1 }
      else .undefined) = .ok s' ∧
      VInv n s' ∧ (∀ w, s'.contents w = if w = v then s.contents v ++ [e] else s.contents w) := by
    intro t ht ht0 hcon hnull
    by_cases hfull : t.size = t.capacity
    · rw [if_pos hfull]; exact grow t ht ht0 hcon
    · have hfit := ht.fits
      rw [if_neg hfull, if_pos (by omega)]
      right
      have hp := ht.ptr v
      obtain ⟨i1, i2⟩ := ht.append hv he ht0 (by omega) (f := t.base + t.size) (.inl ⟨rfl, by omega⟩) _ rfl
      refine ⟨_, rfl, i1, fun w => ?_⟩
      rw [i2, hcon, hcon]
  unfold Vectors.push
  by_cases hnull : s.first v = 0
  · rw [if_pos hnull]
    by_cases h0 : s.size = 0
    · rw [if_pos h0]
      obtain ⟨t, e1, e2, e3, e4, e5, e6⟩ := h.pushZero h0 hb0
      rw [e1]
      exact store t e2 e4 e3 (by rw [e5]; exact hnull)
    · rw [if_neg h0]
      exact store s h h0 (fun _ => rfl) hnull
  · rw [if_neg hnull]
    have hp : v < n ∧ s.base + 1 ≤ s.first v ∧ s.first v ≤ s.last v ∧ s.last v ≤ s.base + s.size ∧ s.size ≠ 0 ∧
        s.first v < s.base + s.size := by
      rcases h.ptr v with hp | hp
      · exact absurd hp.1 hnull
      · exact hp
    have hs0 := hp.2.2.2.2.1
    by_cases hend : s.last v = s.base + s.size
    · rw [if_pos hend]
      by_cases hfull : s.size = s.capacity
      · rw [if_pos hfull]; exact grow s h hs0 (fun _ => rfl)
      · have hfit := h.fits
        rw [if_neg hfull, if_pos (by omega)]
        right
        obtain ⟨i1, i2⟩ := h.append hv he hs0 (by omega) (f := s.first v) (.inr ⟨rfl, hend, hnull⟩)
          { s with mem := put s.mem s.size e, last := put s.last v (s.last v + 1), size := s.size + 1 }
          (by
            have : put s.first v (s.first v) = s.first := by
              funext w; by_cases hw : w = v
              · rw [hw, put_self]
              · rw [put_ne hw]
            rw [this, hend])
        exact ⟨_, rfl, i1, i2⟩
    · rw [if_neg hend, if_pos (by omega)]
      by_cases hm : s.mem (s.last v - s.base) ≠ invalidElement
      · rw [if_pos hm]; exact grow s h hs0 (fun _ => rfl)
      · rw [if_neg hm]
        right
        exact h.storeUsable hv he hnull (by omega) (Decidable.not_not.1 hm)

/-! ## Shrinking and removing -/

theorem VInv.resize {n : Nat} {s : Vectors} (h : VInv n s) {v k : Nat} (hv : v < n) (hk : k ≤ (s.contents v).length) :
    ∃ s', s.resize v k = .ok s' ∧ VInv n s' ∧
      (∀ w, s'.contents w = if w = v then (s.contents v).take k else s.contents w) := by
  rw [contents_length] at hk
  unfold Vectors.resize
  dsimp only
  by_cases he : k = s.last v - s.first v
  · rw [if_pos he]
    refine ⟨s, rfl, h, fun w => ?_⟩
    by_cases hw : w = v
    · rw [if_pos hw, hw, List.take_of_length_le (by rw [contents_length]; omega)]
    · rw [if_neg hw]
  rw [if_neg he]
  have hp := h.ptr v
  rw [if_pos (by omega)]
  generalize hS : s.first v - s.base + k = start
  generalize hD : s.last v - s.first v - k = d
  have hdis : ∀ w, w ≠ v → ∀ i, s.first w ≤ s.base + i → s.base + i < s.last w → ¬ (start ≤ i ∧ i < start + d) := by
    intro w hw i h1 h2 h3
    have := h.disj v w (Ne.symm hw) (by omega) (by omega)
    omega
  refine ⟨_, rfl, ⟨h.cap, h.fits, h.fresh, h.base, ?_, ?_, ?_, ?_, ?_⟩, ?_⟩
  · intro w
    dsimp only
    by_cases hw : w = v
    · subst hw; rw [put_self]; right; omega
    · rw [put_ne hw]; exact h.ptr w
  · intro a c hac h1 h2
    dsimp only at h1 h2 ⊢
    by_cases ha : a = v
    · subst ha
      rw [put_ne (Ne.symm hac)] at h2 ⊢
      rw [put_self] at h1 ⊢
      have := h.disj a c hac (by omega) h2
      omega
    · by_cases hc : c = v
      · subst hc
        rw [put_ne hac] at h1 ⊢
        rw [put_self] at h2 ⊢
        have := h.disj a c hac h1 (by omega)
        omega
      · rw [put_ne ha] at h1 ⊢
        rw [put_ne hc] at h2 ⊢
        exact h.disj a c hac h1 h2
  · intro w i h1 h2
    dsimp only at h1 h2 ⊢
    by_cases hw : w = v
    · subst hw
      rw [put_self] at h2
      rw [if_neg (by omega)]
      exact h.valid w i h1 (by omega)
    · rw [put_ne hw] at h2
      rw [if_neg (hdis w hw i h1 h2)]
      exact h.valid w i h1 h2
  · dsimp only
    have := invalids_range (mem := s.mem)
      (mem' := fun i => if start ≤ i ∧ i < start + d then invalidElement else s.mem i) (lo := 1) (n := s.size - 1)
      (a := start) (k := d) (by omega) (by omega) (fun i _ _ h3 => if_neg h3)
    rw [invalids_none (mem := s.mem) (lo := start) (n := d) (fun i h1 h2 => h.valid v i (by omega) (by omega)),
      invalids_all (lo := start) (n := d) (fun i h1 h2 => if_pos ⟨h1, h2⟩)] at this
    have := h.count
    omega
  · intro hs
    have h6 := h.exact hs
    have h7 := total_put hv (s := s) (f := s.first v) (l := s.first v + k)
      { s with
        last := put s.last v (s.first v + k)
        usable := s.usable + d
        mem := fun i => if start ≤ i ∧ i < start + d then invalidElement else s.mem i }
      (by funext w; by_cases hw : w = v
          · rw [hw, put_self]
          · rw [put_ne hw]) rfl
    dsimp only at h7 ⊢
    omega
  · intro w
    by_cases hw : w = v
    · subst hw
      rw [if_pos rfl]
      unfold Vectors.contents
      dsimp only
      rw [put_self, ← List.map_take, List.take_range, show min k (s.last w - s.first w) = s.first w + k - s.first w by
        omega]
      refine List.map_congr_left fun i hi => ?_
      rw [List.mem_range] at hi
      rw [if_neg (by omega)]
    · rw [if_neg hw]
      refine contents_congr ?_ ?_
      · dsimp only; rw [put_ne hw]
      · intro i hi
        dsimp only
        have h4 := h.ptr w
        rw [if_neg (hdis w hw _ (by omega) (by omega))]

theorem findOffset_spec {mem : Nat → Nat} {e : Nat} : ∀ {n p : Nat}, (∃ i, i < n ∧ mem (p + i) = e) →
    ∃ i, findOffset mem e n p = some (p + i) ∧ i < n ∧ mem (p + i) = e ∧ ∀ j, j < i → mem (p + j) ≠ e
  | 0, p, ⟨i, h, _⟩ => by omega
  | n + 1, p, ⟨i, h1, h2⟩ => by
    unfold findOffset
    by_cases he : mem p = e
    · rw [if_neg (by simpa using he)]
      exact ⟨0, rfl, by omega, he, fun j hj => by omega⟩
    · rw [if_pos he]
      have hi : i ≠ 0 := by rintro rfl; exact he h2
      obtain ⟨k, g1, g2, g3, g4⟩ := findOffset_spec (mem := mem) (e := e) (n := n) (p := p + 1)
        ⟨i - 1, by omega, by rw [show p + 1 + (i - 1) = p + i by omega]; exact h2⟩
      refine ⟨k + 1, by rw [g1]; congr 1; omega, by omega, by rw [show p + (k + 1) = p + 1 + k by omega]; exact g3, ?_⟩
      intro j hj
      by_cases j0 : j = 0
      · subst j0; exact he
      · rw [show p + j = p + 1 + (j - 1) by omega]; exact g4 _ (by omega)

theorem shiftDown_spec : ∀ {n p : Nat} {mem : Nat → Nat}, 0 < p → ∀ i,
    shiftDown mem n p i = if p ≤ i + 1 ∧ i + 1 < p + n then mem (i + 1) else mem i
  | 0, p, mem, _, i => by rw [if_neg (by omega)]; rfl
  | n + 1, p, mem, hp, i => by
    unfold shiftDown
    rw [shiftDown_spec (by omega)]
    by_cases h1 : p + 1 ≤ i + 1 ∧ i + 1 < p + 1 + n
    · rw [if_pos h1, if_pos (by omega), put_ne (by omega)]
    · rw [if_neg h1]
      by_cases h2 : i = p - 1
      · rw [h2, put_self, if_pos (by omega), show p - 1 + 1 = p by omega]
      · rw [put_ne h2, if_neg (by omega)]

theorem erase_map_range {f : Nat → Nat} {e : Nat} : ∀ {n i : Nat}, i < n → f i = e → (∀ j, j < i → f j ≠ e) →
    ((List.range n).map f).erase e = (List.range (n - 1)).map fun j => if j < i then f j else f (j + 1)
  | n + 1, i, hi, h1, h2 => by
    rw [List.range_succ_eq_map, List.map_cons]
    cases i with
    | zero =>
      rw [h1, List.erase_cons_head, List.map_map]
      refine List.map_congr_left fun j _ => ?_
      rw [if_neg (by omega)]; rfl
    | succ i =>
      rw [List.erase_cons_tail (by simpa using h2 0 (by omega)), List.map_map]
      have := erase_map_range (f := fun j => f (j + 1)) (n := n) (i := i) (by omega) h1
        (fun j hj => h2 (j + 1) (by omega))
      rw [show (f ∘ Nat.succ) = fun j => f (j + 1) from rfl, this, show n + 1 - 1 = (n - 1) + 1 by omega,
        List.range_succ_eq_map, List.map_cons, if_pos (by omega), List.map_map]
      congr 1
      refine List.map_congr_left fun j _ => ?_
      simp only [Function.comp, Nat.succ_eq_add_one, Nat.add_lt_add_iff_right]

theorem VInv.remove {n : Nat} {s : Vectors} (h : VInv n s) {v e : Nat} (hv : v < n) (he : e ∈ s.contents v) :
    ∃ s', s.remove v e = .ok s' ∧ VInv n s' ∧
      (∀ w, s'.contents w = if w = v then (s.contents v).erase e else s.contents w) := by
  obtain ⟨i0, hi0, hie⟩ := List.mem_map.1 he
  rw [List.mem_range] at hi0
  have hp := h.ptr v
  unfold Vectors.remove
  dsimp only
  rw [if_pos (by omega)]
  obtain ⟨i, e1, e2, e3, e4⟩ := findOffset_spec (mem := s.mem) (e := e) ⟨i0, hi0, hie⟩
  rw [e1]
  dsimp only
  have hcon : (s.contents v).erase e = (List.range (s.last v - s.first v - 1)).map fun j =>
      if j < i then s.mem (s.first v - s.base + j) else s.mem (s.first v - s.base + (j + 1)) := by
    unfold Vectors.contents
    exact erase_map_range e2 e3 e4
  generalize hS : s.first v - s.base = start at *
  generalize hC : s.last v - s.first v = count at *
  have hm : ∀ j, put (shiftDown s.mem (start + count - (start + i + 1)) (start + i + 1)) (start + count - 1)
      invalidElement j = if j = start + count - 1 then invalidElement
        else if start + i ≤ j ∧ j + 1 < start + count then s.mem (j + 1) else s.mem j := by
    intro j
    by_cases h1 : j = start + count - 1
    · rw [if_pos h1, h1, put_self]
    · rw [if_neg h1, put_ne h1, shiftDown_spec (by omega)]
      by_cases h2 : start + i ≤ j ∧ j + 1 < start + count
      · rw [if_pos h2, if_pos (by omega)]
      · rw [if_neg h2, if_neg (by omega)]
  generalize put (shiftDown s.mem (start + count - (start + i + 1)) (start + i + 1)) (start + count - 1)
      invalidElement = mem' at hm ⊢
  have hout : ∀ j, ¬ (start ≤ j ∧ j < start + count) → mem' j = s.mem j := by
    intro j hj; rw [hm, if_neg (by omega), if_neg (by omega)]
  have hin : ∀ j, start ≤ j → j < start + count - 1 → mem' j ≠ invalidElement := by
    intro j h1 h2
    rw [hm, if_neg (by omega)]
    split
    · exact h.valid v _ (by omega) (by omega)
    · exact h.valid v _ (by omega) (by omega)
  have hdis : ∀ w, w ≠ v → ∀ i, s.first w ≤ s.base + i → s.base + i < s.last w → ¬ (start ≤ i ∧ i < start + count) := by
    intro w hw i h1 h2 h3
    have := h.disj v w (Ne.symm hw) (by omega) (by omega)
    omega
  refine ⟨_, rfl, ⟨h.cap, h.fits, h.fresh, h.base, ?_, ?_, ?_, ?_, ?_⟩, ?_⟩
  · intro w
    dsimp only
    by_cases hw : w = v
    · subst hw; rw [put_self]; right; omega
    · rw [put_ne hw]; exact h.ptr w
  · intro a c hac h1 h2
    dsimp only at h1 h2 ⊢
    by_cases ha : a = v
    · subst ha
      rw [put_ne (Ne.symm hac)] at h2 ⊢
      rw [put_self] at h1 ⊢
      have := h.disj a c hac (by omega) h2
      omega
    · by_cases hc : c = v
      · subst hc
        rw [put_ne hac] at h1 ⊢
        rw [put_self] at h2 ⊢
        have := h.disj a c hac h1 (by omega)
        omega
      · rw [put_ne ha] at h1 ⊢
        rw [put_ne hc] at h2 ⊢
        exact h.disj a c hac h1 h2
  · intro w i h1 h2
    dsimp only at h1 h2 ⊢
    by_cases hw : w = v
    · subst hw
      rw [put_self] at h2
      exact hin i (by omega) (by omega)
    · rw [put_ne hw] at h2
      rw [hout i (hdis w hw i h1 h2)]
      exact h.valid w i h1 h2
  · dsimp only
    have := invalids_range (mem := s.mem) (mem' := mem') (lo := 1) (n := s.size - 1)
      (a := start) (k := count) (by omega) (by omega) (fun i _ _ h3 => hout i h3)
    rw [invalids_none (mem := s.mem) (lo := start) (n := count) (fun i h1 h2 => h.valid v i (by omega) (by omega))] at this
    have h8 : invalids mem' start count = 1 := by
      rw [show count = (count - 1) + 1 by omega, invalids_add,
        invalids_none (fun i h1 h2 => hin i h1 (by omega)),
        invalids_all (fun i h1 h2 => by rw [hm, if_pos (by omega)])]
    have := h.count
    omega
  · intro hs
    have h6 := h.exact hs
    have h7 := total_put hv (s := s) (f := s.first v) (l := s.last v - 1)
      { s with mem := mem', last := put s.last v (s.last v - 1), usable := s.usable + 1 }
      (by funext w; by_cases hw : w = v
          · rw [hw, put_self]
          · rw [put_ne hw]) rfl
    dsimp only at h7 ⊢
    omega
  · intro w
    by_cases hw : w = v
    · subst hw
      rw [if_pos rfl, hcon]
      unfold Vectors.contents
      dsimp only
      rw [put_self, show s.last w - 1 - s.first w = count - 1 by omega, hS]
      refine List.map_congr_left fun j hj => ?_
      rw [List.mem_range] at hj
      rw [hm, if_neg (by omega)]
      by_cases h1 : j < i
      · rw [if_pos h1, if_neg (by omega)]
      · rw [if_neg h1, if_pos (by omega)]; rfl
    · rw [if_neg hw]
      refine contents_congr ?_ ?_
      · dsimp only; rw [put_ne hw]
      · intro i hi
        dsimp only
        have h4 := h.ptr w
        exact hout _ (hdis w hw _ (by omega) (by omega))

/-! ## Defragmentation -/

theorem defragLoop_spec {base size : Nat} : ∀ {js : List Nat} {mem first last : Nat → Nat} {p : Nat}, js.Nodup →
    (∀ j ∈ js, first j < last j) → js.Pairwise (fun a b => last a ≤ first b) → (∀ j ∈ js, p ≤ first j) → base + 1 ≤ p →
    (∀ j ∈ js, last j ≤ base + size) → p ≤ base + size →
    ∃ mem' first' last' p', defragLoop base size js mem first last p = some (mem', first', last', p') ∧
      (∀ w, w ∉ js → first' w = first w ∧ last' w = last w) ∧
      (∀ i, base + i < p → mem' i = mem i) ∧
      (∀ j ∈ js, p ≤ first' j ∧ last' j ≤ p' ∧ last' j + first j = last j + first' j ∧
        ∀ i, i < last j - first j → mem' (first' j - base + i) = mem (first j - base + i)) ∧
      js.Pairwise (fun a b => last' a ≤ first' b) ∧
      p' = p + (js.map fun j => last j - first j).sum ∧ p' ≤ base + size ∧
      (∀ i, p ≤ base + i → base + i < p' → ∃ j ∈ js, first' j ≤ base + i ∧ base + i < last' j)
  | [], mem, first, last, p, _, _, _, _, _, _, hp => by
    refine ⟨mem, first, last, p, rfl, fun _ _ => ⟨rfl, rfl⟩, fun _ _ => rfl, ?_, List.Pairwise.nil, rfl, hp, ?_⟩
    · intro j hj; simp at hj
    · intro i h1 h2; omega
  | j :: js, mem, first, last, p, hn, hne, hord, hle, hb, hsz, hp => by
    have hj := hne j (by simp)
    have hlj := hle j (by simp)
    have hsj := hsz j (by simp)
    rw [List.nodup_cons] at hn
    rw [List.pairwise_cons] at hord
    have hnj : ∀ w ∈ js, w ≠ j := fun w hw h => hn.1 (h ▸ hw)
    unfold defragLoop
    dsimp only
    rw [if_neg (by omega), if_pos (by omega)]
    obtain ⟨mem', first', last', p', e, h1, h2, h3, h4, h5, h6, h7⟩ := defragLoop_spec (base := base) (size := size)
      (js := js)
      (mem := fun i => if p - base ≤ i ∧ i < p - base + (last j - first j) then mem (first j - base + (i - (p - base)))
        else mem i)
      (first := put first j p) (last := put last j (p + (last j - first j))) (p := p + (last j - first j)) hn.2
      (fun w hw => by rw [put_ne (hnj w hw), put_ne (hnj w hw)]; exact hne w (by simp [hw]))
      (hord.2.imp_of_mem fun {a b} ha hb h => by rw [put_ne (hnj a ha), put_ne (hnj b hb)]; exact h)
      (fun w hw => by rw [put_ne (hnj w hw)]; have := hord.1 w hw; omega) (by omega)
      (fun w hw => by rw [put_ne (hnj w hw)]; exact hsz w (by simp [hw])) (by omega)
    have hfj := h1 j hn.1
    rw [put_self, put_self] at hfj
    refine ⟨mem', first', last', p', e, ?_, ?_, ?_, ?_, ?_, h6, ?_⟩
    · intro w hw
      rw [List.mem_cons, not_or] at hw
      have := h1 w hw.2
      rwa [put_ne hw.1, put_ne hw.1] at this
    · intro i hi
      rw [h2 i (by omega), if_neg (by omega)]
    · intro w hw
      rcases List.mem_cons.1 hw with rfl | hw
      · refine ⟨by omega, ?_, by omega, ?_⟩
        · rw [hfj.2, h5]; omega
        · intro i hi
          rw [hfj.1, h2 _ (by omega), if_pos (by omega)]
          congr 1; omega
      · obtain ⟨g1, g2, g3, g4⟩ := h3 w hw
        rw [put_ne (hnj w hw), put_ne (hnj w hw)] at g3
        refine ⟨by omega, g2, g3, ?_⟩
        intro i hi
        rw [put_ne (hnj w hw), put_ne (hnj w hw)] at g4
        have := hord.1 w hw
        rw [g4 i hi, if_neg (by omega)]
    · rw [List.pairwise_cons]
      refine ⟨fun w hw => ?_, h4⟩
      have := (h3 w hw).1
      omega
    · rw [h5, List.map_cons, List.sum_cons]
      have : (js.map fun w => put last j (p + (last j - first j)) w - put first j p w) =
          js.map fun w => last w - first w :=
        List.map_congr_left fun w hw => by rw [put_ne (hnj w hw), put_ne (hnj w hw)]
      rw [this]; omega
    · intro i g1 g2
      by_cases hi : base + i < p + (last j - first j)
      · exact ⟨j, by simp, by omega, by omega⟩
      · obtain ⟨w, hw, hh⟩ := h7 i (by omega) g2
        exact ⟨w, by simp [hw], hh⟩

theorem sum_filter_pos {f : Nat → Nat} : ∀ l : List Nat, ((l.filter fun v => f v ≠ 0).map f).sum = (l.map f).sum
  | [] => rfl
  | v :: l => by
    have := sum_filter_pos (f := f) l
    by_cases hv : f v = 0
    · rw [List.filter_cons_of_neg (by simpa using hv), List.map_cons, List.sum_cons, this]; omega
    · rw [List.filter_cons_of_pos (by simpa using hv), List.map_cons, List.map_cons, List.sum_cons, List.sum_cons, this]

theorem sum_perm {f : Nat → Nat} {l l' : List Nat} (h : l.Perm l') : (l.map f).sum = (l'.map f).sum := by
  induction h with
  | nil => rfl
  | cons x _ ih => simp only [List.map_cons, List.sum_cons]; omega
  | swap x y l => simp only [List.map_cons, List.sum_cons]; omega
  | trans _ _ i1 i2 => omega

theorem shrunkenCapacity_spec {size : Nat} (h : size ≠ 0) (hs : size ≤ 2 ^ 48) :
    CapOk (shrunkenCapacity size) ∧ size ≤ shrunkenCapacity size := by
  have hlt : size < 2 ^ 64 := Nat.lt_of_le_of_lt hs (by decide)
  have h1 := (Verif.Props.C33_log2_ceiling size h hlt (log2Ceiling size)).2 (Nat.le_refl _)
  have h2 := (Verif.Props.C33_log2_ceiling size h hlt 48).1 hs
  unfold shrunkenCapacity
  rw [if_pos h, Nat.one_shiftLeft]
  generalize log2Ceiling size = k at h1 h2
  cases k with
  | zero =>
    rw [show alignBytes 3 (2 ^ 0 * 4) / 4 = 2 from rfl]
    exact ⟨.inr ⟨1, by omega, by omega, rfl⟩, by omega⟩
  | succ k =>
    have : alignBytes 3 (2 ^ (k + 1) * 4) = 2 ^ (k + 1) * 4 := by
      unfold alignBytes
      rw [if_pos (by omega)]
    rw [this, Nat.mul_div_cancel _ (by omega)]
    exact ⟨.inr ⟨k + 1, by omega, h2, rfl⟩, h1⟩

theorem VInv.defrag {n : Nat} {s : Vectors} (h : VInv n s) {b : Block} (hb : Block.Valid b) :
    ∃ s', s.defrag b n = .ok s' ∧ VInv n s' ∧ (∀ w, s'.contents w = s.contents w) := by
  unfold Vectors.defrag
  by_cases hsz : s.size < 2
  · rw [if_pos hsz]; exact ⟨s, rfl, h, fun _ => rfl⟩
  rw [if_neg hsz]
  have hfit := h.fits
  have hcap := capOk_le h.cap
  have hbase := h.base (by omega)
  generalize hF : (fun v => if v < n ∧ s.last v = s.first v then 0 else s.first v) = first
  generalize hL : (fun v => if v < n ∧ s.last v = s.first v then 0 else s.last v) = last
  generalize hU : ((List.range n).filter fun v => s.last v ≠ s.first v) = unsorted
  have hfv : ∀ v, (s.first v = s.last v ∧ first v = 0 ∧ last v = 0) ∨
      (s.first v < s.last v ∧ first v = s.first v ∧ last v = s.last v ∧ v < n ∧ s.base + 1 ≤ s.first v ∧
        s.last v ≤ s.base + s.size) := by
    intro v
    rw [← hF, ← hL]
    dsimp only
    rcases h.ptr v with h1 | h1
    · left
      refine ⟨by omega, ?_, ?_⟩
      · split
        · rfl
        · omega
      · split
        · rfl
        · omega
    · by_cases he : s.last v = s.first v
      · left; rw [if_pos ⟨h1.1, he⟩, if_pos ⟨h1.1, he⟩]; exact ⟨he.symm, rfl, rfl⟩
      · right; rw [if_neg (fun h => he h.2), if_neg (fun h => he h.2)]; omega
  have hmem : ∀ v, v ∈ unsorted ↔ s.first v < s.last v := by
    intro v
    rw [← hU, List.mem_filter, List.mem_range]
    have := hfv v
    simp only [ne_eq, decide_not, Bool.not_eq_true', decide_eq_false_iff_not]
    omega
  have hnd : unsorted.Nodup := by rw [← hU]; exact List.nodup_range.sublist List.filter_sublist
  obtain ⟨sorted, e1, e2⟩ := Verif.Proofs.Radix.radixSort_spec (rank := fun v => 4 * first v) (bytes := 8)
    (tmp := List.replicate unsorted.length 0) (l := unsorted) (junk := fun _ => 0)
    (fun v hv => by
      have h1 := hfv v
      have h2 := (hmem v).1 hv
      unfold maxVectors at *
      omega) (List.length_replicate ..)
  dsimp only
  rw [e1]
  dsimp only
  have hsm : ∀ v, v ∈ sorted ↔ s.first v < s.last v := fun v => (e2.perm.mem_iff).trans (hmem v)
  have hsn : sorted.Nodup := e2.perm.nodup_iff.2 hnd
  obtain ⟨mem', first', last', p', g, h1, h2, h3, h4, h5, h6, h7⟩ := defragLoop_spec (base := s.base) (size := s.size)
    (js := sorted) (mem := s.mem) (first := first) (last := last) (p := s.base + 1) hsn
    (fun j hj => by have h1 := hfv j; have h2 := (hsm j).1 hj; omega)
    ((List.Pairwise.and hsn e2.ordered).imp_of_mem fun {a c} ha hc hac => by
      have h1 := hfv a; have h2 := (hsm a).1 ha
      have h3 := hfv c; have h4 := (hsm c).1 hc
      have h5 := h.disj a c hac.1 h2 h4
      have h6 := hac.2
      omega)
    (fun j hj => by have h1 := hfv j; have h2 := (hsm j).1 hj; omega) (Nat.le_refl _)
    (fun j hj => by have h1 := hfv j; have h2 := (hsm j).1 hj; omega) (by omega)
  rw [g]
  dsimp only
  have hsum : (sorted.map fun j => last j - first j).sum = total s n := by
    unfold total
    rw [sum_perm e2.perm, ← hU, show (fun v => decide (s.last v ≠ s.first v)) = fun v => decide (s.last v - s.first v ≠ 0) from ?_]
    · rw [show (fun j => last j - first j) = fun j => s.last j - s.first j from ?_, sum_filter_pos]
      funext j; have := hfv j; omega
    · funext v
      have := hfv v
      rw [decide_eq_decide]; omega
  rw [hsum] at h5
  have hnew : ∀ v, (s.first v = s.last v ∧ first' v = 0 ∧ last' v = 0) ∨
      (s.first v < s.last v ∧ v < n ∧ v ∈ sorted ∧ s.base + 1 ≤ first' v ∧ last' v ≤ p' ∧
        last' v + s.first v = s.last v + first' v) := by
    intro v
    have g1 := hfv v
    by_cases hv : v ∈ sorted
    · have g2 := h3 v hv
      have g3 := (hsm v).1 hv
      right; refine ⟨g3, by omega, hv, by omega, by omega, by omega⟩
    · have g2 := h1 v hv
      have g3 := mt (hsm v).2 hv
      left; omega
  have hcon : ∀ t : Vectors, t.base = s.base → t.mem = mem' → t.first = first' → t.last = last' →
      ∀ w, t.contents w = s.contents w := by
    intro t i1 i2 i3 i4 w
    have g1 := hnew w
    refine contents_congr (by rw [i3, i4]; omega) ?_
    intro i hi
    rw [i1, i2, i3]
    have hw : w ∈ sorted := by rcases g1 with g1 | g1
                               · omega
                               · exact g1.2.2.1
    have g2 := (h3 w hw).2.2.2 i
    have g3 := hfv w
    rw [show first w = s.first w by omega, show last w = s.last w by omega] at g2
    exact g2 hi
  generalize ht : ({ s with mem := mem', first := first', last := last', size := p' - s.base, usable := 0 } : Vectors) = t
  have hc := hcon t (by rw [← ht]) (by rw [← ht]) (by rw [← ht]) (by rw [← ht])
  have hval : ∀ v i, first' v ≤ s.base + i → s.base + i < last' v → mem' i ≠ invalidElement := by
    intro v i g1 g2
    rcases hnew v with g3 | g3
    · omega
    · have g4 := (h3 v g3.2.2.1).2.2.2 (s.base + i - first' v)
      have g5 := hfv v
      rw [show first v = s.first v by omega, show last v = s.last v by omega] at g4
      have g6 := g4 (by omega)
      rw [show first' v - s.base + (s.base + i - first' v) = i by omega] at g6
      rw [g6]
      exact h.valid v _ (by omega) (by omega)
  have htot : total t n = total s n := by
    unfold total
    congr 1
    refine List.map_congr_left fun v _ => ?_
    rw [← ht]
    dsimp only
    have := hnew v
    omega
  have hpair : ∀ v w, v ∈ sorted → w ∈ sorted → v ≠ w → last' v ≤ first' w ∨ last' w ≤ first' v :=
    fun v w hv hw hvw => List.Pairwise.forall_of_forall_of_flip (R := fun a b => a ≠ b → last' a ≤ first' b ∨ last' b ≤ first' a)
      (fun _ _ h => absurd rfl h) (h4.imp fun {a b} h _ => .inl h) (h4.imp fun {a b} h _ => .inr h) hv hw hvw
  have it : VInv n t := by
    rw [← ht]
    refine ⟨h.cap, by dsimp only; omega, fun g => by dsimp only at g; omega, fun _ => hbase, ?_, ?_, hval, ?_, ?_⟩
    · intro v
      dsimp only
      have := hnew v
      omega
    · intro v w hvw g1 g2
      dsimp only at g1 g2 ⊢
      have i1 := hnew v
      have i2 := hnew w
      refine hpair v w ?_ ?_ hvw
      · rcases i1 with i1 | i1
        · omega
        · exact i1.2.2.1
      · rcases i2 with i1 | i1
        · omega
        · exact i1.2.2.1
    · dsimp only
      refine (invalids_none fun i g1 g2 => ?_).symm
      obtain ⟨j, hj, g3, g4⟩ := h7 i (by omega) (by omega)
      exact hval j i g3 g4
    · intro _
      rw [ht, htot, ← ht]
      dsimp only
      omega
  have hts : t.size = p' - s.base := by rw [← ht]
  have htz : t.size ≠ 0 := by omega
  have htm : t.size ≤ 2 ^ 48 := Nat.le_trans it.fits (capOk_le it.cap)
  obtain ⟨k1, k2⟩ := shrunkenCapacity_spec htz htm
  have hsh : ({ Vectors.shrink { s with mem := mem', first := first', last := last', size := p' - s.base } b with
      usable := 0 } : Vectors) = t.shrink b := by
    rw [← ht]
    unfold Vectors.shrink
    dsimp only
    split
    · rfl
    · split
      · rfl
      · rfl
  rw [hsh]
  refine ⟨_, rfl, ?_⟩
  unfold Vectors.shrink
  split
  · exact ⟨it, hc⟩
  · split
    · exact ⟨it, hc⟩
    · have := it.moveTo hb k1 k2 htz
      exact ⟨this.1, fun w => (this.2 w).trans (hc w)⟩

/-! ## Running out of memory -/

theorem growCapacity_fatal {size need : Nat} : ∀ {fuel c : Nat}, need > c - size → size ≤ c →
    growCapacity size need fuel c = .fatal → maxVectors < size + need
  | 0, c, _, _, h => by cases h
  | fuel + 1, c, h1, h2, h => by
    unfold growCapacity at h
    by_cases hm : c = maxVectors
    · omega
    rw [if_neg hm] at h
    dsimp only at h
    have hs : size ≤ (if c ≠ 0 then 2 * c else 2) := by split <;> omega
    generalize (if c ≠ 0 then 2 * c else 2) = c' at h hs
    by_cases hn : need > c' - size
    · rw [if_pos hn] at h; exact growCapacity_fatal hn hs h
    · rw [if_neg hn] at h; cases h

theorem VInv.enlarge_fatal {n : Nat} {s : Vectors} (h : VInv n s) {b : Block} {v : Nat} (hf : s.enlarge b v = .fatal) :
    maxVectors < s.size + (2 * (s.contents v).length + 1) := by
  rw [contents_length]
  unfold Vectors.enlarge at hf
  dsimp only at hf
  have hnew : (if s.last v - s.first v ≠ 0 then 2 * (s.last v - s.first v) else 1) ≤
      2 * (s.last v - s.first v) + 1 := by
    split <;> omega
  generalize (if s.last v - s.first v ≠ 0 then 2 * (s.last v - s.first v) else 1) = new at hnew hf
  unfold Vectors.reserve at hf
  by_cases hn : new > s.capacity - s.size
  · rw [if_pos hn] at hf
    cases hg : growCapacity s.size new 64 s.capacity with
    | fatal => have := growCapacity_fatal hn h.fits hg; omega
    | undefined => rw [hg] at hf; cases hf
    | ok c =>
      rw [hg] at hf
      dsimp only at hf
      split at hf <;> cases hf
  · rw [if_neg hn] at hf
    dsimp only at hf
    split at hf <;> cases hf

theorem VInv.push_fatal {n : Nat} {s : Vectors} (h : VInv n s) {b0 b : Block} (hb0 : Block.Valid b0) {v e : Nat}
    (hf : s.push b0 b v e = .fatal) : maxVectors < s.size + (2 * (s.contents v).length + 1) := by
  have grow : ∀ t : Vectors, VInv n t → (match t.enlarge b v with
        | .fatal => VOut.fatal
        | .undefined => .undefined
        | .ok s => s.storeUsable v e) = .fatal → maxVectors < t.size + (2 * (t.contents v).length + 1) := by
    intro t ht hg
    cases he : t.enlarge b v with
    | fatal => exact ht.enlarge_fatal he
    | undefined => rw [he] at hg; cases hg
    | ok u =>
      rw [he] at hg
      unfold Vectors.storeUsable at hg
      dsimp only at hg
      split at hg <;> cases hg
  unfold Vectors.push at hf
  by_cases hnull : s.first v = 0
  · rw [if_pos hnull] at hf
    by_cases h0 : s.size = 0
    · rw [if_pos h0] at hf
      have hc := h.fresh h0
      have hz : s.pushZero b0 = .ok { s with
          base := b0.address, capacity := 2, size := 1
          mem := put (fun i => if i < s.capacity then s.mem i else b0.fill i) 0 0 } := by
        unfold Vectors.pushZero
        dsimp only
        rw [if_pos (show s.size = s.capacity by omega), if_neg (show ¬ s.capacity ≠ 0 by omega)]
        dsimp only
        rw [if_pos (show s.size < 2 by omega), h0]
      rw [hz] at hf
      cases hf
    · rw [if_neg h0] at hf
      dsimp only at hf
      by_cases hfull : s.size = s.capacity
      · rw [if_pos hfull] at hf; exact grow s h hf
      · have := h.fits
        rw [if_neg hfull, if_pos (by omega)] at hf; cases hf
  · rw [if_neg hnull] at hf
    by_cases hend : s.last v = s.base + s.size
    · rw [if_pos hend] at hf
      by_cases hfull : s.size = s.capacity
      · rw [if_pos hfull] at hf; exact grow s h hf
      · have := h.fits
        rw [if_neg hfull, if_pos (by omega)] at hf; cases hf
    · rw [if_neg hend] at hf
      have hp := h.ptr v
      rw [if_pos (by omega)] at hf
      split at hf
      · exact grow s h hf
      · unfold Vectors.storeUsable at hf
        dsimp only at hf
        split at hf <;> cases hf

/-! ## Histories -/

theorem VInv.init {n : Nat} {mem : Nat → Nat} : VInv n (Vectors.init mem) := by
  refine ⟨.inl rfl, Nat.le_refl _, fun _ => rfl, fun h => absurd rfl h, fun v => .inl ⟨rfl, rfl⟩, ?_, ?_, rfl, fun h => absurd rfl h⟩
  · intro v w _ h; exact absurd h (Nat.lt_irrefl 0)
  · intro v i _ h; exact absurd h (Nat.not_lt_zero _)

theorem VInv.run {n : Nat} : ∀ {ops : List (Block × Block × ListsOp)} {s : Vectors} {f : Nat → List Nat}, VInv n s →
    s.contents = f → (∀ o ∈ ops, Block.Valid o.1 ∧ Block.Valid o.2.1) →
    ∀ {f'}, ListsOp.run n (ops.map fun o => o.2.2) f = some f' →
    s.run n ops = .fatal ∨ ∃ s', s.run n ops = .ok s' ∧ VInv n s' ∧ s'.contents = f'
  | [], s, f, h, hf, _, f', hr => by
    right
    cases hr
    exact ⟨s, rfl, h, hf⟩
  | o :: ops, s, f, h, hf, hb, f', hr => by
    subst hf
    obtain ⟨hb0, hb1⟩ := hb o (by simp)
    rw [List.map_cons] at hr
    unfold ListsOp.run at hr
    unfold Vectors.run
    have main : ∀ f1, o.2.2.apply n s.contents = some f1 → s.step n o = .fatal ∨
        ∃ s', s.step n o = .ok s' ∧ VInv n s' ∧ s'.contents = f1 := by
      intro f1 h1
      unfold Vectors.step
      cases ho : o.2.2 with
      | push v e =>
        rw [ho] at h1
        unfold ListsOp.apply at h1
        dsimp only at h1 ⊢
        by_cases hc : v < n ∧ e < 2 ^ 32 - 1
        · rw [if_pos hc] at h1
          cases h1
          rcases h.push hb0 hb1 hc.1 (e := e) (by unfold invalidElement; omega) with g | ⟨s', g1, g2, g3⟩
          · exact .inl g
          · exact .inr ⟨s', g1, g2, funext g3⟩
        · rw [if_neg hc] at h1; cases h1
      | resize v k =>
        rw [ho] at h1
        unfold ListsOp.apply at h1
        dsimp only at h1 ⊢
        by_cases hc : v < n ∧ k ≤ (s.contents v).length
        · rw [if_pos hc] at h1
          cases h1
          obtain ⟨s', g1, g2, g3⟩ := h.resize hc.1 hc.2
          exact .inr ⟨s', g1, g2, funext g3⟩
        · rw [if_neg hc] at h1; cases h1
      | remove v e =>
        rw [ho] at h1
        unfold ListsOp.apply at h1
        dsimp only at h1 ⊢
        by_cases hc : v < n ∧ e ∈ s.contents v
        · rw [if_pos hc] at h1
          cases h1
          obtain ⟨s', g1, g2, g3⟩ := h.remove hc.1 hc.2
          exact .inr ⟨s', g1, g2, funext g3⟩
        · rw [if_neg hc] at h1; cases h1
      | defrag =>
        rw [ho] at h1
        cases h1
        obtain ⟨s', g1, g2, g3⟩ := h.defrag hb1
        exact .inr ⟨s', g1, g2, funext g3⟩
    cases ha : o.2.2.apply n s.contents with
    | none => rw [ha] at hr; cases hr
    | some f1 =>
      rw [ha] at hr
      dsimp only at hr
      rcases main f1 ha with g | ⟨s', g1, g2, g3⟩
      · left; rw [g]
      · rw [g1]
        exact VInv.run g2 g3 (fun o ho => hb o (by simp [ho])) hr

end Verif.Proofs.Containers
