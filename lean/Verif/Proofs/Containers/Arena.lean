import Verif.Model.Containers.Arena
import Verif.Proofs.Containers.Stack

/-!
# The clause arena stores a list of clauses
-/

namespace Verif.Proofs.Containers.Arena

open Verif.Spec Verif.Model.Containers Verif.Model.Containers.Arena Verif.Model.Bits

/-- The numbers from an address on. -/
def Lits (mem : Nat → Cell) : Nat → List Nat → Prop
  | _, [] => True
  | p, x :: xs => mem p = .num x ∧ Lits mem (p + 1) xs

theorem Lits.shift {mem mem' : Nat → Cell} : ∀ {ls : List Nat} {p p' : Nat}, Lits mem p ls →
    (∀ i, i < ls.length → mem' (p' + i) = mem (p + i)) → Lits mem' p' ls
  | [], _, _, _, _ => trivial
  | x :: xs, p, p', h, hc => by
    refine ⟨?_, Lits.shift h.2 ?_⟩
    · have := hc 0 (by simp); rw [Nat.add_zero, Nat.add_zero] at this; rw [this]; exact h.1
    · intro i hi
      have := hc (i + 1) (by simpa using hi)
      rw [show p' + 1 + i = p' + (i + 1) by omega, show p + 1 + i = p + (i + 1) by omega]
      exact this

theorem Lits.get {mem : Nat → Cell} : ∀ {ls : List Nat} {p : Nat}, Lits mem p ls → ∀ i (hi : i < ls.length),
    mem (p + i) = .num ls[i]
  | x :: xs, p, h, 0, _ => h.1
  | x :: xs, p, h, i + 1, hi => by
    have := h.2.get i (by simpa using hi)
    rw [show p + (i + 1) = p + 1 + i by omega]
    exact this

/-- A clause with its ghost capacity: the size it was allocated or last compacted with. -/
structure Ghost where
  cap : Nat
  hdr : Header
  lits : List Nat

/-- The clause as seen by users. -/
def Ghost.entry (c : Ghost) : Entry := ⟨c.lits, c.hdr.redundant, c.hdr.garbage⟩

/-- The clause is stored at an address. -/
structure ClauseAt (mem : Nat → Cell) (p : Nat) (c : Ghost) : Prop where
  flags : mem p = .flags c.hdr
  size : mem (p + 2) = .num c.lits.length
  lits : Lits mem (p + 3) c.lits
  store : Storable c.lits
  small : 3 ≤ c.lits.length
  whole : c.hdr.shrunken = false → c.lits.length = c.cap
  part : c.hdr.shrunken = true → c.lits.length < c.cap ∧ mem (p + 3 + (c.cap - 1)) = .num invalidLit ∧
    ∀ i, c.lits.length ≤ i → i < c.cap - 1 → ∃ n, mem (p + 3 + i) = .num n ∧ n ≠ invalidLit

theorem ClauseAt.le {mem : Nat → Cell} {p : Nat} {c : Ghost} (h : ClauseAt mem p c) : c.lits.length ≤ c.cap := by
  cases hs : c.hdr.shrunken with
  | false => exact Nat.le_of_eq (h.whole hs)
  | true => exact Nat.le_of_lt (h.part hs).1

theorem ClauseAt.shift {mem mem' : Nat → Cell} {p p' : Nat} {c : Ghost} (h : ClauseAt mem p c)
    (hc : ∀ i, i < 3 + c.cap → mem' (p' + i) = mem (p + i)) : ClauseAt mem' p' c := by
  have hle := h.le
  have hsm := h.small
  refine ⟨?_, ?_, ?_, h.store, h.small, h.whole, ?_⟩
  · have := hc 0 (by omega); rw [Nat.add_zero, Nat.add_zero] at this; rw [this]; exact h.flags
  · rw [hc 2 (by omega)]; exact h.size
  · refine h.lits.shift fun i hi => ?_
    rw [show p' + 3 + i = p' + (3 + i) by omega, show p + 3 + i = p + (3 + i) by omega]
    exact hc _ (by omega)
  · intro hs
    obtain ⟨h1, h2, h3⟩ := h.part hs
    refine ⟨h1, ?_, ?_⟩
    · rw [show p' + 3 + (c.cap - 1) = p' + (3 + (c.cap - 1)) by omega, hc _ (by omega),
        show p + (3 + (c.cap - 1)) = p + 3 + (c.cap - 1) by omega]
      exact h2
    · intro i i1 i2
      rw [show p' + 3 + i = p' + (3 + i) by omega, hc _ (by omega), show p + (3 + i) = p + 3 + i by omega]
      exact h3 i i1 i2

section

variable {W : Nat}

theorem le_wards (hW : 0 < W) (n : Nat) : n ≤ W * wards W n := by
  unfold wards
  have h1 := Nat.div_add_mod (n + (W - 1)) W
  have h2 := Nat.mod_lt (n + (W - 1)) hW
  omega

theorem wards_pos (hW : 0 < W) {n : Nat} (hn : 0 < n) : 0 < wards W n := by
  unfold wards
  exact Nat.div_pos (by omega) hW

theorem wards_mono {m n : Nat} (h : m ≤ n) : wards W m ≤ wards W n := by
  unfold wards
  exact Nat.div_le_div_right (by omega)

/-- Words of a clause. -/
def width (W : Nat) (c : Ghost) : Nat := W * wards W (3 + c.cap)

/-- Clauses one after the other. -/
def Layout (W : Nat) (mem : Nat → Cell) : Nat → List Ghost → Nat → Prop
  | p, [], e => p = e
  | p, c :: cs, e => ClauseAt mem p c ∧ Layout W mem (p + width W c) cs e

theorem cap_le_width (hW : 0 < W) (c : Ghost) : 3 + c.cap ≤ width W c := le_wards hW _

theorem W_le_width (hW : 0 < W) (c : Ghost) : W ≤ width W c :=
  Nat.le_mul_of_pos_right _ (wards_pos hW (by omega))

theorem Layout.length_le (hW : 0 < W) {mem : Nat → Cell} : ∀ {cs : List Ghost} {p e : Nat}, Layout W mem p cs e →
    p + W * cs.length ≤ e
  | [], p, e, h => by have : p = e := h; simp; omega
  | c :: cs, p, e, h => by
    have := Layout.length_le hW h.2
    have := W_le_width hW c
    rw [List.length_cons, Nat.mul_add, Nat.mul_one]; omega

theorem Layout.le (hW : 0 < W) {mem : Nat → Cell} {cs : List Ghost} {p e : Nat} (h : Layout W mem p cs e) : p ≤ e := by
  have := h.length_le hW; omega

theorem Layout.congr (hW : 0 < W) {mem mem' : Nat → Cell} : ∀ {cs : List Ghost} {p e : Nat}, Layout W mem p cs e →
    (∀ i, p ≤ i → i < e → mem' i = mem i) → Layout W mem' p cs e
  | [], _, _, h, _ => h
  | c :: cs, p, e, h, hc => by
    have h1 := Layout.le hW h.2
    have h2 := cap_le_width hW c
    exact ⟨h.1.shift fun i hi => hc _ (by omega) (by omega), Layout.congr hW h.2 fun i i1 i2 => hc i (by omega) i2⟩

theorem Layout.append {mem : Nat → Cell} : ∀ {xs ys : List Ghost} {p q e : Nat}, Layout W mem p xs q →
    Layout W mem q ys e → Layout W mem p (xs ++ ys) e
  | [], _, p, q, e, h1, h2 => by have : p = q := h1; rw [this]; exact h2
  | _ :: _, _, _, _, _, h1, h2 => ⟨h1.1, h1.2.append h2⟩

theorem Layout.split {mem : Nat → Cell} : ∀ {xs ys : List Ghost} {p e : Nat}, Layout W mem p (xs ++ ys) e →
    ∃ q, Layout W mem p xs q ∧ Layout W mem q ys e
  | [], _, p, _, h => ⟨p, rfl, h⟩
  | _ :: _, _, _, _, h => by
    obtain ⟨q, h1, h2⟩ := h.2.split
    exact ⟨q, ⟨h.1, h1⟩, h2⟩

theorem Layout.aligned {mem : Nat → Cell} : ∀ {xs : List Ghost} {p e : Nat}, Layout W mem p xs e → (∃ k, p = W * k) →
    ∃ k, e = W * k
  | [], _, _, h, hk => by cases h; exact hk
  | c :: cs, p, e, h, ⟨k, hk⟩ => h.2.aligned ⟨k + wards W (3 + c.cap), by rw [hk, Nat.mul_add]; rfl⟩

/-- The references of clauses stored from an address on. -/
def refs (W : Nat) : Nat → List Ghost → List (Nat × Entry)
  | _, [] => []
  | p, c :: cs => (p / W, c.entry) :: refs W (p + width W c) cs

theorem refs_append {mem : Nat → Cell} : ∀ {xs ys : List Ghost} {p q : Nat}, Layout W mem p xs q →
    refs W p (xs ++ ys) = refs W p xs ++ refs W q ys
  | [], _, p, q, h => by have : p = q := h; rw [this]; rfl
  | c :: xs, ys, p, q, h => by
    exact congrArg (List.cons _) (refs_append h.2)

theorem refs_map : ∀ {cs : List Ghost} {p : Nat}, (refs W p cs).map Prod.snd = cs.map Ghost.entry
  | [], _ => rfl
  | c :: cs, p => by unfold refs; rw [List.map_cons, refs_map]; rfl

/-! ## Reading -/

variable {a : Arena}

theorem read_eq {p : Nat} (h : p < W * a.size) : a.read W p = some (a.mem p) := if_pos h

theorem num_eq {p n : Nat} (h : p < W * a.size) (hm : a.mem p = .num n) : a.num W p = some n := by
  unfold Arena.num; rw [read_eq h, hm]

theorem flags_eq {p : Nat} {hd : Header} (h : p < W * a.size) (hm : a.mem p = .flags hd) : a.flags W p = some hd := by
  unfold Arena.flags; rw [read_eq h, hm]

theorem readAll_eq : ∀ {ls : List Nat} {p : Nat}, Lits a.mem p ls → p + ls.length ≤ W * a.size →
    a.readAll W p ls.length = some ls
  | [], _, _, _ => rfl
  | x :: xs, p, h, hs => by
    rw [List.length_cons] at hs ⊢
    unfold Arena.readAll
    rw [num_eq (by omega) h.1]
    dsimp only
    rw [readAll_eq h.2 (by omega)]; rfl

theorem clauseAt_eq {p : Nat} {c : Ghost} (h : ClauseAt a.mem p c) (hs : p + 3 + c.cap ≤ W * a.size) :
    a.clauseAt W p = some c.entry := by
  have hle := h.le
  unfold Arena.clauseAt
  rw [flags_eq (by omega) h.flags, num_eq (by omega) h.size]
  dsimp only
  rw [readAll_eq h.lits (by omega)]; rfl

theorem scan_eq : ∀ {d fuel p : Nat}, d < fuel → (∀ i, i < d → ∃ n, a.mem (p + i) = .num n ∧ n ≠ invalidLit) →
    a.mem (p + d) = .num invalidLit → p + d < W * a.size → a.scan W fuel p = some (p + d + 1)
  | d, 0, p, h, _, _, _ => absurd h (Nat.not_lt_zero _)
  | 0, fuel + 1, p, _, _, h1, h2 => by
    rw [Nat.add_zero] at h1 h2
    unfold Arena.scan
    rw [num_eq h2 h1]
    rfl
  | d + 1, fuel + 1, p, h, hn, h1, h2 => by
    unfold Arena.scan
    obtain ⟨n, g1, g2⟩ := hn 0 (by omega)
    rw [Nat.add_zero] at g1
    rw [num_eq (by omega) g1]
    dsimp only
    rw [if_pos g2, scan_eq (d := d) (by omega) (fun i hi => by
      rw [show p + 1 + i = p + (i + 1) by omega]; exact hn _ (by omega))
      (by rw [show p + 1 + d = p + (d + 1) by omega]; exact h1) (by omega)]
    congr 1; omega

theorem next_eq {p : Nat} {c : Ghost} (h : ClauseAt a.mem p c) (hs : p + 3 + c.cap ≤ W * a.size) :
    a.next W p = some (p + width W c) := by
  have hle := h.le
  unfold Arena.next Arena.actualWards
  rw [flags_eq (by omega) h.flags, num_eq (by omega) h.size]
  dsimp only
  by_cases hsh : c.hdr.shrunken = true
  · obtain ⟨g1, g2, g3⟩ := h.part hsh
    rw [if_pos hsh, scan_eq (d := c.cap - 1 - c.lits.length) (by omega)
      (fun i hi => by rw [Nat.add_assoc (p + 3)]; exact g3 _ (by omega) (by omega))
      (by rw [show p + 3 + c.lits.length + (c.cap - 1 - c.lits.length) = p + 3 + (c.cap - 1) by omega]; exact g2)
      (by omega)]
    rw [Option.map_some, Option.map_some, show p + 3 + c.lits.length + (c.cap - 1 - c.lits.length) + 1 - p =
      3 + c.cap by omega]
    rfl
  · rw [if_neg hsh, h.whole (by simpa using hsh)]
    rfl

theorem traverseFrom_eq (hW : 0 < W) : ∀ {cs : List Ghost} {p fuel : Nat}, Layout W a.mem p cs (W * a.size) →
    cs.length ≤ fuel → a.traverseFrom W fuel p = some (refs W p cs)
  | [], p, fuel, h, _ => by
    have hp : p = W * a.size := h
    cases fuel <;> (unfold Arena.traverseFrom; rw [if_pos hp]; rfl)
  | c :: cs, p, 0, _, hf => by simp at hf
  | c :: cs, p, fuel + 1, h, hf => by
    have h1 := h.2.le hW
    have h2 := cap_le_width hW c
    unfold Arena.traverseFrom
    rw [if_neg (by omega), clauseAt_eq h.1 (by omega), next_eq h.1 (by omega)]
    dsimp only
    rw [traverseFrom_eq hW h.2 (by simpa using hf)]
    rfl

theorem traverse_eq (hW : 0 < W) {cs : List Ghost} (h : Layout W a.mem 0 cs (W * a.size)) :
    a.traverse W = some (refs W 0 cs) := by
  refine traverseFrom_eq hW h ?_
  have := h.length_le hW
  exact Nat.le_of_mul_le_mul_left (by omega) hW

/-! ## Writing -/

theorem write_eq {p : Nat} {c : Cell} (h : p < W * a.size) :
    a.write W p c = some { a with mem := fun i => if i = p then c else a.mem i } := if_pos h

theorem writeAll_eq : ∀ {ls : List Nat} {p : Nat} {a : Arena}, p + ls.length ≤ W * a.size →
    ∃ mem', a.writeAll W p ls = some { a with mem := mem' } ∧ Lits mem' p ls ∧
      ∀ i, ¬ (p ≤ i ∧ i < p + ls.length) → mem' i = a.mem i
  | [], p, a, _ => ⟨a.mem, rfl, trivial, fun _ _ => rfl⟩
  | x :: xs, p, a, hs => by
    rw [List.length_cons] at hs
    unfold Arena.writeAll
    rw [write_eq (by omega)]
    dsimp only
    obtain ⟨mem', h1, h2, h3⟩ := writeAll_eq (ls := xs) (p := p + 1)
      (a := { a with mem := fun i => if i = p then Cell.num x else a.mem i }) (by dsimp only; omega)
    refine ⟨mem', h1, ⟨?_, h2⟩, ?_⟩
    · rw [h3 p (by omega)]; exact if_pos rfl
    · intro i hi
      rw [List.length_cons] at hi
      rw [h3 i (by omega)]
      exact if_neg (by omega)

/-! ## The invariant -/

/-- The capacity is zero or a power of two. -/
def CapOk (c : Nat) : Prop := c = 0 ∨ ∃ k, k ≤ 31 ∧ c = 2 ^ k

/-- The arena contains these clauses. -/
structure AInv (W : Nat) (a : Arena) (cs : List Ghost) : Prop where
  layout : Layout W a.mem 0 cs (W * a.size)
  fits : a.size ≤ a.capacity
  cap : CapOk a.capacity

theorem AInv.init (mem : Nat → Cell) : AInv W (Arena.init mem) [] := ⟨by simp [Layout, Arena.init], Nat.le_refl _, .inl rfl⟩

/-! ## New clauses -/

theorem growCapacity_spec {size need : Nat} : ∀ {fuel c : Nat}, CapOk c →
    (∀ k, c = 2 ^ k → 33 ≤ fuel + k) → (c = 0 → 34 ≤ fuel) → size ≤ c → need > c - size →
    (growCapacity size need fuel c = .fatal ∧ maxArena < size + need) ∨
      ∃ c', growCapacity size need fuel c = .ok c' ∧ CapOk c' ∧ size + need ≤ c'
  | 0, c, hc, h1, h2, _, _ => by
    rcases hc with rfl | ⟨k, hk, rfl⟩
    · have := h2 rfl; omega
    · have := h1 k rfl; omega
  | fuel + 1, c, hc, h1, h2, h3, hn0 => by
    unfold growCapacity
    by_cases hm : c = maxArena
    · rw [if_pos hm]; exact .inl ⟨rfl, by omega⟩
    rw [if_neg hm]
    dsimp only
    have hc' : CapOk (if c ≠ 0 then 2 * c else 1) ∧ size ≤ (if c ≠ 0 then 2 * c else 1) := by
      rcases hc with rfl | ⟨k, hk, rfl⟩
      · exact ⟨.inr ⟨0, by omega, rfl⟩, by omega⟩
      · have hk' : k ≠ 31 := fun e => hm (by rw [e]; rfl)
        have : (2 : Nat) ^ k ≠ 0 := Nat.pos_iff_ne_zero.1 (Nat.two_pow_pos k)
        rw [if_pos this]
        exact ⟨.inr ⟨k + 1, by omega, by rw [Nat.pow_succ]; omega⟩, by omega⟩
    have hfu : (∀ k, (if c ≠ 0 then 2 * c else 1) = 2 ^ k → 33 ≤ fuel + k) := by
      intro k hk
      by_cases h0 : c = 0
      · have := h2 h0; omega
      · rw [if_pos h0] at hk
        cases k with
        | zero => simp at hk
        | succ k =>
          rw [Nat.pow_succ] at hk
          have := h1 k (by omega)
          omega
    have hz : (if c ≠ 0 then 2 * c else 1) ≠ 0 := by split <;> omega
    generalize (if c ≠ 0 then 2 * c else 1) = c' at hc' hfu hz ⊢
    by_cases hn : need > c' - size
    · rw [if_pos hn]
      exact growCapacity_spec hc'.1 hfu (fun h => absurd h hz) hc'.2 hn
    · rw [if_neg hn]
      exact .inr ⟨c', rfl, hc'.1, by omega⟩

theorem wardsOfClause_eq {n : Nat} (h : 3 ≤ n) : wardsOfClause W n = wards W (3 + n) := by
  unfold wardsOfClause; congr 1; omega

theorem AInv.newClause (hW : 0 < W) {cs : List Ghost} (h : AInv W a cs) {fill : Nat → Cell} {redundant : Bool}
    {rest : Nat} {lits : List Nat} (hl : 3 ≤ lits.length) (hs : Storable lits) :
    (a.newClause W fill redundant rest lits = .fatal ∧ maxArena < a.size + wards W (3 + lits.length)) ∨
    ∃ a', a.newClause W fill redundant rest lits = .ok (a', a.size) ∧
      AInv W a' (cs ++ [⟨lits.length, ⟨false, redundant, false, rest⟩, lits⟩]) := by
  unfold Arena.newClause
  have hal : (a.allocate W fill lits.length = .fatal ∧ maxArena < a.size + wards W (3 + lits.length)) ∨
      ∃ c, a.allocate W fill lits.length = .ok (⟨fun i => if i < W * a.size then a.mem i else fill i,
        a.size + wards W (3 + lits.length), c⟩, a.size) ∧ CapOk c ∧ a.size + wards W (3 + lits.length) ≤ c := by
    unfold Arena.allocate
    rw [wardsOfClause_eq hl]
    dsimp only
    by_cases hn : wards W (3 + lits.length) > a.capacity - a.size
    · rw [if_pos hn]
      rcases growCapacity_spec (fuel := 64) h.cap (fun k _ => by omega) (fun _ => by omega) h.fits hn with
        ⟨g1, g2⟩ | ⟨c, g1, g2, g3⟩
      · left; rw [g1]; exact ⟨rfl, g2⟩
      · right; rw [g1]; exact ⟨c, rfl, g2, g3⟩
    · rw [if_neg hn]
      have := h.fits
      exact .inr ⟨a.capacity, rfl, h.cap, by omega⟩
  rcases hal with ⟨g1, g2⟩ | ⟨c, g1, g2, g3⟩
  · left; rw [g1]; exact ⟨rfl, g2⟩
  · right
    rw [g1]
    dsimp only
    have hw := le_wards hW (3 + lits.length)
    have hmul : W * (a.size + wards W (3 + lits.length)) = W * a.size + W * wards W (3 + lits.length) := Nat.mul_add ..
    unfold Arena.initClause
    rw [write_eq (by dsimp only; omega)]
    dsimp only
    rw [write_eq (by dsimp only; omega)]
    dsimp only
    rw [write_eq (by dsimp only; omega)]
    dsimp only
    obtain ⟨mem', e1, e2, e3⟩ := writeAll_eq (ls := lits) (p := W * a.size + 3) (W := W)
      (a := ⟨_, a.size + wards W (3 + lits.length), c⟩) (by dsimp only; omega)
    rw [e1]
    refine ⟨_, rfl, ?_, g3, g2⟩
    dsimp only
    rw [hmul]
    refine Layout.append (q := W * a.size) (h.layout.congr hW ?_) ⟨⟨?_, ?_, e2, hs, hl, fun _ => rfl, fun h => ?_⟩, ?_⟩
    · intro i _ hi
      rw [e3 i (by omega)]
      dsimp only
      rw [if_neg (by omega), if_neg (by omega), if_neg (by omega), if_pos hi]
    · rw [e3 _ (by omega)]
      dsimp only
      rw [if_neg (by omega), if_neg (by omega), if_pos rfl]
    · rw [e3 _ (by omega)]
      dsimp only
      rw [if_pos rfl]
    · cases h
    · rfl

/-! ## Finding clauses by reference -/

theorem Layout.find (hW : 0 < W) {mem : Nat → Cell} {r : Nat} {e : Entry} : ∀ {cs : List Ghost} {p stop : Nat},
    Layout W mem p cs stop → (∃ k, p = W * k) → (r, e) ∈ refs W p cs →
    ∃ xs c ys, cs = xs ++ c :: ys ∧ e = c.entry ∧ Layout W mem p xs (W * r) ∧ ClauseAt mem (W * r) c ∧
      Layout W mem (W * r + width W c) ys stop
  | c :: cs, p, stop, h, ⟨k, hk⟩, hm => by
    unfold refs at hm
    rcases List.mem_cons.1 hm with he | hm
    · have h1 := congrArg Prod.fst he
      have h2 := congrArg Prod.snd he
      dsimp only at h1 h2
      have hp : p = W * r := by rw [h1, hk, Nat.mul_div_cancel_left _ hW]
      refine ⟨[], c, cs, rfl, h2, hp, ?_, ?_⟩
      · rw [← hp]; exact h.1
      · rw [← hp]; exact h.2
    · obtain ⟨xs, d, ys, g1, g2, g3, g4, g5⟩ := h.2.find hW ⟨k + wards W (3 + c.cap), by rw [hk, Nat.mul_add]; rfl⟩ hm
      exact ⟨c :: xs, d, ys, by rw [g1]; rfl, g2, ⟨h.1, g3⟩, g4, g5⟩

theorem refs_range (hW : 0 < W) {mem : Nat → Cell} {x : Nat × Entry} : ∀ {cs : List Ghost} {p stop : Nat},
    Layout W mem p cs stop → (∃ k, p = W * k) → x ∈ refs W p cs → p ≤ W * x.1 ∧ W * x.1 < stop
  | c :: cs, p, stop, h, ⟨k, hk⟩, hm => by
    have h1 := h.2.le hW
    have h2 := cap_le_width hW c
    unfold refs at hm
    rcases List.mem_cons.1 hm with rfl | hm
    · dsimp only
      rw [hk, Nat.mul_div_cancel_left _ hW]
      omega
    · have := refs_range hW h.2 ⟨k + wards W (3 + c.cap), by rw [hk, Nat.mul_add]; rfl⟩ hm
      omega

/-- Replacing the clause at a reference. -/
theorem refs_replace (hW : 0 < W) {mem : Nat → Cell} {xs ys : List Ghost} {c c' : Ghost} {r stop : Nat}
    (h1 : Layout W mem 0 xs (W * r)) (h2 : Layout W mem (W * r + width W c) ys stop) (hc : c'.cap = c.cap)
    {f : Nat × Entry → Nat × Entry} (hf : f (r, c.entry) = (r, c'.entry)) :
    refs W 0 (xs ++ c' :: ys) = (refs W 0 (xs ++ c :: ys)).map fun x => if x.1 = r then f x else x := by
  have hcap := cap_le_width hW c
  rw [refs_append h1, refs_append h1, List.map_append]
  congr 1
  · rw [List.map_congr_left (g := id), List.map_id]
    intro x hx
    have := refs_range hW h1 ⟨0, by omega⟩ hx
    rw [if_neg (fun e => by rw [e] at this; omega)]; rfl
  · have hw : width W c' = width W c := by unfold width; rw [hc]
    unfold refs
    rw [List.map_cons, Nat.mul_div_cancel_left _ hW, if_pos rfl, hf, hw]
    congr 1
    rw [List.map_congr_left (g := id), List.map_id]
    intro x hx
    have := refs_range hW h2 ⟨r + wards W (3 + c.cap), by rw [Nat.mul_add]; rfl⟩ hx
    rw [if_neg (fun e => by rw [e] at this; omega)]; rfl

/-- Writing inside of the clause at a reference. -/
theorem AInv.replace (hW : 0 < W) {xs ys : List Ghost} {c c' : Ghost} {r : Nat} (h : AInv W a (xs ++ c :: ys))
    (h1 : Layout W a.mem 0 xs (W * r)) (h2 : Layout W a.mem (W * r + width W c) ys (W * a.size)) (hc : c'.cap = c.cap)
    {mem' : Nat → Cell} (hout : ∀ i, ¬ (W * r ≤ i ∧ i < W * r + 3 + c.cap) → mem' i = a.mem i)
    (hat : ClauseAt mem' (W * r) c') : AInv W { a with mem := mem' } (xs ++ c' :: ys) := by
  have hcap := cap_le_width hW c
  have hw : width W c' = width W c := by unfold width; rw [hc]
  refine ⟨(h1.congr hW fun i _ hi => hout i (by omega)).append ⟨hat, ?_⟩, h.fits, h.cap⟩
  rw [hw]
  exact h2.congr hW fun i hi _ => hout i (by omega)

theorem AInv.markGarbage (hW : 0 < W) {cs : List Ghost} (h : AInv W a cs) {r : Nat} {e : Entry}
    (hr : (r, e) ∈ refs W 0 cs) : ∃ a' cs', a.markGarbage W r = some a' ∧ AInv W a' cs' ∧ a'.size = a.size ∧
      refs W 0 cs' = (refs W 0 cs).map fun x => if x.1 = r then (x.1, { x.2 with garbage := true }) else x := by
  obtain ⟨xs, c, ys, rfl, rfl, h1, h2, h3⟩ := h.layout.find hW ⟨0, by omega⟩ hr
  have hcap := cap_le_width hW c
  have hle := h3.le hW
  unfold Arena.markGarbage
  rw [flags_eq (by omega) h2.flags]
  dsimp only
  rw [write_eq (by omega)]
  refine ⟨_, xs ++ ⟨c.cap, { c.hdr with garbage := true }, c.lits⟩ :: ys, rfl, ?_, rfl, ?_⟩
  · refine h.replace hW (c' := ⟨c.cap, { c.hdr with garbage := true }, c.lits⟩) h1 h3 rfl (fun i hi => if_neg (by omega)) ⟨if_pos rfl, ?_, ?_, h2.store, h2.small, h2.whole, ?_⟩
    · dsimp only; rw [if_neg (by omega)]; exact h2.size
    · exact h2.lits.shift fun i _ => if_neg (by omega)
    · intro hs
      obtain ⟨g1, g2, g3⟩ := h2.part hs
      refine ⟨g1, ?_, ?_⟩
      · dsimp only; rw [if_neg (by omega)]; exact g2
      · intro i i1 i2
        rw [if_neg (by omega)]; exact g3 i i1 i2
  · exact refs_replace hW (c' := ⟨c.cap, { c.hdr with garbage := true }, c.lits⟩) h1 h3 rfl
      (f := fun x => (x.1, { x.2 with garbage := true })) rfl

theorem AInv.rewrite (hW : 0 < W) {cs : List Ghost} (h : AInv W a cs) {r : Nat} {e : Entry}
    (hr : (r, e) ∈ refs W 0 cs) {lits : List Nat} (hs : Storable lits) (hsm : 3 ≤ lits.length)
    (hl : lits.length ≤ e.lits.length) : ∃ a' cs', a.rewrite W r lits = some a' ∧ AInv W a' cs' ∧ a'.size = a.size ∧
      refs W 0 cs' = (refs W 0 cs).map fun x => if x.1 = r then (x.1, { x.2 with lits := lits }) else x := by
  obtain ⟨xs, c, ys, rfl, rfl, h1, h2, h3⟩ := h.layout.find hW ⟨0, by omega⟩ hr
  have hl' : lits.length ≤ c.lits.length := hl
  have hcap := cap_le_width hW c
  have hle := h3.le hW
  have hlc := h2.le
  unfold Arena.rewrite
  dsimp only
  rw [flags_eq (by omega) h2.flags, num_eq (by omega) h2.size]
  dsimp only
  obtain ⟨mem', e1, e2, e3⟩ := writeAll_eq (W := W) (ls := lits) (p := W * r + 3) (a := a) (by omega)
  rw [e1]
  dsimp only
  by_cases hlt : lits.length < c.lits.length
  · rw [if_pos hlt]
    have hold : ∀ i, lits.length ≤ i → i < c.lits.length → ∃ n, mem' (W * r + 3 + i) = .num n ∧ n ≠ invalidLit := by
      intro i i1 i2
      refine ⟨c.lits[i], ?_, ?_⟩
      · rw [e3 _ (by omega)]; exact h2.lits.get i i2
      · have := h2.store _ (List.getElem_mem i2)
        unfold invalidLit; omega
    by_cases hsh : c.hdr.shrunken = true
    · rw [if_pos hsh]
      dsimp only
      rw [write_eq (by dsimp only; omega)]
      dsimp only
      rw [write_eq (by dsimp only; omega)]
      obtain ⟨g1, g2, g3⟩ := h2.part hsh
      refine ⟨_, xs ++ ⟨c.cap, c.hdr, lits⟩ :: ys, rfl, ?_, rfl, ?_⟩
      · refine h.replace hW (c' := ⟨c.cap, c.hdr, lits⟩) h1 h3 rfl (fun i hi => ?_) ⟨?_, ?_, ?_, hs, hsm, ?_, ?_⟩
        · dsimp only; rw [if_neg (by omega), if_neg (by omega), e3 i (by omega)]
        · dsimp only; rw [if_neg (by omega), if_neg (by omega), e3 _ (by omega)]; exact h2.flags
        · dsimp only; rw [if_neg (by omega), if_pos rfl]
        · refine e2.shift fun i hi => ?_
          dsimp only; rw [if_neg (by omega), if_neg (by omega)]
        · intro hf; rw [hsh] at hf; cases hf
        · intro _
          refine ⟨Nat.lt_of_lt_of_le hlt hlc, ?_, ?_⟩
          · dsimp only; rw [if_neg (by omega), if_neg (by omega), e3 _ (by omega)]; exact g2
          · intro i i1 i2
            dsimp only at i1 i2 ⊢
            rw [if_neg (by omega), if_neg (by omega)]
            by_cases hi : i < c.lits.length
            · exact hold i i1 hi
            · rw [e3 _ (by omega)]; exact g3 i (by omega) i2
      · exact refs_replace hW (c' := ⟨c.cap, c.hdr, lits⟩) h1 h3 rfl
          (f := fun x => (x.1, { x.2 with lits := lits })) rfl
    · have hwh := h2.whole (by simpa using hsh)
      rw [if_neg hsh, write_eq (by dsimp only; omega)]
      dsimp only
      rw [write_eq (by dsimp only; omega)]
      dsimp only
      rw [write_eq (by dsimp only; omega)]
      dsimp only
      rw [write_eq (by dsimp only; omega)]
      refine ⟨_, xs ++ ⟨c.cap, { c.hdr with shrunken := true }, lits⟩ :: ys, rfl, ?_, rfl, ?_⟩
      · refine h.replace hW (c' := ⟨c.cap, { c.hdr with shrunken := true }, lits⟩) h1 h3 rfl (fun i hi => ?_) ⟨?_, ?_, ?_, hs, hsm, ?_, ?_⟩
        · dsimp only
          rw [if_neg (by omega), if_neg (by omega), if_neg (by omega), if_neg (by omega), e3 i (by omega)]
        · dsimp only; rw [if_neg (by omega), if_neg (by omega), if_neg (by omega), if_pos rfl]
        · dsimp only; rw [if_neg (by omega), if_pos rfl]
        · refine e2.shift fun i hi => ?_
          dsimp only; rw [if_neg (by omega), if_neg (by omega), if_neg (by omega), if_neg (by omega)]
        · intro hf; cases hf
        · intro _
          refine ⟨Nat.lt_of_lt_of_le hlt hlc, ?_, ?_⟩
          · dsimp only; rw [if_neg (by omega), if_neg (by omega), if_pos (by omega)]
          · intro i i1 i2
            dsimp only at i1 i2 ⊢
            rw [if_neg (by omega), if_neg (by omega), if_neg (by omega), if_neg (by omega)]
            exact hold i i1 (by omega)
      · exact refs_replace hW (c' := ⟨c.cap, { c.hdr with shrunken := true }, lits⟩) h1 h3 rfl
          (f := fun x => (x.1, { x.2 with lits := lits })) rfl
  · rw [if_neg hlt]
    have heq : lits.length = c.lits.length := by omega
    refine ⟨_, xs ++ ⟨c.cap, c.hdr, lits⟩ :: ys, rfl, ?_, rfl, ?_⟩
    · refine h.replace hW (c' := ⟨c.cap, c.hdr, lits⟩) h1 h3 rfl (fun i hi => e3 i (by omega)) ⟨?_, ?_, e2, hs, hsm, ?_, ?_⟩
      · rw [e3 _ (by omega)]; exact h2.flags
      · rw [e3 _ (by omega)]; dsimp only; rw [heq]; exact h2.size
      · intro hf; dsimp only; rw [heq]; exact h2.whole hf
      · intro hsh
        obtain ⟨g1, g2, g3⟩ := h2.part hsh
        refine ⟨by dsimp only; omega, ?_, ?_⟩
        · rw [e3 _ (by dsimp only; omega)]; exact g2
        · intro i i1 i2
          dsimp only at i1 i2
          rw [e3 _ (by omega)]; exact g3 i (by omega) i2
    · exact refs_replace hW (c' := ⟨c.cap, c.hdr, lits⟩) h1 h3 rfl
        (f := fun x => (x.1, { x.2 with lits := lits })) rfl

/-! ## Sweeping -/

theorem sweepLits_eq {fate : Nat → Fate} : ∀ {ls : List Nat} {src dst : Nat} {a : Arena}, Lits a.mem src ls →
    src + ls.length ≤ W * a.size → dst ≤ src →
    ∃ mem' kept, a.sweepLits W fate ls.length src dst = some ({ a with mem := mem' }, kept,
        ls.any fun l => (fate l).isSatisfied) ∧
      (∀ i, ¬ (dst ≤ i ∧ i < src + ls.length) → mem' i = a.mem i) ∧
      ((ls.any fun l => (fate l).isSatisfied) = false → kept = (ls.filterMap fun l => (fate l).kept) ∧ Lits mem' dst kept)
  | [], src, dst, a, _, _, _ => ⟨a.mem, [], rfl, fun _ _ => rfl, fun _ => ⟨rfl, trivial⟩⟩
  | l :: ls, src, dst, a, h, hs, hd => by
    rw [List.length_cons] at hs ⊢
    unfold Arena.sweepLits
    rw [num_eq (by omega) h.1]
    dsimp only
    cases hf : fate l with
    | drop =>
      dsimp only
      obtain ⟨mem', kept, e1, e2, e3⟩ := sweepLits_eq (fate := fate) (dst := dst) h.2 (by omega) (by omega)
      refine ⟨mem', kept, ?_, ?_, ?_⟩
      · rw [e1, List.any_cons, hf]; rfl
      · intro i hi; exact e2 i (by omega)
      · intro hn
        rw [List.any_cons, hf] at hn
        rw [List.filterMap_cons, hf]
        exact e3 hn
    | satisfied =>
      dsimp only
      refine ⟨a.mem, [], ?_, fun _ _ => rfl, ?_⟩
      · rw [List.any_cons, hf]; rfl
      · intro hn; rw [List.any_cons, hf] at hn; cases hn
    | keep m =>
      dsimp only
      rw [write_eq (by omega)]
      dsimp only
      obtain ⟨mem', kept, e1, e2, e3⟩ := sweepLits_eq (fate := fate) (src := src + 1) (dst := dst + 1) (ls := ls)
        (a := { a with mem := fun i => if i = dst then Cell.num m else a.mem i })
        (h.2.shift fun i _ => if_neg (by omega)) (by dsimp only; omega) (by omega)
      refine ⟨mem', m :: kept, ?_, ?_, ?_⟩
      · rw [e1, List.any_cons, hf]; rfl
      · intro i hi
        rw [e2 i (by omega)]
        exact if_neg (by omega)
      · intro hn
        rw [List.any_cons, hf] at hn
        obtain ⟨g1, g2⟩ := e3 hn
        rw [List.filterMap_cons, hf]
        refine ⟨by rw [g1]; rfl, ?_, g2⟩
        rw [e2 dst (by omega)]
        exact if_pos rfl

/-- The first redundant clause. -/
def firstRed (W : Nat) : Nat → List Ghost → Option Nat
  | _, [] => none
  | p, c :: cs => if c.hdr.redundant then some p else firstRed W (p + width W c) cs

/-- The last irredundant clause. -/
def lastIrr (W : Nat) : Nat → List Ghost → Option Nat
  | _, [] => none
  | p, c :: cs =>
    match lastIrr W (p + width W c) cs with
    | some q => some q
    | none => if c.hdr.redundant then none else some p

/-- The literals of a clause can be swept. -/
def Sweepable (fate : Nat → Fate) (e : Entry) : Prop := e.garbage = false →
  (∀ y ∈ e.lits, (fate y).isSatisfied = false) →
  2 ≤ (e.lits.filterMap fun y => (fate y).kept).length ∧ Storable (e.lits.filterMap fun y => (fate y).kept)

theorem sweepLoop_eq (hW : 0 < W) {fate : Nat → Fate} {stop : Nat} : ∀ {cs : List Ghost} {fuel src dst : Nat}
    {fr li : Option Nat} {a : Arena}, Layout W a.mem src cs stop → stop = W * a.size → dst ≤ src → cs.length ≤ fuel →
    (∀ c ∈ cs, Sweepable fate c.entry) →
    ∃ mem' dst' ds fr' li', a.sweepLoop W fate stop fuel src dst fr li =
        some ⟨{ a with mem := mem' }, dst', cs.filterMap fun c => c.entry.binary fate, fr', li'⟩ ∧
      (∀ i, i < dst → mem' i = a.mem i) ∧ Layout W mem' dst ds dst' ∧ dst' ≤ stop ∧
      ds.map Ghost.entry = (cs.filterMap fun c => c.entry.collect fate) ∧ (∀ d ∈ ds, d.hdr.shrunken = false) ∧
      fr' = (match fr with | some f => some f | none => firstRed W dst ds) ∧
      li' = (match lastIrr W dst ds with | some l => some l | none => li)
  | [], fuel, src, dst, fr, li, a, h, hst, hd, _, _ => by
    have hs : src = stop := h
    refine ⟨a.mem, dst, [], fr, li, ?_, fun _ _ => rfl, rfl, by omega, rfl, fun d hd => by simp at hd, ?_, rfl⟩
    · cases fuel <;> (unfold Arena.sweepLoop; rw [if_pos hs]; rfl)
    · cases fr <;> rfl
  | c :: cs, 0, src, dst, fr, li, a, h, hst, hd, hf, _ => by simp at hf
  | c :: cs, fuel + 1, src, dst, fr, li, a, h, hst, hd, hf, hsw => by
    have h1 := h.2.le hW
    have h2 := cap_le_width hW c
    have hlc := h.1.le
    have hsm := h.1.small
    have hf' : cs.length ≤ fuel := by simpa using hf
    have hsw' : ∀ c ∈ cs, Sweepable fate c.entry := fun c hc => hsw c (by simp [hc])
    have hcsw := hsw c (by simp)
    unfold Arena.sweepLoop
    rw [if_neg (by omega), flags_eq (by omega) h.1.flags, num_eq (by omega) h.1.size, next_eq h.1 (by omega)]
    dsimp only
    rcases Bool.eq_false_or_eq_true c.hdr.garbage with hg | hg
    · rw [if_pos hg]
      have hb : c.entry.binary fate = none := if_pos hg
      have hc : c.entry.collect fate = none := if_pos hg
      rw [List.filterMap_cons_none (f := fun c : Ghost => c.entry.binary fate) hb, List.filterMap_cons_none (f := fun c : Ghost => c.entry.collect fate) hc]
      exact sweepLoop_eq hW h.2 hst (by omega) hf' hsw'
    rw [if_neg (by rw [hg]; decide), write_eq (by omega)]
    dsimp only
    obtain ⟨mem1, kept, e1, e2, e3⟩ := sweepLits_eq (W := W) (fate := fate) (ls := c.lits) (src := src + 3)
      (dst := dst + 3) (a := { a with mem := fun i => if i = dst then Cell.flags c.hdr else a.mem i })
      (h.1.lits.shift fun i _ => if_neg (by omega)) (by dsimp only; omega) (by omega)
    rw [e1]
    dsimp only
    have hge : ¬ c.entry.garbage = true := by show ¬ c.hdr.garbage = true; rw [hg]; decide
    rcases Bool.eq_false_or_eq_true (c.lits.any fun l => (fate l).isSatisfied) with hsat | hsat
    · rw [if_pos hsat]
      have hb : c.entry.binary fate = none := by
        unfold Entry.binary; rw [if_neg hge]; exact if_pos hsat
      have hc : c.entry.collect fate = none := by
        unfold Entry.collect; rw [if_neg hge]; exact if_pos hsat
      rw [List.filterMap_cons_none (f := fun c : Ghost => c.entry.binary fate) hb, List.filterMap_cons_none (f := fun c : Ghost => c.entry.collect fate) hc]
      obtain ⟨mem', dst', ds, fr', li', g1, g2, g3⟩ := sweepLoop_eq hW (fate := fate) (stop := stop) (cs := cs)
        (fuel := fuel) (src := src + width W c) (dst := dst) (fr := fr) (li := li) (a := { a with mem := mem1 })
        (h.2.congr hW fun i i1 _ => (e2 i (by omega)).trans (if_neg (by omega))) hst (by omega) hf' hsw'
      refine ⟨mem', dst', ds, fr', li', g1, ?_, g3⟩
      intro i hi
      rw [g2 i hi]
      dsimp only
      rw [e2 i (by omega)]
      exact if_neg (by omega)
    rw [if_neg (by rw [hsat]; decide)]
    obtain ⟨k1, k2⟩ := e3 hsat
    have hns : ∀ y ∈ c.lits, (fate y).isSatisfied = false := by
      intro y hy
      rw [List.any_eq_false] at hsat
      simpa using hsat y hy
    have hnse : ¬ (c.entry.lits.any fun l => (fate l).isSatisfied) = true := by
      show ¬ (c.lits.any fun l => (fate l).isSatisfied) = true
      rw [hsat]; decide
    obtain ⟨w1, w2⟩ := hcsw (by show c.hdr.garbage = false; exact hg) hns
    have hke : (c.entry.lits.filterMap fun y => (fate y).kept) = kept := k1.symm
    rw [hke] at w1 w2
    have hkl : kept.length ≤ c.lits.length := by rw [k1]; exact List.length_filterMap_le ..
    match kept, k2, w1, w2, hke, hkl with
    | [], _, w1, _, _, _ => exact absurd w1 (by decide)
    | [_], _, w1, _, _, _ => exact absurd w1 (by simp)
    | [x, y], _, _, _, hke, _ =>
      dsimp only
      have hb : c.entry.binary fate = some (x, y) := by
        unfold Entry.binary; rw [if_neg hge, if_neg hnse, hke]
      have hc : c.entry.collect fate = none := by
        unfold Entry.collect; rw [if_neg hge, if_neg hnse, hke]; rfl
      rw [List.filterMap_cons_some (f := fun c : Ghost => c.entry.binary fate) hb, List.filterMap_cons_none (f := fun c : Ghost => c.entry.collect fate) hc]
      obtain ⟨mem', dst', ds, fr', li', g1, g2, g3⟩ := sweepLoop_eq hW (fate := fate) (stop := stop) (cs := cs)
        (fuel := fuel) (src := src + width W c) (dst := dst) (fr := fr) (li := li) (a := { a with mem := mem1 })
        (h.2.congr hW fun i i1 _ => (e2 i (by omega)).trans (if_neg (by omega))) hst (by omega) hf' hsw'
      refine ⟨mem', dst', ds, fr', li', by rw [g1]; rfl, ?_, g3⟩
      intro i hi
      rw [g2 i hi]
      dsimp only
      rw [e2 i (by omega)]
      exact if_neg (by omega)
    | x :: y :: z :: ks, k2, _, w2, hke, hkl =>
      dsimp only
      generalize hK : x :: y :: z :: ks = kept at k2 w2 hke hkl ⊢
      have hk3 : 3 ≤ kept.length := by rw [← hK]; simp
      have hb : c.entry.binary fate = none := by
        unfold Entry.binary; rw [if_neg hge, if_neg hnse, hke, ← hK]
      have hc : c.entry.collect fate = some { c.entry with lits := kept } := by
        unfold Entry.collect; rw [if_neg hge, if_neg hnse, hke, if_neg (by omega)]
      rw [List.filterMap_cons_none (f := fun c : Ghost => c.entry.binary fate) hb, List.filterMap_cons_some (f := fun c : Ghost => c.entry.collect fate) hc]
      rw [write_eq (by dsimp only; omega)]
      dsimp only
      rw [write_eq (by dsimp only; omega)]
      dsimp only
      rw [write_eq (by dsimp only; omega)]
      dsimp only
      generalize hM : (fun i => if i = dst + 1 then Cell.num 2 else if i = dst then
        Cell.flags { c.hdr with shrunken := false } else if i = dst + 2 then Cell.num kept.length else mem1 i) = mem2
      have hm2 : ∀ i, i ≠ dst → i ≠ dst + 1 → i ≠ dst + 2 → mem2 i = mem1 i := by
        intro i i1 i2 i3
        rw [← hM]; dsimp only; rw [if_neg i2, if_neg i1, if_neg i3]
      have hat : ClauseAt mem2 dst ⟨kept.length, { c.hdr with shrunken := false }, kept⟩ := by
        refine ⟨?_, ?_, ?_, w2, hk3, fun _ => rfl, fun h => by cases h⟩
        · rw [← hM]; dsimp only; rw [if_neg (by omega), if_pos rfl]
        · rw [← hM]; dsimp only; rw [if_neg (by omega), if_neg (by omega), if_pos rfl]
        · exact k2.shift fun i _ => hm2 _ (by omega) (by omega) (by omega)
      have hwid : width W ⟨kept.length, { c.hdr with shrunken := false }, kept⟩ ≤ width W c :=
        Nat.mul_le_mul_left _ (wards_mono (by dsimp only; omega))
      rw [next_eq (a := { a with mem := mem2 }) hat (by dsimp only; omega)]
      dsimp only
      have hlay : Layout W mem2 (src + width W c) cs stop := by
        refine h.2.congr hW fun i i1 _ => ?_
        rw [hm2 i (by omega) (by omega) (by omega), e2 i (by omega)]
        exact if_neg (by omega)
      have step : ∀ fr1 li1, (match (if c.hdr.redundant = true then match fr with | none => some dst | some f => some f else fr) with
            | some f => some f | none => (none : Option Nat)) = fr1 →
          (if c.hdr.redundant = true then li else some dst) = li1 →
          ∃ mem' dst' ds fr' li', Arena.sweepLoop W { a with mem := mem2 } fate stop fuel (src + width W c)
            (dst + width W ⟨kept.length, { c.hdr with shrunken := false }, kept⟩) fr1 li1 =
            some ⟨{ a with mem := mem' }, dst', cs.filterMap fun c => c.entry.binary fate, fr', li'⟩ ∧
          (∀ i, i < dst → mem' i = a.mem i) ∧ Layout W mem' dst ds dst' ∧ dst' ≤ stop ∧
          ds.map Ghost.entry = ({ c.entry with lits := kept } :: cs.filterMap fun c => c.entry.collect fate) ∧
          (∀ d ∈ ds, d.hdr.shrunken = false) ∧
          fr' = (match fr with | some f => some f | none => firstRed W dst ds) ∧
          li' = (match lastIrr W dst ds with | some l => some l | none => li) := by
        intro fr1 li1 hfr hli
        obtain ⟨mem', dst', ds, fr', li', g1, g2, g3, g4, g5, g6, g7, g8⟩ := sweepLoop_eq hW (fate := fate)
          (stop := stop) (cs := cs) (fuel := fuel) (src := src + width W c)
          (dst := dst + width W ⟨kept.length, { c.hdr with shrunken := false }, kept⟩) (fr := fr1) (li := li1)
          (a := { a with mem := mem2 }) hlay hst (by omega) hf' hsw'
        have hcw := cap_le_width hW ⟨kept.length, { c.hdr with shrunken := false }, kept⟩
        dsimp only at hcw
        refine ⟨mem', dst', ⟨kept.length, { c.hdr with shrunken := false }, kept⟩ :: ds, fr', li', g1, ?_, ⟨?_, g3⟩, g4,
          ?_, ?_, ?_, ?_⟩
        · intro i hi
          rw [g2 i (by omega)]
          dsimp only
          rw [hm2 i (by omega) (by omega) (by omega), e2 i (by omega)]
          exact if_neg (by omega)
        · exact hat.shift fun i hi => g2 (dst + i) (Nat.add_lt_add_left (Nat.lt_of_lt_of_le hi hcw) dst)
        · rw [List.map_cons, g5]; rfl
        · intro d hd
          rcases List.mem_cons.1 hd with rfl | hd
          · rfl
          · exact g6 d hd
        · rw [g7, ← hfr]
          cases fr with
          | some f => cases c.hdr.redundant <;> rfl
          | none =>
            conv_rhs => unfold firstRed
            dsimp only
            generalize firstRed W (dst + width W ⟨kept.length, { c.hdr with shrunken := false }, kept⟩) ds = o
            cases hr : c.hdr.redundant <;> cases o <;> rfl
        · rw [g8, ← hli]
          conv_rhs => unfold lastIrr
          dsimp only
          generalize lastIrr W (dst + width W ⟨kept.length, { c.hdr with shrunken := false }, kept⟩) ds = o
          cases o <;> cases hr : c.hdr.redundant <;> rfl
      rcases Bool.eq_false_or_eq_true c.hdr.redundant with hr | hr
      · rw [if_pos hr]
        exact step _ _ (by rw [if_pos hr]; cases fr <;> rfl) (by rw [if_pos hr])
      · rw [if_neg (by rw [hr]; decide)]
        exact step _ _ (by rw [if_neg (by rw [hr]; decide)]; cases fr <;> rfl) (by rw [if_neg (by rw [hr]; decide)])

/-! ## Moving redundant clauses -/

theorem copy_eq {dst src n : Nat} {from_ : Nat → Cell} (h : dst + n ≤ W * a.size) : a.copy W dst from_ src n =
    some { a with mem := fun i => if dst ≤ i ∧ i < dst + n then from_ (src + (i - dst)) else a.mem i } := if_pos h

theorem moveOut_eq (hW : 0 < W) {stop : Nat} : ∀ {cs : List Ghost} {fuel p q r : Nat} {tmp : Nat → Cell} {a : Arena},
    Layout W a.mem p cs stop → stop = W * a.size → q ≤ p → cs.length ≤ fuel → (∀ c ∈ cs, c.hdr.shrunken = false) →
    ∃ mem' q' tmp' r', a.moveOut W stop fuel p q tmp r = some ({ a with mem := mem' }, q', tmp', r') ∧
      (∀ i, i < q → mem' i = a.mem i) ∧ (∀ i, i < r → tmp' i = tmp i) ∧
      Layout W mem' q (cs.filter fun c => !c.hdr.redundant) q' ∧
      Layout W tmp' r (cs.filter fun c => c.hdr.redundant) r' ∧ q' + r' + p = stop + q + r
  | [], fuel, p, q, r, tmp, a, h, hst, hq, _, _ => by
    have hs : p = stop := h
    refine ⟨a.mem, q, tmp, r, ?_, fun _ _ => rfl, fun _ _ => rfl, rfl, rfl, by omega⟩
    cases fuel <;> (unfold Arena.moveOut; rw [if_pos hs])
  | c :: cs, 0, p, q, r, tmp, a, h, hst, hq, hf, _ => by simp at hf
  | c :: cs, fuel + 1, p, q, r, tmp, a, h, hst, hq, hf, hsh => by
    have h1 := h.2.le hW
    have h2 := cap_le_width hW c
    have hwh := h.1.whole (hsh c (by simp))
    have hsm := h.1.small
    have hf' : cs.length ≤ fuel := by simpa using hf
    have hsh' : ∀ c ∈ cs, c.hdr.shrunken = false := fun c hc => hsh c (by simp [hc])
    unfold Arena.moveOut
    rw [if_neg (by omega), flags_eq (by omega) h.1.flags, num_eq (by omega) h.1.size]
    dsimp only
    have hw : W * wardsOfClause W c.lits.length = width W c := by rw [wardsOfClause_eq hsm, hwh]; rfl
    rw [hw, if_pos (by omega)]
    rcases Bool.eq_false_or_eq_true c.hdr.redundant with hr | hr
    · rw [if_pos hr]
      obtain ⟨mem', q', tmp', r', g1, g2, g3, g4, g5, g6⟩ := moveOut_eq hW (stop := stop) (cs := cs) (fuel := fuel)
        (p := p + width W c) (q := q) (r := r + width W c)
        (tmp := fun i => if r ≤ i ∧ i < r + width W c then a.mem (p + (i - r)) else tmp i) (a := a) h.2 hst (by omega)
        hf' hsh'
      refine ⟨mem', q', tmp', r', g1, g2, ?_, ?_, ?_, by omega⟩
      · intro i hi
        rw [g3 i (by omega)]
        exact if_neg (by omega)
      · rw [List.filter_cons_of_neg (by simp [hr])]; exact g4
      · rw [List.filter_cons_of_pos (p := fun c : Ghost => c.hdr.redundant) hr]
        refine ⟨h.1.shift fun i hi => ?_, g5⟩
        rw [g3 _ (by omega), if_pos (by omega)]
        congr 1; omega
    · rw [if_neg (by rw [hr]; decide), copy_eq (by omega)]
      dsimp only
      obtain ⟨mem', q', tmp', r', g1, g2, g3, g4, g5, g6⟩ := moveOut_eq hW (stop := stop) (cs := cs) (fuel := fuel)
        (p := p + width W c) (q := q + width W c) (r := r) (tmp := tmp)
        (a := { a with mem := fun i => if q ≤ i ∧ i < q + width W c then a.mem (p + (i - q)) else a.mem i })
        (h.2.congr hW fun i i1 _ => if_neg (by omega)) hst (by omega) hf' hsh'
      refine ⟨mem', q', tmp', r', g1, ?_, g3, ?_, ?_, by omega⟩
      · intro i hi
        rw [g2 i (by omega)]
        exact if_neg (by omega)
      · rw [List.filter_cons_of_pos (by simp [hr])]
        refine ⟨h.1.shift fun i hi => ?_, g4⟩
        rw [g2 _ (by omega)]
        dsimp only
        rw [if_pos (by omega)]
        congr 1; omega
      · rw [List.filter_cons_of_neg (by simp [hr])]; exact g5

theorem moveBack_eq (hW : 0 < W) {stop limit : Nat} {tmp : Nat → Cell} : ∀ {cs : List Ghost} {fuel q r r' : Nat}
    {a : Arena}, Layout W tmp r cs r' → stop = W * a.size → q + (r' - r) = stop → r' ≤ limit → cs.length ≤ fuel →
    (∀ c ∈ cs, c.hdr.shrunken = false) →
    ∃ mem', a.moveBack W stop limit tmp fuel q r = some { a with mem := mem' } ∧ (∀ i, i < q → mem' i = a.mem i) ∧
      Layout W mem' q cs stop
  | [], fuel, q, r, r', a, h, hst, hq, _, _, _ => by
    have hs : r = r' := h
    have hq' : q = stop := by omega
    refine ⟨a.mem, ?_, fun _ _ => rfl, hq'⟩
    cases fuel <;> (unfold Arena.moveBack; rw [if_pos hq'])
  | c :: cs, 0, q, r, r', a, h, hst, hq, _, hf, _ => by simp at hf
  | c :: cs, fuel + 1, q, r, r', a, h, hst, hq, hl, hf, hsh => by
    have h1 := h.2.le hW
    have h2 := cap_le_width hW c
    have hwh := h.1.whole (hsh c (by simp))
    have hsm := h.1.small
    have hw : W * wardsOfClause W c.lits.length = width W c := by rw [wardsOfClause_eq hsm, hwh]; rfl
    unfold Arena.moveBack
    rw [if_neg (by omega), h.1.size]
    dsimp only
    rw [hw, if_pos (by omega), copy_eq (by omega)]
    dsimp only
    obtain ⟨mem', g1, g2, g3⟩ := moveBack_eq hW (stop := stop) (limit := limit) (tmp := tmp) (cs := cs) (fuel := fuel)
      (q := q + width W c) (r := r + width W c) (r' := r')
      (a := { a with mem := fun i => if q ≤ i ∧ i < q + width W c then tmp (r + (i - q)) else a.mem i })
      h.2 hst (by omega) hl (by simpa using hf) (fun c hc => hsh c (by simp [hc]))
    refine ⟨mem', g1, ?_, h.1.shift fun i hi => ?_, g3⟩
    · intro i hi
      rw [g2 i (by omega)]
      exact if_neg (by omega)
    · rw [g2 _ (by omega)]
      dsimp only
      rw [if_pos (by omega)]
      congr 1; omega

/-- Moving the clauses from an address on. -/
theorem move_eq (hW : 0 < W) {cs : List Ghost} {start : Nat} {tmp : Nat → Cell}
    (h : Layout W a.mem (W * start) cs (W * a.size)) (hsh : ∀ c ∈ cs, c.hdr.shrunken = false) :
    ∃ mem', a.move W tmp start = some { a with mem := mem' } ∧ (∀ i, i < W * start → mem' i = a.mem i) ∧
      Layout W mem' (W * start) ((cs.filter fun c => !c.hdr.redundant) ++ cs.filter fun c => c.hdr.redundant)
        (W * a.size) := by
  have hlen : cs.length ≤ a.size := by
    have := h.length_le hW
    exact Nat.le_of_mul_le_mul_left (by omega) hW
  have hle := h.le hW
  unfold Arena.move
  obtain ⟨mem', q', tmp', r', g1, g2, g3, g4, g5, g6⟩ := moveOut_eq hW (q := W * start) (r := 0) (tmp := tmp) h rfl
    (Nat.le_refl _) hlen hsh
  rw [g1]
  dsimp only
  have h4 := g4.le hW
  obtain ⟨mem2, k1, k2, k3⟩ := moveBack_eq hW (stop := W * a.size) (limit := W * a.size - W * start) (q := q')
    (fuel := a.size) (a := { a with mem := mem' }) g5 rfl (by omega) (by omega)
    (Nat.le_trans (List.length_filter_le ..) hlen) (fun c hc => hsh c (List.mem_filter.1 hc).1)
  rw [k1]
  refine ⟨mem2, rfl, fun i hi => ?_, ?_⟩
  · rw [k2 i (by omega)]; exact g2 i hi
  · exact (g4.congr hW fun i i1 i2 => k2 i i2).append k3

theorem lastIrr_ge (hW : 0 < W) : ∀ {cs : List Ghost} {p q : Nat}, lastIrr W p cs = some q → p ≤ q
  | c :: cs, p, q, h => by
    unfold lastIrr at h
    have := cap_le_width hW c
    cases hl : lastIrr W (p + width W c) cs with
    | some q' =>
      rw [hl] at h
      have := lastIrr_ge hW hl
      have := Option.some.inj h
      omega
    | none =>
      rw [hl] at h
      dsimp only at h
      split at h
      · cases h
      · have := Option.some.inj h; omega

theorem lastIrr_none : ∀ {cs : List Ghost} {p : Nat}, lastIrr W p cs = none → ∀ c ∈ cs, c.hdr.redundant = true
  | c :: cs, p, h, d, hd => by
    unfold lastIrr at h
    cases hl : lastIrr W (p + width W c) cs with
    | some q' => rw [hl] at h; cases h
    | none =>
      rw [hl] at h
      dsimp only at h
      rcases List.mem_cons.1 hd with rfl | hd
      · rcases Bool.eq_false_or_eq_true d.hdr.redundant with hr | hr
        · exact hr
        · rw [if_neg (by rw [hr]; decide)] at h; cases h
      · exact lastIrr_none hl d hd

theorem firstRed_none : ∀ {cs : List Ghost} {p : Nat}, firstRed W p cs = none → ∀ c ∈ cs, c.hdr.redundant = false
  | c :: cs, p, h, d, hd => by
    unfold firstRed at h
    rcases Bool.eq_false_or_eq_true c.hdr.redundant with hr | hr
    · rw [if_pos hr] at h; cases h
    · rw [if_neg (by rw [hr]; decide)] at h
      rcases List.mem_cons.1 hd with rfl | hd
      · exact hr
      · exact firstRed_none h d hd

theorem filter_all {cs : List Ghost} (h : ∀ c ∈ cs, c.hdr.redundant = true) :
    ((cs.filter fun c => !c.hdr.redundant) ++ cs.filter fun c => c.hdr.redundant) = cs := by
  rw [List.filter_eq_nil_iff.2 (fun c hc => by simp [h c hc]), List.filter_eq_self.2 h]; rfl

theorem filter_none {cs : List Ghost} (h : ∀ c ∈ cs, c.hdr.redundant = false) :
    ((cs.filter fun c => !c.hdr.redundant) ++ cs.filter fun c => c.hdr.redundant) = cs := by
  rw [(List.filter_eq_nil_iff (p := fun c : Ghost => c.hdr.redundant)).2 (fun c hc => by simp [h c hc]),
    List.filter_eq_self.2 (fun c hc => by simp [h c hc])]; simp

theorem firstRed_some {mem : Nat → Cell} (hW : 0 < W) : ∀ {cs : List Ghost} {p f stop : Nat},
    Layout W mem p cs stop → firstRed W p cs = some f →
    ∃ xs ys, cs = xs ++ ys ∧ (∀ c ∈ xs, c.hdr.redundant = false) ∧ Layout W mem p xs f ∧ Layout W mem f ys stop ∧
      (∀ l, lastIrr W p cs = some l → ¬ f < l → ∀ c ∈ ys, c.hdr.redundant = true)
  | c :: cs, p, f, stop, h, hf => by
    unfold firstRed at hf
    rcases Bool.eq_false_or_eq_true c.hdr.redundant with hr | hr
    · rw [if_pos hr] at hf
      cases hf
      refine ⟨[], c :: cs, rfl, fun c hc => by simp at hc, rfl, h, ?_⟩
      intro l hl hlt
      have hcw := cap_le_width hW c
      unfold lastIrr at hl
      cases hli : lastIrr W (p + width W c) cs with
      | some q =>
        rw [hli] at hl
        have := lastIrr_ge hW hli
        have := Option.some.inj hl
        omega
      | none =>
        rw [hli] at hl
        dsimp only at hl
        rw [if_pos hr] at hl; cases hl
    · rw [if_neg (by rw [hr]; decide)] at hf
      obtain ⟨xs, ys, h1, h2, h3, h4, h5⟩ := firstRed_some hW h.2 hf
      refine ⟨c :: xs, ys, by rw [h1]; rfl, ?_, ⟨h.1, h3⟩, h4, ?_⟩
      · intro d hd
        rcases List.mem_cons.1 hd with rfl | hd
        · exact hr
        · exact h2 d hd
      · intro l hl hlt
        cases hli : lastIrr W (p + width W c) cs with
        | some q =>
          unfold lastIrr at hl
          rw [hli] at hl
          have := Option.some.inj hl
          subst this
          exact h5 _ hli hlt
        | none =>
          intro d hd
          exact lastIrr_none hli d (by rw [h1]; simp [hd])

/-! ## Collecting -/

theorem AInv.shrink {cs : List Ghost} (h : AInv W a cs) : AInv W a.shrink cs ∧ a.shrink.mem = a.mem ∧
    a.shrink.size = a.size := by
  unfold Arena.shrink
  by_cases h1 : a.size > a.capacity / 4
  · rw [if_pos h1]; exact ⟨h, rfl, rfl⟩
  rw [if_neg h1]
  by_cases h2 : a.size = a.capacity
  · rw [if_pos h2]; exact ⟨h, rfl, rfl⟩
  rw [if_neg h2]
  refine ⟨⟨h.layout, ?_, ?_⟩, rfl, rfl⟩
  all_goals
    dsimp only
    by_cases h0 : a.size = 0
    · rw [if_neg (by omega)]
      first | omega | exact .inl rfl
    · rw [if_pos h0, Nat.one_shiftLeft]
      have hcap : a.capacity ≤ 2 ^ 31 := by
        rcases h.cap with h | ⟨k, hk, h⟩
        · omega
        · rw [h]; exact Nat.pow_le_pow_right (by omega) hk
      have hs := h.fits
      have hlt : a.size < 2 ^ 64 := by omega
      first
        | exact (Verif.Props.C33_log2_ceiling a.size h0 hlt (log2Ceiling a.size)).2 (Nat.le_refl _)
        | exact .inr ⟨_, (Verif.Props.C33_log2_ceiling a.size h0 hlt 31).1 (by omega), rfl⟩

theorem filter_entry {p : Entry → Bool} : ∀ (cs : List Ghost),
    (cs.filter fun c => p c.entry).map Ghost.entry = (cs.map Ghost.entry).filter p
  | [] => rfl
  | c :: cs => by
    rw [List.map_cons, List.filter_cons, List.filter_cons]
    split
    · rw [List.map_cons, filter_entry]
    · exact filter_entry cs

theorem refs_split {mem : Nat → Cell} : ∀ {cs : List Ghost} {la lb : List (Nat × Entry)} {p stop : Nat},
    Layout W mem p cs stop → refs W p cs = la ++ lb →
    ∃ xs ys q, cs = xs ++ ys ∧ Layout W mem p xs q ∧ Layout W mem q ys stop ∧ la = refs W p xs ∧ lb = refs W q ys
  | cs, [], lb, p, stop, h, he => ⟨[], cs, p, rfl, rfl, h, rfl, he.symm⟩
  | [], x :: la, lb, p, stop, h, he => by cases he
  | c :: cs, x :: la, lb, p, stop, h, he => by
    have h1 := (List.cons.inj he).1
    have h2 := (List.cons.inj he).2
    obtain ⟨xs, ys, q, g1, g2, g3, g4, g5⟩ := refs_split h.2 h2
    refine ⟨c :: xs, ys, q, by rw [g1]; rfl, ⟨h.1, g2⟩, g3, ?_, g5⟩
    rw [g4, ← h1]; rfl

/-- Irredundant clauses first. -/
def part (cs : List Ghost) : List Ghost := (cs.filter fun c => !c.hdr.redundant) ++ cs.filter fun c => c.hdr.redundant

theorem part_append {us vs : List Ghost} (h : ∀ c ∈ us, c.hdr.redundant = false) : us ++ part vs = part (us ++ vs) := by
  unfold part
  have h1 : (us.filter fun c => c.hdr.redundant) = [] := List.filter_eq_nil_iff.2 fun c hc => by simp [h c hc]
  have h2 : (us.filter fun c => !c.hdr.redundant) = us := List.filter_eq_self.2 fun c hc => by simp [h c hc]
  rw [List.filter_append, List.filter_append, h1, h2, List.nil_append, List.append_assoc]

theorem part_entry (cs : List Ghost) : (part cs).map Ghost.entry =
    (cs.map Ghost.entry).filter (fun e => !e.redundant) ++ (cs.map Ghost.entry).filter (fun e => e.redundant) := by
  unfold part
  rw [List.map_append, ← filter_entry, ← filter_entry]
  rfl

theorem refs_filterMap {β : Type} {f : Entry → Option β} : ∀ {cs : List Ghost} {p : Nat},
    ((refs W p cs).filterMap fun x => f x.2) = cs.filterMap fun c => f c.entry
  | [], _ => rfl
  | c :: cs, p => by
    unfold refs
    rw [List.filterMap_cons, List.filterMap_cons, refs_filterMap]

theorem AInv.sweep (hW : 0 < W) {cs : List Ghost} (h : AInv W a cs) {la lb : List (Nat × Entry)} {start : Nat}
    {fate : Nat → Fate} (hs : SplitAt start a.size (refs W 0 cs) la lb) (hsw : ∀ x ∈ lb, Sweepable fate x.2) :
    ∃ a' dst ds fr li xs, a.sweepLoop W fate (W * a.size) a.size (W * start) (W * start) none none =
        some ⟨a', dst, lb.filterMap fun x => x.2.binary fate, fr, li⟩ ∧
      AInv W ({ a' with size := dst / W }.shrink) (xs ++ ds) ∧
      Layout W ({ a' with size := dst / W }.shrink).mem 0 xs (W * start) ∧
      Layout W ({ a' with size := dst / W }.shrink).mem (W * start) ds (W * ({ a' with size := dst / W }.shrink).size) ∧
      la = refs W 0 xs ∧
      ds.map Ghost.entry = (lb.filterMap fun x => x.2.collect fate) ∧ (∀ d ∈ ds, d.hdr.shrunken = false) ∧
      fr = firstRed W (W * start) ds ∧ li = lastIrr W (W * start) ds := by
  obtain ⟨xs, ys, q, rfl, h1, h2, rfl, rfl⟩ := refs_split h.layout hs.1
  have hq : q = W * start := by
    have hst := hs.2
    cases ys with
    | nil =>
      have : q = W * a.size := h2
      have hst' : a.size = start := hst
      rw [this, hst']
    | cons c ys =>
      obtain ⟨k, hk⟩ := h1.aligned ⟨0, by omega⟩
      have hst' : q / W = start := hst
      rw [← hst', hk, Nat.mul_div_cancel_left _ hW]
  subst hq
  have hlen : ys.length ≤ a.size := by
    have := h2.length_le hW
    exact Nat.le_of_mul_le_mul_left (by omega) hW
  have hsw' : ∀ c ∈ ys, Sweepable fate c.entry := by
    intro c hc
    have : c.entry ∈ (refs W (W * start) ys).map Prod.snd := by rw [refs_map]; exact List.mem_map_of_mem hc
    obtain ⟨x, hx, he⟩ := List.mem_map.1 this
    rw [← he]; exact hsw x hx
  obtain ⟨mem', dst', ds, fr, li, g1, g2, g3, g4, g5, g6, g7, g8⟩ := sweepLoop_eq hW (fr := none) (li := none) h2 rfl
    (Nat.le_refl (W * start)) hlen hsw'
  obtain ⟨k, hk⟩ := g3.aligned ⟨start, rfl⟩
  have hkd : dst' / W = k := by rw [hk, Nat.mul_div_cancel_left _ hW]
  have hks : k ≤ a.size := by
    rw [hk] at g4
    exact Nat.le_of_mul_le_mul_left g4 hW
  have i1 : Layout W mem' 0 xs (W * start) := h1.congr hW fun i _ hi => g2 i hi
  have i2 : AInv W ⟨mem', dst' / W, a.capacity⟩ (xs ++ ds) := by
    refine ⟨i1.append ?_, ?_, h.cap⟩
    · dsimp only; rw [hkd, ← hk]; exact g3
    · dsimp only; rw [hkd]; exact Nat.le_trans hks h.fits
  obtain ⟨j1, j2, j3⟩ := i2.shrink
  refine ⟨{ a with mem := mem' }, dst', ds, fr, li, xs, ?_, j1, ?_, ?_, rfl, ?_, g6, g7, ?_⟩
  · rw [g1, refs_filterMap]
  · rw [j2]; exact i1
  · rw [j2, j3]
    dsimp only
    rw [hkd, ← hk]; exact g3
  · rw [g5, refs_filterMap]
  · rw [g8]
    cases lastIrr W (W * start) ds <;> rfl

theorem AInv.collect (hW : 0 < W) {cs : List Ghost} (h : AInv W a cs) {la lb : List (Nat × Entry)} {start : Nat}
    {fate : Nat → Fate} {tmp : Nat → Cell} (hs : SplitAt start a.size (refs W 0 cs) la lb)
    (hsw : ∀ x ∈ lb, Sweepable fate x.2) :
    ∃ a' cs' lc, a.collect W tmp fate start = some (a', lb.filterMap fun x => x.2.binary fate) ∧ AInv W a' cs' ∧
      refs W 0 cs' = la ++ lc ∧ lc.map Prod.snd =
        (lb.filterMap fun x => x.2.collect fate).filter (fun e => !e.redundant) ++
        (lb.filterMap fun x => x.2.collect fate).filter (fun e => e.redundant) := by
  obtain ⟨a', dst, ds, fr, li, xs, g1, g2, g3, g4, g5, g6, g7, g8, g9⟩ := h.sweep hW hs hsw
  unfold Arena.collect
  rw [g1]
  dsimp only
  generalize ({ a' with size := dst / W } : Arena).shrink = b at g2 g3 g4 ⊢
  have fin : ∀ mem', Layout W mem' 0 xs (W * start) → Layout W mem' (W * start) (part ds) (W * b.size) →
      AInv W { b with mem := mem' } (xs ++ part ds) ∧ refs W 0 (xs ++ part ds) = la ++ refs W (W * start) (part ds) ∧
      (refs W (W * start) (part ds)).map Prod.snd =
        (lb.filterMap fun x => x.2.collect fate).filter (fun e => !e.redundant) ++
        (lb.filterMap fun x => x.2.collect fate).filter (fun e => e.redundant) := by
    intro mem' h1 h2
    refine ⟨⟨h1.append h2, g2.fits, g2.cap⟩, ?_, ?_⟩
    · rw [refs_append h1, g5]
    · rw [refs_map, part_entry, g6]
  have stay : part ds = ds → ∃ a' cs' lc, some (b, lb.filterMap fun x => x.2.binary fate) =
      some (a', lb.filterMap fun x => x.2.binary fate) ∧ AInv W a' cs' ∧ refs W 0 cs' = la ++ lc ∧ lc.map Prod.snd =
        (lb.filterMap fun x => x.2.collect fate).filter (fun e => !e.redundant) ++
        (lb.filterMap fun x => x.2.collect fate).filter (fun e => e.redundant) := by
    intro hp
    obtain ⟨k1, k2, k3⟩ := fin b.mem g3 (by rw [hp]; exact g4)
    exact ⟨b, _, _, rfl, k1, k2, k3⟩
  cases hfr : fr with
  | none =>
    dsimp only
    exact stay (filter_none (firstRed_none (by rw [← g8]; exact hfr)))
  | some f =>
    obtain ⟨us, vs, hds, hus, hl1, hl2, hdec⟩ := firstRed_some hW g4 (by rw [← g8]; exact hfr)
    cases hli : li with
    | none =>
      dsimp only
      exact stay (filter_all (lastIrr_none (by rw [← g9]; exact hli)))
    | some l =>
      dsimp only
      by_cases hlt : f < l
      · rw [if_pos hlt]
        obtain ⟨k, hk⟩ := hl1.aligned ⟨start, rfl⟩
        subst hk
        rw [Nat.mul_div_cancel_left _ hW]
        obtain ⟨mem', m1, m2, m3⟩ := move_eq hW (tmp := tmp) hl2 (fun c hc => g7 c (by rw [hds]; simp [hc]))
        rw [m1]
        have hle := hl1.le hW
        obtain ⟨k1, k2, k3⟩ := fin mem' (g3.congr hW fun i _ hi => m2 i (by omega)) (by
          rw [hds, ← part_append hus]
          exact (hl1.congr hW fun i _ hi => m2 i hi).append m3)
        exact ⟨_, _, _, rfl, k1, k2, k3⟩
      · rw [if_neg hlt]
        refine stay ?_
        rw [hds, ← part_append hus]
        congr 1
        exact filter_all (hdec l (by rw [← g9]; exact hli) hlt)

theorem collect_keep {e : Entry} (h : 3 ≤ e.lits.length) : e.collect .keep = if e.garbage then none else some e := by
  have h1 : (e.lits.any fun l => (Fate.keep l).isSatisfied) = false := by
    rw [List.any_eq_false]; intro x _ h; cases h
  have h2 : (e.lits.filterMap fun l => (Fate.keep l).kept) = e.lits := by
    induction e.lits with
    | nil => rfl
    | cons x xs ih => rw [List.filterMap_cons]; exact congrArg _ ih
  unfold Entry.collect
  split
  · rfl
  · rw [if_neg (by rw [h1]; decide), h2, if_neg (by omega)]

theorem Layout.small {mem : Nat → Cell} : ∀ {cs : List Ghost} {p e : Nat}, Layout W mem p cs e →
    ∀ c ∈ cs, 3 ≤ c.lits.length ∧ Storable c.lits
  | c :: cs, p, e, h, d, hd => by
    rcases List.mem_cons.1 hd with rfl | hd
    · exact ⟨h.1.small, h.1.store⟩
    · exact h.2.small d hd

theorem refs_entry {cs : List Ghost} {p : Nat} {x : Nat × Entry} (hx : x ∈ refs W p cs) : ∃ c ∈ cs, x.2 = c.entry := by
  have : x.2 ∈ (refs W p cs).map Prod.snd := List.mem_map_of_mem hx
  rw [refs_map] at this
  obtain ⟨c, hc, he⟩ := List.mem_map.1 this
  exact ⟨c, hc, he.symm⟩

theorem AInv.denseCollect (hW : 0 < W) {cs : List Ghost} (h : AInv W a cs) :
    ∃ a' cs', a.denseCollect W = some a' ∧ AInv W a' cs' ∧
      (refs W 0 cs').map Prod.snd = ((refs W 0 cs).map Prod.snd).filter fun e => !e.garbage := by
  have hkeep : ∀ ls : List Nat, (ls.filterMap fun l => (Fate.keep l).kept) = ls := by
    intro ls
    induction ls with
    | nil => rfl
    | cons x xs ih => rw [List.filterMap_cons]; exact congrArg _ ih
  have hsplit : SplitAt 0 a.size (refs W 0 cs) [] (refs W 0 cs) := by
    refine ⟨rfl, ?_⟩
    cases cs with
    | nil =>
      have : 0 = W * a.size := h.layout
      have h0 : a.size = 0 := by
        rcases Nat.mul_eq_zero.1 this.symm with h | h
        · omega
        · exact h
      show (none : Option Nat).getD a.size = 0
      exact h0
    | cons c cs => show 0 / W = 0; exact Nat.zero_div _
  have hsw : ∀ x ∈ refs W 0 cs, Sweepable .keep x.2 := by
    intro x hx _ _
    obtain ⟨c, hc, he⟩ := refs_entry hx
    have := h.layout.small c hc
    rw [hkeep, he]
    exact ⟨by show 2 ≤ c.lits.length; omega, this.2⟩
  obtain ⟨a', dst, ds, fr, li, xs, g1, g2, g3, g4, g5, g6, g7, g8, g9⟩ := h.sweep hW hsplit hsw
  unfold Arena.denseCollect
  rw [Nat.mul_zero] at g1
  rw [g1]
  refine ⟨_, xs ++ ds, rfl, g2, ?_⟩
  have hxs : xs = [] := by
    cases xs with
    | nil => rfl
    | cons c xs => cases g5
  subst hxs
  rw [List.nil_append, refs_map, g6]
  have : ∀ l : List (Nat × Entry), (∀ x ∈ l, 3 ≤ x.2.lits.length) →
      (l.filterMap fun x => x.2.collect .keep) = (l.map Prod.snd).filter fun e => !e.garbage := by
    intro l hl
    induction l with
    | nil => rfl
    | cons x l ih =>
      have ih := ih fun y hy => hl y (by simp [hy])
      have hc := collect_keep (hl x (by simp))
      rcases Bool.eq_false_or_eq_true x.2.garbage with hg | hg
      · rw [if_pos hg] at hc
        rw [List.filterMap_cons_none (f := fun x : Nat × Entry => x.2.collect .keep) hc, List.map_cons,
          List.filter_cons_of_neg (by simp [hg]), ih]
      · rw [if_neg (by rw [hg]; decide)] at hc
        rw [List.filterMap_cons_some (f := fun x : Nat × Entry => x.2.collect .keep) hc, List.map_cons,
          List.filter_cons_of_pos (by simp [hg]), ih]
  refine this _ fun x hx => ?_
  obtain ⟨c, hc, he⟩ := refs_entry hx
  rw [he]
  exact (h.layout.small c hc).1

/-! ## All operations -/

theorem AInv.step (hW : 0 < W) {cs : List Ghost} (h : AInv W a cs) {fill : Nat → Cell} {rest : Nat} {op : StoreOp}
    (hl : op.Legal a.size (refs W 0 cs)) :
    (a.step W fill rest op = .fatal ∧ ∃ r lits, op = .add r lits ∧ maxArena < a.size + wards W (3 + lits.length)) ∨
    ∃ a' cs', a.step W fill rest op = .ok a' ∧ AInv W a' cs' ∧ op.Result a.size (refs W 0 cs) (refs W 0 cs') := by
  cases op with
  | add redundant lits =>
    obtain ⟨l1, l2, l3⟩ := hl
    unfold Arena.step
    rcases h.newClause hW (fill := fill) (redundant := redundant) (rest := rest) l1 l3 with ⟨g1, g2⟩ | ⟨a', g1, g2⟩
    · left
      dsimp only
      rw [g1]; exact ⟨rfl, _, _, rfl, g2⟩
    · right
      dsimp only
      rw [g1]
      exact ⟨a', _, rfl, g2, W * a.size / W, by rw [refs_append h.layout]; rfl⟩
  | rewrite r lits =>
    obtain ⟨l1, l2, e, l3, l4⟩ := hl
    right
    obtain ⟨a', cs', g1, g2, -, g3⟩ := h.rewrite hW l3 l1 l2 l4
    refine ⟨a', cs', ?_, g2, g3⟩
    unfold Arena.step
    dsimp only
    rw [g1]; rfl
  | garbage r =>
    obtain ⟨e, l3⟩ := hl
    right
    obtain ⟨a', cs', g1, g2, -, g3⟩ := h.markGarbage hW l3
    refine ⟨a', cs', ?_, g2, g3⟩
    unfold Arena.step
    dsimp only
    rw [g1]; rfl
  | collect start fate =>
    obtain ⟨la, lb, l1, l2⟩ := hl
    right
    obtain ⟨a', cs', lc, g1, g2, g3, g4⟩ := h.collect hW (tmp := fill) l1 l2
    refine ⟨a', cs', ?_, g2, la, lb, lc, l1, g3, g4⟩
    unfold Arena.step
    dsimp only
    rw [g1]; rfl
  | denseCollect =>
    right
    obtain ⟨a', cs', g1, g2, g3⟩ := h.denseCollect hW
    refine ⟨a', cs', ?_, g2, g3⟩
    unfold Arena.step
    dsimp only
    rw [g1]; rfl

theorem AInv.dereference (hW : 0 < W) {cs : List Ghost} (h : AInv W a cs) {r : Nat} {e : Entry}
    (hr : (r, e) ∈ refs W 0 cs) : a.dereference W r = some e := by
  obtain ⟨xs, c, ys, rfl, rfl, h1, h2, h3⟩ := h.layout.find hW ⟨0, by omega⟩ hr
  have hcap := cap_le_width hW c
  have hle := h3.le hW
  exact clauseAt_eq h2 (by omega)

theorem refs_apart (hW : 0 < W) {mem : Nat → Cell} : ∀ {cs : List Ghost} {p stop : Nat}, Layout W mem p cs stop →
    (∃ k, p = W * k) → (refs W p cs).Pairwise fun x y => W * x.1 + 3 + x.2.lits.length ≤ W * y.1
  | [], _, _, _, _ => List.Pairwise.nil
  | c :: cs, p, stop, h, ⟨k, hk⟩ => by
    have hk' : ∃ k', p + width W c = W * k' := ⟨k + wards W (3 + c.cap), by rw [hk, Nat.mul_add]; rfl⟩
    refine List.Pairwise.cons ?_ (refs_apart hW h.2 hk')
    intro y hy
    have h1 := refs_range hW h.2 hk' hy
    have h2 := cap_le_width hW c
    have h3 := h.1.le
    rw [hk, Nat.mul_div_cancel_left _ hW]
    show W * k + 3 + c.lits.length ≤ W * y.1
    omega

theorem refs_inside (hW : 0 < W) {mem : Nat → Cell} {cs : List Ghost} {stop : Nat} (h : Layout W mem 0 cs stop)
    {x : Nat × Entry} (hx : x ∈ refs W 0 cs) : W * x.1 + 3 + x.2.lits.length ≤ stop := by
  obtain ⟨xs, c, ys, rfl, he, h1, h2, h3⟩ := h.find hW ⟨0, by omega⟩ (r := x.1) (e := x.2) hx
  have hcap := cap_le_width hW c
  have hle := h3.le hW
  have := h2.le
  rw [he]
  show W * x.1 + 3 + c.lits.length ≤ stop
  omega

end

end Verif.Proofs.Containers.Arena
