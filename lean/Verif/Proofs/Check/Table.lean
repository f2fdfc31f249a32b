import Verif.Proofs.Check.Simplify

/-! The hash table of the proof checker: inserting and removing lines. -/

namespace Verif.Check

open Verif.Spec

/-- The hash table is consistent.  `nd` tells whether clauses are without repeated literals. -/
structure Idx (nonces : Nat → Nat) (nd : Prop) (c : Checker) : Prop where
  chain : ∀ h i, i ∈ c.table h → h = reduceHash (c.line i).hash c.hashed ∧ i < c.lines.length
  cnodup : ∀ h, (c.table h).Nodup
  zero : c.hashed = 0 → c.buckets = 0 ∧ ∀ h, c.table h = []
  hash : ∀ i, c.Live i → ∀ s, s.Perm (c.line i).lits → s.Pairwise (· ≤ ·) →
    (c.line i).hash = hashLine nonces s
  used : ∀ i, c.Live i → ∀ l ∈ (c.line i).lits, c.used l = true
  large : ∀ i, c.Live i → 2 < (c.line i).lits.length → ∀ l ∈ (c.line i).lits, c.large l = true
  lnodup : nd → ∀ i, c.Live i → (c.line i).lits.Nodup

theorem Idx.frame {nonces : Nat → Nat} {nd : Prop} {c c' : Checker} (h : Idx nonces nd c)
    (f : Frame c c') : Idx nonces nd c' where
  chain := fun k i hi => by
    rw [f.table] at hi; rw [f.hash, f.hashed, f.length]; exact h.chain k i hi
  cnodup := fun k => by rw [f.table]; exact h.cnodup k
  zero := fun e => by rw [f.table, f.buckets]; exact h.zero (f.hashed ▸ e)
  hash := fun i hi s hs hp => by
    rw [f.hash]; exact h.hash i ((f.live i).1 hi) s (hs.trans (f.perm i)) hp
  used := fun i hi l hl => by
    rw [f.used]; exact h.used i ((f.live i).1 hi) l ((f.perm i).mem_iff.1 hl)
  large := fun i hi hn l hl => by
    rw [f.large]
    exact h.large i ((f.live i).1 hi) ((f.perm i).length_eq ▸ hn) l ((f.perm i).mem_iff.1 hl)
  lnodup := fun e i hi => (f.perm i).nodup_iff.2 (h.lnodup e i ((f.live i).1 hi))

theorem reduceLoop_lt {mod : Nat} (h : 2 ≤ mod) : ∀ (ls : List (Nat × Nat)) (res : Nat),
    (∀ p ∈ ls.getLast?, p.2 = 1) → ls ≠ [] → reduceLoop mod ls res < mod := by
  intro ls
  induction ls with
  | nil => intro _ _ h; exact absurd rfl h
  | cons p ls ih =>
    intro res hl _
    obtain ⟨shift, mask⟩ := p
    unfold reduceLoop
    split
    · cases ls with
      | nil =>
        have : mask = 1 := hl (shift, mask) (by simp)
        subst this
        unfold reduceLoop
        have : (res >>> shift) &&& 1 ≤ 1 := Nat.and_le_right
        omega
      | cons q ls => exact ih _ (fun p hp => hl p (by simpa using hp)) (by simp)
    · omega

theorem reduceHash_lt {hash mod : Nat} (h : 0 < mod) : reduceHash hash mod < mod := by
  unfold reduceHash
  split
  · exact h
  · exact reduceLoop_lt (by omega) _ _ (by simp) (by simp)

theorem Idx.live {nonces : Nat → Nat} {nd : Prop} {c : Checker} (h : Idx nonces nd c) (i : Nat) :
    c.Live i ↔ ∃ k, k < c.hashed ∧ i ∈ c.table k := by
  constructor
  · intro hl
    refine ⟨_, ?_, hl⟩
    by_cases e : c.hashed = 0
    · have : i ∈ c.table _ := hl
      rw [(h.zero e).2] at this
      cases this
    · exact reduceHash_lt (by omega)
  · rintro ⟨k, _, hk⟩
    have := (h.chain k i hk).1
    unfold Checker.Live
    rw [← this]; exact hk

theorem Idx.lt {nonces : Nat → Nat} {nd : Prop} {c : Checker} (h : Idx nonces nd c) {i : Nat}
    (hl : c.Live i) : i < c.lines.length := (h.chain _ i hl).2

section Rehash

variable (f : Nat → Nat)

theorem mem_rehash : ∀ (L : List Nat) (t : Nat → List Nat) (i k : Nat),
    i ∈ L.foldl (fun t j => put t (f j) (j :: t (f j))) t k ↔ i ∈ t k ∨ (i ∈ L ∧ k = f i) := by
  intro L
  induction L with
  | nil => simp
  | cons j L ih =>
    intro t i k
    rw [List.foldl_cons, ih]
    unfold put
    by_cases e : k = f j
    · subst e
      simp only [if_true, List.mem_cons]
      constructor
      · rintro ((rfl | h) | ⟨h, e⟩)
        · exact .inr ⟨.inl rfl, rfl⟩
        · exact .inl h
        · exact .inr ⟨.inr h, e⟩
      · rintro (h | ⟨rfl | h, e⟩)
        · exact .inl (.inr h)
        · exact .inl (.inl rfl)
        · exact .inr ⟨h, e⟩
    · simp only [e, if_false, List.mem_cons]
      constructor
      · rintro (h | ⟨h, e⟩)
        · exact .inl h
        · exact .inr ⟨.inr h, e⟩
      · rintro (h | ⟨rfl | h, e'⟩)
        · exact .inl h
        · exact absurd e' e
        · exact .inr ⟨h, e'⟩

theorem nodup_rehash : ∀ (L : List Nat) (t : Nat → List Nat), L.Nodup → (∀ k, (t k).Nodup) →
    (∀ k, ∀ i ∈ L, i ∉ t k) →
    ∀ k, (L.foldl (fun t j => put t (f j) (j :: t (f j))) t k).Nodup := by
  intro L
  induction L with
  | nil => intro t _ h _ k; exact h k
  | cons j L ih =>
    intro t hL ht hd k
    obtain ⟨hj, hL⟩ := List.nodup_cons.1 hL
    rw [List.foldl_cons]
    refine ih _ hL (fun k => ?_) (fun k i hi => ?_) k
    · unfold put
      split
      · exact List.nodup_cons.2 ⟨hd _ j (List.mem_cons_self ..), ht _⟩
      · exact ht k
    · unfold put
      split
      · intro hm
        rcases List.mem_cons.1 hm with rfl | hm
        · exact hj hi
        · exact hd _ i (List.mem_cons_of_mem _ hi) hm
      · exact hd k i (List.mem_cons_of_mem _ hi)

end Rehash

theorem nodup_chains {t : Nat → List Nat} (h : ∀ k, (t k).Nodup)
    (hd : ∀ j k i, i ∈ t j → i ∈ t k → j = k) : ∀ L : List Nat, L.Nodup → (L.flatMap t).Nodup := by
  intro L
  induction L with
  | nil => intro _; exact List.nodup_nil
  | cons j L ih =>
    intro hL
    obtain ⟨hj, hL⟩ := List.nodup_cons.1 hL
    rw [List.flatMap_cons]
    refine List.nodup_append.2 ⟨h j, ih hL, fun a ha b hb e => ?_⟩
    obtain ⟨k, hk, hb⟩ := List.mem_flatMap.1 hb
    subst e
    exact hj (hd j k a ha hb ▸ hk)

theorem Idx.resize {nonces : Nat → Nat} {nd : Prop} {c : Checker} (h : Idx nonces nd c) :
    Idx nonces nd c.resizeHash ∧ ∀ i, c.resizeHash.Live i ↔ c.Live i := by
  generalize hn : (if c.hashed = 0 then 1 else 2 * c.hashed) = new
  have hnp : new ≠ 0 := by subst hn; split <;> omega
  have hdef : c.resizeHash = { c with
      hashed := new
      table := ((List.range c.hashed).flatMap c.table).foldl (fun t j =>
        put t (reduceHash (c.line j).hash new) (j :: t (reduceHash (c.line j).hash new)))
        fun _ => [] } := by
    subst hn; rfl
  have hmem : ∀ i, i ∈ (List.range c.hashed).flatMap c.table ↔ c.Live i := fun i => by
    rw [h.live, List.mem_flatMap]; simp
  have htab : ∀ i k, i ∈ c.resizeHash.table k ↔
      c.Live i ∧ k = reduceHash (c.line i).hash new := fun i k => by
    rw [hdef]
    rw [show _ ↔ _ from mem_rehash (fun j => reduceHash (c.line j).hash new) _ _ i k]
    rw [hmem]; simp
  have hline : ∀ i, c.resizeHash.line i = c.line i := fun i => rfl
  have hhash : c.resizeHash.hashed = new := by rw [hdef]
  have hlive : ∀ i, c.resizeHash.Live i ↔ c.Live i := fun i => by
    rw [Checker.Live, htab, hline, hhash]; simp
  refine ⟨⟨fun k i hi => ?_, ?_, fun e => absurd (hhash ▸ e) hnp, fun i hi => h.hash i ((hlive i).1 hi),
    fun i hi => h.used i ((hlive i).1 hi), fun i hi => h.large i ((hlive i).1 hi),
    fun e i hi => h.lnodup e i ((hlive i).1 hi)⟩, hlive⟩
  · obtain ⟨a, b⟩ := (htab i k).1 hi
    rw [hline, hhash]
    exact ⟨b, h.lt a⟩
  · rw [hdef]
    refine nodup_rehash (fun j => reduceHash (c.line j).hash new) _ _
      (nodup_chains h.cnodup (fun j k i hj hk => ?_) _ List.nodup_range) (fun _ => List.nodup_nil)
      (fun _ _ _ => by simp)
    rw [(h.chain j i hj).1, (h.chain k i hk).1]

theorem Wf.resize {c : Checker} (h : Wf c) (hl : ∀ i, c.resizeHash.Live i ↔ c.Live i) :
    Wf c.resizeHash where
  dom := h.dom
  anti := h.anti
  trail := h.trail
  nodup := h.nodup
  bound := h.bound
  prop := h.prop
  idx := fun i hi => h.idx i ((hl i).1 hi)
  size := fun i hi => h.size i ((hl i).1 hi)
  ne := fun i hi => h.ne i ((hl i).1 hi)
  lbound := fun i hi => h.lbound i ((hl i).1 hi)
  watch := fun i w => by rw [hl]; exact h.watch i w
  wnodup := h.wnodup
  rnodup := h.rnodup
  rdisj := h.rdisj

/-- A line is inserted. -/
structure Inserted (lits : List Nat) (hash : Nat) (c c' : Checker) : Prop where
  live : ∀ i, c'.Live i ↔ c.Live i ∨ i = c.lines.length
  line : ∀ i, c'.line i = if i = c.lines.length then ⟨lits, hash⟩ else c.line i
  length : c'.lines.length = c.lines.length + 1
  trail : c'.trail = c.trail
  values : c'.values = c.values
  vars : c'.vars = c.vars
  inconsistent : c'.inconsistent = c.inconsistent
  propagated : c'.propagated = c.propagated

theorem insert_ok {nonces : Nat → Nat} {nd : Prop} {c : Checker} (h : Wf c) (hx : Idx nonces nd c)
    {lits : List Nat} {hash : Nat} (hsz : 2 ≤ lits.length) (hne : lits.getD 0 0 ≠ lits.getD 1 0)
    (hb : ∀ l ∈ lits, l / 2 < c.vars)
    (hh : ∀ s, s.Perm lits → s.Pairwise (· ≤ ·) → hash = hashLine nonces s)
    (hnd : nd → lits.Nodup) :
    Wf ((c.insert lits hash).useLine lits) ∧ Idx nonces nd ((c.insert lits hash).useLine lits) ∧
      Inserted lits hash c ((c.insert lits hash).useLine lits) := by
  obtain ⟨c1, hc1, w1, x1, live1, line1, len1, tr1, va1, vs1, in1, pr1⟩ : ∃ c1,
      c1 = (if c.buckets = c.hashed then c.resizeHash else c) ∧ Wf c1 ∧ Idx nonces nd c1 ∧
      (∀ i, c1.Live i ↔ c.Live i) ∧ (∀ i, c1.line i = c.line i) ∧ c1.lines.length = c.lines.length ∧
      c1.trail = c.trail ∧ c1.values = c.values ∧ c1.vars = c.vars ∧
      c1.inconsistent = c.inconsistent ∧ c1.propagated = c.propagated := by
    refine ⟨_, rfl, ?_⟩
    split
    · exact ⟨h.resize hx.resize.2, hx.resize.1, hx.resize.2, fun _ => rfl, rfl, rfl, rfl, rfl, rfl, rfl⟩
    · exact ⟨h, hx, fun _ => Iff.rfl, fun _ => rfl, rfl, rfl, rfl, rfl, rfl, rfl⟩
  generalize hc2 : (c.insert lits hash).useLine lits = c2
  have hdef : c2 = ({ c1 with
      lines := c1.lines ++ [Line.mk lits hash]
      table := put c1.table (reduceHash hash c1.hashed) (c1.lines.length :: c1.table (reduceHash hash c1.hashed))
      watches := put (put c1.watches (lits.getD 0 0) (c1.watches (lits.getD 0 0) ++ [c1.lines.length]))
        (lits.getD 1 0) (put c1.watches (lits.getD 0 0) (c1.watches (lits.getD 0 0) ++ [c1.lines.length])
          (lits.getD 1 0) ++ [c1.lines.length])
      buckets := c1.buckets + 1
      used := fun l => c1.used l || lits.contains l
      large := fun l => c1.large l || (decide (2 < lits.length) && lits.contains l) } : Checker) := by
    rw [hc1, ← hc2]; rfl
  have hline : ∀ i, c2.line i = if i = c.lines.length then ⟨lits, hash⟩ else c.line i := fun i => by
    rw [← line1, ← len1, hdef]
    unfold Checker.line
    simp only [List.getD_eq_getElem?_getD]
    by_cases e : i = c1.lines.length
    · subst e; simp
    · rw [if_neg e]
      by_cases e' : i < c1.lines.length
      · rw [List.getElem?_append_left e']
      · rw [List.getElem?_eq_none (by simp; omega), List.getElem?_eq_none (by omega)]
  have hnew : ∀ k, c1.lines.length ∉ c1.table k := fun k hk =>
    absurd (x1.chain k _ hk).2 (Nat.lt_irrefl _)
  have hhashed : c2.hashed = c1.hashed := by rw [hdef]
  have htab : ∀ i k, i ∈ c2.table k ↔
      i ∈ c1.table k ∨ (i = c1.lines.length ∧ k = reduceHash hash c1.hashed) := fun i k => by
    rw [hdef]
    show i ∈ put c1.table _ _ k ↔ _
    unfold put
    split
    · next e => subst e; simp [or_comm]
    · next e => simp [e]
  have hlive : ∀ i, c2.Live i ↔ c.Live i ∨ i = c.lines.length := fun i => by
    rw [← live1, ← len1]
    unfold Checker.Live
    rw [htab, hhashed, hline, len1, ← line1]
    by_cases e : i = c.lines.length
    · simp [e]
    · simp [e]
  have hold : ∀ {i}, c.Live i → c2.line i = c.line i := fun {i} hi => by
    rw [hline, if_neg]
    intro e
    exact absurd (hx.lt hi) (by omega)
  have hnewline : c2.line c.lines.length = ⟨lits, hash⟩ := by rw [hline, if_pos rfl]
  have hvars : c2.vars = c.vars := by rw [hdef]; exact vs1
  have hins : Inserted lits hash c c2 := ⟨hlive, hline, by rw [hdef, ← len1]; simp,
    by rw [hdef]; exact tr1, by rw [hdef]; exact va1, hvars, by rw [hdef]; exact in1,
    by rw [hdef]; exact pr1⟩
  have hwt : ∀ i w, i ∈ c2.watches w ↔ i ∈ c1.watches w ∨
      (i = c1.lines.length ∧ (w = lits.getD 0 0 ∨ w = lits.getD 1 0)) := fun i w => by
    rw [hdef]
    show i ∈ put _ _ _ w ↔ _
    rw [mem_put_append, mem_put_append]
    constructor
    · rintro ((h | ⟨a, b⟩) | ⟨a, b⟩)
      · exact .inl h
      · exact .inr ⟨b, .inl a⟩
      · exact .inr ⟨b, .inr a⟩
    · rintro (h | ⟨b, a | a⟩)
      · exact .inl (.inl h)
      · exact .inl (.inr ⟨a, b⟩)
      · exact .inr ⟨a, b⟩
  have hwnew : ∀ w, c1.lines.length ∉ c1.watches w := fun w hm => by
    have := w1.idx _ ((w1.watch _ w).1 (.inl hm)).1
    omega
  refine ⟨{
    dom := by rw [hins.values]; exact h.dom
    anti := by rw [hins.values]; exact h.anti
    trail := by rw [hins.values, hins.trail]; exact h.trail
    nodup := by rw [hins.trail]; exact h.nodup
    bound := by rw [hins.trail, hvars]; exact h.bound
    prop := by rw [hins.trail, hins.propagated]; exact h.prop
    idx := fun i hi => by
      rw [hins.length]
      rcases (hlive i).1 hi with hi | hi
      · have := hx.lt hi; omega
      · omega
    size := fun i hi => by
      rcases (hlive i).1 hi with hi | rfl
      · rw [hold hi]; exact h.size i hi
      · rw [hnewline]; exact hsz
    ne := fun i hi => by
      rcases (hlive i).1 hi with hi | rfl
      · unfold Checker.first Checker.second
        rw [hold hi]; exact h.ne i hi
      · unfold Checker.first Checker.second
        rw [hnewline]; exact hne
    lbound := fun i hi l hl => by
      rw [hvars]
      rcases (hlive i).1 hi with hi | rfl
      · rw [hold hi] at hl; exact h.lbound i hi l hl
      · rw [hnewline] at hl; exact hb l hl
    watch := fun i w => by
      have hww := w1.watch i w
      rw [live1] at hww
      simp only [List.not_mem_nil, and_false, or_false] at hww ⊢
      rw [hwt, hlive]
      by_cases e : i = c.lines.length
      · subst e
        have h1 : c.lines.length ∉ c1.watches w := len1 ▸ hwnew w
        unfold Checker.first Checker.second
        rw [hnewline, ← len1]
        simp [len1, h1]
      · have e' : i ≠ c1.lines.length := by omega
        simp only [e, e', or_false, false_and]
        rw [hww]
        constructor
        · rintro ⟨a, b⟩
          refine ⟨a, ?_⟩
          unfold Checker.first Checker.second at b ⊢
          rw [hold a]; rw [line1] at b; exact b
        · rintro ⟨a, b⟩
          refine ⟨a, ?_⟩
          unfold Checker.first Checker.second at b ⊢
          rw [hold a] at b; rw [line1]; exact b
    wnodup := fun w => by
      rw [hdef]
      refine nodup_put_append (fun w => nodup_put_append w1.wnodup (hwnew _) w) ?_ w
      rw [mem_put_append]
      rintro (hm | ⟨e, _⟩)
      · exact hwnew _ hm
      · exact hne e.symm
    rnodup := List.nodup_nil
    rdisj := fun i hi => by cases hi }, {
    chain := fun k i hi => by
      rw [hins.length, hhashed]
      rcases (htab i k).1 hi with hi | ⟨e, hk⟩
      · obtain ⟨a, b⟩ := x1.chain k i hi
        rw [hline, if_neg (by omega), ← line1]
        exact ⟨a, by omega⟩
      · rw [len1] at e
        rw [e, hnewline]
        exact ⟨hk, by omega⟩
    cnodup := fun k => by
      rw [hdef]
      show (put c1.table _ _ k).Nodup
      unfold put
      split
      · exact List.nodup_cons.2 ⟨hnew _, x1.cnodup _⟩
      · exact x1.cnodup k
    zero := fun e => by
      rw [hhashed] at e
      exfalso
      by_cases hbk : c.buckets = c.hashed
      · rw [if_pos hbk] at hc1
        rw [hc1] at e
        have : c.resizeHash.hashed = if c.hashed = 0 then 1 else 2 * c.hashed := rfl
        rw [this] at e
        split at e <;> omega
      · rw [if_neg hbk] at hc1
        rw [hc1] at e
        exact hbk ((hx.zero e).1.trans e.symm)
    hash := fun i hi s hs hp => by
      rcases (hlive i).1 hi with hi | rfl
      · rw [hold hi] at hs ⊢; exact hx.hash i hi s hs hp
      · rw [hnewline] at hs ⊢; exact hh s hs hp
    used := fun i hi l hl => by
      rw [hdef]
      show (c1.used l || lits.contains l) = true
      rw [Bool.or_eq_true]
      rcases (hlive i).1 hi with hi | rfl
      · left
        rw [hold hi, ← line1] at hl; exact x1.used i ((live1 i).2 hi) l hl
      · right
        rw [hnewline] at hl; simpa using hl
    large := fun i hi hn l hl => by
      rw [hdef]
      show (c1.large l || (decide (2 < lits.length) && lits.contains l)) = true
      rw [Bool.or_eq_true]
      rcases (hlive i).1 hi with hi | rfl
      · left
        rw [hold hi, ← line1] at hl hn; exact x1.large i ((live1 i).2 hi) hn l hl
      · right
        rw [hnewline] at hl hn; simp at hl hn ⊢; exact ⟨hn, hl⟩
    lnodup := fun e i hi => by
      rcases (hlive i).1 hi with hi | rfl
      · rw [hold hi]; exact hx.lnodup e i hi
      · rw [hnewline]; exact hnd e }, hins⟩

end Verif.Check
