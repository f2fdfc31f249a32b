import Verif.Proofs.Compact.Values

/-! # Compaction: clauses -/

namespace Verif.Compact

open Verif.Spec
open Verif.Core (upd)
open Verif.Model.Queue

variable {t : Tables} {r : Renumber}

/-- The literal may occur in clauses: its variable is active or fixed. -/
def Usable (t : Tables) (l : Nat) : Prop :=
  l / 2 < t.vars ∧ ((t.flags (l / 2)).active = true ∨ (t.flags (l / 2)).fixed = true)

/-- Literal of an active variable. -/
def Active (t : Tables) (l : Nat) : Prop := l / 2 < t.vars ∧ (t.flags (l / 2)).active = true

/-- Some literal is true on root level. -/
def rootSat (t : Tables) (lits : List Nat) : Bool := lits.any fun l => 0 < t.fixed l

/-- The literals without value on root level. -/
def rest (t : Tables) (lits : List Nat) : List Nat := lits.filter fun l => t.fixed l = 0

/-- Garbage collection happens after complete propagation of units: no clause is falsified or
unit on root level. -/
structure Watched (t : Tables) : Prop where
  sym : ∀ a b, b ∈ t.bins a → a ∈ t.bins b
  usable : ∀ a b, b ∈ t.bins a → Usable t a
  propagated : ∀ a b, b ∈ t.bins a → t.fixed a < 0 → 0 < t.fixed b
  clauses : ∀ c ∈ t.clauses, c.garbage = false → ∀ l ∈ c.lits, Usable t l
  long : ∀ c ∈ t.clauses, c.garbage = false → rootSat t c.lits = false → 2 ≤ (rest t c.lits).length

theorem Active.fixed (ht : Consistent t) {l : Nat} (h : Active t l) : t.fixed l = 0 := by
  have hv : t.values l ≠ 0 → t.values (2 * (l / 2)) ≠ 0 := by
    intro hl
    rcases Nat.mod_two_eq_zero_or_one l with e | e
    · rw [show 2 * (l / 2) = l by omega]; exact hl
    · have hn : neg (2 * (l / 2)) = l := by unfold neg; rw [if_pos (by omega)]; omega
      have := ht.anti (2 * (l / 2))
      rw [hn] at this
      omega
  unfold Tables.fixed
  split
  · rfl
  · rename_i hc
    apply Classical.byContradiction
    intro hl
    exact hc ⟨hl, ht.active _ h.1 h.2 (hv hl)⟩

theorem Usable.fixed (ht : Consistent t) {l : Nat} (h : Usable t l) (hf : (t.flags (l / 2)).fixed = true) :
    t.fixed l = t.values l ∧ t.values l ≠ 0 := by
  obtain ⟨h1, h2, h3⟩ := ht.fixed _ h.1 hf
  have hv : t.values l ≠ 0 := by
    rcases Nat.mod_two_eq_zero_or_one l with e | e
    · rw [show l = 2 * (l / 2) by omega]; exact h1
    · have hn : neg (2 * (l / 2)) = l := by unfold neg; rw [if_pos (by omega)]; omega
      have := ht.anti (2 * (l / 2))
      rw [hn] at this
      omega
  refine ⟨?_, hv⟩
  unfold Tables.fixed
  rw [if_neg]
  rintro ⟨_, h4⟩
  exact h4 h2

theorem Usable.active (ht : Consistent t) {l : Nat} (h : Usable t l) (h0 : t.fixed l = 0) : Active t l := by
  rcases h.2 with hc | hc
  · exact ⟨h.1, hc⟩
  · have := h.fixed ht hc
    rw [h0] at this
    exact absurd this.1.symm this.2

theorem mapActive (ht : Consistent t) (h : RInv t t.vars r) {l : Nat} (ha : Active t l) :
    mapLiteral r.imports r.exports l = some (newLit t l) := by
  refine map_kept ht h ha.1 (kept_active ha.2) ?_
  rw [h.exports, if_neg]
  rintro ⟨_, h1, _⟩
  rw [ha.2] at h1; cases h1

/-- A literal whose variable is neither active nor fixed is not mapped. -/
theorem mapUnused (ht : Consistent t) (h : RInv t t.vars r) {l : Nat} (hl : l / 2 < t.vars)
    (ha : (t.flags (l / 2)).active = false) (hf : (t.flags (l / 2)).fixed = false) :
    mapLiteral r.imports r.exports l = none := by
  by_cases he : (t.flags (l / 2)).eliminated = true
  · have hex : r.exports (l / 2) = t.exports (l / 2) := by
      rw [h.exports, if_neg]
      rintro ⟨_, _, _, h4⟩
      rw [he] at h4; cases h4
    have hd := h.done _ hl
    unfold newImport at hd
    rw [if_pos he] at hd
    rw [mapLiteral_eq (by rw [hex]; exact (ht.exports _ hl).1), hex, hd, (ht.imports _ hl).2.1, he]
    rfl
  · exact map_zero (by rw [h.exports, if_pos ⟨hl, ha, hf, by simpa using he⟩])

/-- The watched literals of `a` afterwards. -/
def flushed (t : Tables) (a : Nat) : List Nat :=
  ((t.bins a).filter fun b => ¬ 0 < t.fixed b).map (newLit t)

theorem filterMap_eq {α β : Type} {f : α → Option β} {p : α → Bool} {g : α → β} : ∀ {l : List α},
    (∀ x ∈ l, f x = if p x then some (g x) else none) → l.filterMap f = (l.filter p).map g
  | [], _ => rfl
  | x :: l, h => by
    have ih := filterMap_eq fun y hy => h y (List.mem_cons_of_mem x hy)
    have hx := h x (by simp)
    by_cases hp : p x = true
    · rw [if_pos hp] at hx
      rw [List.filterMap_cons_some hx, List.filter_cons_of_pos hp, List.map_cons, ih]
    · rw [if_neg hp] at hx
      rw [List.filterMap_cons_none hx, List.filter_cons_of_neg hp, ih]

theorem flush_active (ht : Consistent t) (h : RInv t t.vars r) (hw : Watched t) {a : Nat} (ha : Active t a) :
    (t.bins a).filterMap (fun other =>
      if 0 < t.fixed a ∨ 0 < t.fixed other then none else mapLiteral r.imports r.exports other) =
      flushed t a := by
  refine filterMap_eq fun b hb => ?_
  rw [ha.fixed ht]
  by_cases hp : 0 < t.fixed b
  · rw [if_pos (Or.inr hp), if_neg (by simp [hp])]
  · rw [if_neg (by omega), if_pos (by simpa using hp)]
    have hub := hw.usable b a (hw.sym a b hb)
    refine mapActive ht h (hub.active ht ?_)
    have : ¬ t.fixed b < 0 := by
      intro hc
      have := hw.propagated b a (hw.sym a b hb) hc
      rw [ha.fixed ht] at this
      omega
    omega

theorem flush_inactive (ht : Consistent t) (hw : Watched t) {a : Nat} (ha : ¬ Active t a)
    (map : Nat → Option Nat) :
    (t.bins a).filterMap (fun other =>
      if 0 < t.fixed a ∨ 0 < t.fixed other then none else map other) = [] := by
  rw [List.filterMap_eq_nil_iff]
  intro b hb
  rw [if_pos]
  have hu := hw.usable a b hb
  have hne : t.fixed a ≠ 0 := fun e => ha (hu.active ht e)
  by_cases hp : 0 < t.fixed a
  · exact Or.inl hp
  · exact Or.inr (hw.propagated a b hb (by omega))

/-- All watched binary clauses after flushing. -/
structure FInv (t : Tables) (k : Nat) (bins : Nat → List Nat) : Prop where
  done : ∀ a, a < k → Active t a → bins (newLit t a) = flushed t a
  free : ∀ j, j < k → (∀ a, a < k → Active t a → newLit t a ≠ j) → bins j = []
  todo : ∀ j, k ≤ j → bins j = t.bins j

theorem flushWatched_ok (ht : Consistent t) (h : RInv t t.vars r) (hw : Watched t) {k : Nat}
    (hk : k < 2 * t.vars) {bins : Nat → List Nat} (hb : FInv t k bins) :
    FInv t (k + 1) (flushWatched t (mapLiteral r.imports r.exports) bins k) := by
  unfold flushWatched
  simp only
  rw [hb.todo k (Nat.le_refl _)]
  by_cases ha : Active t k
  · have hm := newLit_le t k
    have hinj : ∀ a, a < k → Active t a → newLit t a ≠ newLit t k := by
      intro a hak haa e
      have := newLit_inj (kept_active haa.2) (kept_active ha.2) e
      omega
    rw [flush_active ht h hw ha, mapActive ht h ha]
    simp only
    rw [ha.fixed ht, if_neg (by simp)]
    by_cases hmk : newLit t k < k
    · rw [if_pos hmk]
      refine ⟨fun a hak haa => ?_, fun j hj hja => ?_, fun j hj => ?_⟩
      · by_cases e : a = k
        · subst e
          rw [upd_apply, if_neg (by omega), upd_apply, if_pos rfl]
        · have h1 := newLit_le t a
          rw [upd_apply, if_neg (by omega), upd_apply, if_neg (hinj a (by omega) haa), upd_apply,
            if_neg (by omega)]
          exact hb.done a (by omega) haa
      · by_cases e : j = k
        · rw [e, upd_apply, if_pos rfl]
        · rw [upd_apply, if_neg e, upd_apply, if_neg (Ne.symm (hja k (by omega) ha)), upd_apply, if_neg e]
          exact hb.free j (by omega) fun a hak haa => hja a (by omega) haa
      · rw [upd_apply, if_neg (by omega), upd_apply, if_neg (by omega), upd_apply, if_neg (by omega)]
        exact hb.todo j (by omega)
    · rw [if_neg hmk]
      have hmk : newLit t k = k := by omega
      refine ⟨fun a hak haa => ?_, fun j hj hja => ?_, fun j hj => ?_⟩
      · by_cases e : a = k
        · subst e
          rw [hmk, upd_apply, if_pos rfl]
        · have h1 := newLit_le t a
          rw [upd_apply, if_neg (by omega)]
          exact hb.done a (by omega) haa
      · have e : j ≠ k := fun e => hja k (by omega) ha (by rw [hmk, e])
        rw [upd_apply, if_neg e]
        exact hb.free j (by omega) fun a hak haa => hja a (by omega) haa
      · rw [upd_apply, if_neg (by omega)]
        exact hb.todo j (by omega)
  · rw [flush_inactive ht hw ha]
    have key : FInv t (k + 1) (upd bins k []) := by
      refine ⟨fun a hak haa => ?_, fun j hj hja => ?_, fun j hj => ?_⟩
      · have e : a ≠ k := fun e => ha (e ▸ haa)
        have h1 := newLit_le t a
        rw [upd_apply, if_neg (by omega)]
        exact hb.done a (by omega) haa
      · rw [upd_apply]
        split
        · rfl
        · exact hb.free j (by omega) fun a hak haa => hja a (by omega) haa
      · rw [upd_apply, if_neg (by omega)]
        exact hb.todo j (by omega)
    by_cases hf : (t.flags (k / 2)).fixed = true
    · have h0 : t.fixed k ≠ 0 := by
        have := Usable.fixed ht (l := k) ⟨by omega, Or.inr hf⟩ hf
        rw [this.1]; exact this.2
      cases mapLiteral r.imports r.exports k with
      | none => exact key
      | some m =>
        simp only
        rw [if_pos h0]; exact key
    · rw [mapUnused ht h (by omega) (by
        cases hc : (t.flags (k / 2)).active with
        | false => rfl
        | true => exact absurd ⟨by omega, hc⟩ ha) (by simpa using hf)]
      exact key

theorem flushAll_ok (ht : Consistent t) (h : RInv t t.vars r) (hw : Watched t) :
    FInv t (2 * t.vars) (flushAll t (mapLiteral r.imports r.exports)) := by
  unfold flushAll
  exact foldl_range _ (FInv t) _ _ ⟨fun a ha => absurd ha (Nat.not_lt_zero _),
    fun j hj => absurd hj (Nat.not_lt_zero _), fun j _ => rfl⟩
    fun k c hk hc => flushWatched_ok ht h hw hk hc

theorem mem_flushAll (ht : Consistent t) (h : RInv t t.vars r) (hw : Watched t) (a' b' : Nat) :
    b' ∈ flushAll t (mapLiteral r.imports r.exports) a' ↔
      ∃ a b, Active t a ∧ Active t b ∧ b ∈ t.bins a ∧ a' = newLit t a ∧ b' = newLit t b := by
  have hf := flushAll_ok ht h hw
  have hflushed : ∀ a, Active t a → (b' ∈ flushed t a ↔ ∃ b, Active t b ∧ b ∈ t.bins a ∧ b' = newLit t b) := by
    intro a ha
    unfold flushed
    rw [List.mem_map]
    constructor
    · rintro ⟨b, hb, rfl⟩
      rw [List.mem_filter] at hb
      obtain ⟨hb, hp⟩ := hb
      have hp : ¬ 0 < t.fixed b := by simpa using hp
      have hub := hw.usable b a (hw.sym a b hb)
      refine ⟨b, hub.active ht ?_, hb, rfl⟩
      have : ¬ t.fixed b < 0 := by
        intro hc
        have := hw.propagated b a (hw.sym a b hb) hc
        rw [ha.fixed ht] at this
        omega
      omega
    · rintro ⟨b, hb, hba, rfl⟩
      refine ⟨b, List.mem_filter.2 ⟨hba, ?_⟩, rfl⟩
      rw [hb.fixed ht]; simp
  constructor
  · intro hb
    by_cases hl : a' < 2 * t.vars
    · by_cases hi : ∃ a, a < 2 * t.vars ∧ Active t a ∧ newLit t a = a'
      · obtain ⟨a, h1, h2, h3⟩ := hi
        rw [← h3, hf.done a h1 h2, hflushed a h2] at hb
        obtain ⟨b, h4, h5, h6⟩ := hb
        exact ⟨a, b, h2, h4, h5, h3.symm, h6⟩
      · rw [hf.free a' hl fun a h1 h2 h3 => hi ⟨a, h1, h2, h3⟩] at hb
        cases hb
    · rw [hf.todo a' (Nat.le_of_not_lt hl)] at hb
      have := (hw.usable a' b' hb).1
      omega
  · rintro ⟨a, b, ha, hb, hab, rfl, rfl⟩
    have := ha.1
    rw [hf.done a (by omega) ha, hflushed a ha]
    exact ⟨b, hb, hab, rfl⟩

/-! ## Large clauses -/

theorem sweepLiterals_ok (ht : Consistent t) (h : RInv t t.vars r) : ∀ {lits : List Nat}, (∀ l ∈ lits, Usable t l) →
    sweepLiterals t (mapLiteral r.imports r.exports) lits =
      if rootSat t lits then none else some ((rest t lits).map fun l => some (newLit t l))
  | [], _ => rfl
  | l :: lits, hu => by
    have ih := sweepLiterals_ok ht h (lits := lits) fun x hx => hu x (by simp [hx])
    unfold sweepLiterals
    by_cases h1 : t.fixed l < 0
    · have e1 : rootSat t (l :: lits) = rootSat t lits := by
        unfold rootSat; simp; omega
      have e2 : rest t (l :: lits) = rest t lits := by
        unfold rest; rw [List.filter_cons_of_neg]; simp; omega
      rw [if_pos h1, ih, e1, e2]
    · rw [if_neg h1]
      by_cases h2 : 0 < t.fixed l
      · have e1 : rootSat t (l :: lits) = true := by
          unfold rootSat; simp [h2]
        rw [if_pos h2, e1]; rfl
      · have h0 : t.fixed l = 0 := by omega
        have e1 : rootSat t (l :: lits) = rootSat t lits := by
          unfold rootSat; simp; omega
        have e2 : rest t (l :: lits) = l :: rest t lits := by
          unfold rest; rw [List.filter_cons_of_pos]; simp [h0]
        rw [if_neg h2, ih, e1, e2, mapActive ht h ((hu l (by simp)).active ht h0)]
        cases rootSat t lits <;> rfl

theorem mem_watchBinary (bins : Nat → List Nat) (a b x y : Nat) :
    y ∈ watchBinary bins a b x ↔ y ∈ bins x ∨ (x = a ∧ y = b) ∨ (x = b ∧ y = a) := by
  unfold watchBinary
  rw [upd_apply]
  split
  · rename_i e
    rw [List.mem_append, upd_apply, List.mem_singleton]
    split
    · rename_i e2
      rw [List.mem_append, List.mem_singleton, ← e2, e]
      constructor
      · rintro ((h | h) | h)
        · exact Or.inl h
        · exact Or.inr (Or.inl ⟨rfl, h⟩)
        · exact Or.inr (Or.inr ⟨rfl, by omega⟩)
      · rintro (h | ⟨_, h⟩ | ⟨_, h⟩)
        · exact Or.inl (Or.inl h)
        · exact Or.inl (Or.inr h)
        · exact Or.inr (by omega)
    · rename_i e2
      rw [e]
      constructor
      · rintro (h | h)
        · exact Or.inl h
        · exact Or.inr (Or.inr ⟨rfl, h⟩)
      · rintro (h | ⟨h, _⟩ | ⟨_, h⟩)
        · exact Or.inl h
        · exact absurd h e2
        · exact Or.inr h
  · rename_i e
    rw [upd_apply]
    split
    · rename_i e2
      rw [List.mem_append, List.mem_singleton, e2]
      constructor
      · rintro (h | h)
        · exact Or.inl h
        · exact Or.inr (Or.inl ⟨rfl, h⟩)
      · rintro (h | ⟨_, h⟩ | ⟨h, _⟩)
        · exact Or.inl h
        · exact Or.inr h
        · exact absurd (e2.trans h) e
    · rename_i e2
      constructor
      · exact Or.inl
      · rintro (h | ⟨h, _⟩ | ⟨h, _⟩)
        · exact h
        · exact absurd h e2
        · exact absurd h e

/-- The clause stays. -/
def live (t : Tables) (c : Clause) : Bool := !c.garbage && !rootSat t c.lits

/-- The large clauses afterwards. -/
def swept (t : Tables) (cs : List Clause) : List Clause :=
  (cs.filter fun c => live t c && decide (2 < (rest t c.lits).length)).map
    fun c => { c with lits := (rest t c.lits).map (newLit t) }

theorem sweepClauses_ok (ht : Consistent t) (h : RInv t t.vars r) : ∀ (cs : List Clause) (bins : Nat → List Nat),
    (∀ c ∈ cs, c.garbage = false → ∀ l ∈ c.lits, Usable t l) →
    (∀ c ∈ cs, c.garbage = false → rootSat t c.lits = false → 2 ≤ (rest t c.lits).length) →
    ∃ bins', sweepClauses t (mapLiteral r.imports r.exports) cs bins = some (swept t cs, bins') ∧
      ∀ a' b', b' ∈ bins' a' ↔ b' ∈ bins a' ∨ ∃ c ∈ cs, live t c = true ∧ ∃ a b,
        rest t c.lits = [a, b] ∧
          ((a' = newLit t a ∧ b' = newLit t b) ∨ (a' = newLit t b ∧ b' = newLit t a))
  | [], bins, _, _ => ⟨bins, rfl, fun a' b' => ⟨Or.inl, fun h => by
      rcases h with h | ⟨c, hc, _⟩
      · exact h
      · cases hc⟩⟩
  | c :: cs, bins, hu, hl => by
    have hu' : ∀ d ∈ cs, d.garbage = false → ∀ l ∈ d.lits, Usable t l := fun d hd => hu d (by simp [hd])
    have hl' : ∀ d ∈ cs, d.garbage = false → rootSat t d.lits = false → 2 ≤ (rest t d.lits).length :=
      fun d hd => hl d (by simp [hd])
    have hskip : live t c = false ∨ 2 < (rest t c.lits).length →
        ∀ (bins' : Nat → List Nat), (∀ a' b', b' ∈ bins' a' ↔ b' ∈ bins a' ∨ ∃ c ∈ cs, live t c = true ∧ ∃ a b,
        rest t c.lits = [a, b] ∧
          ((a' = newLit t a ∧ b' = newLit t b) ∨ (a' = newLit t b ∧ b' = newLit t a))) →
        ∀ a' b', b' ∈ bins' a' ↔ b' ∈ bins a' ∨ ∃ d ∈ c :: cs, live t d = true ∧ ∃ a b,
        rest t d.lits = [a, b] ∧
          ((a' = newLit t a ∧ b' = newLit t b) ∨ (a' = newLit t b ∧ b' = newLit t a)) := by
      intro hc bins' hb a' b'
      rw [hb]
      constructor
      · rintro (h | ⟨d, hd, h⟩)
        · exact Or.inl h
        · exact Or.inr ⟨d, by simp [hd], h⟩
      · rintro (h | ⟨d, hd, h1, a, b, h2, h3⟩)
        · exact Or.inl h
        · rcases List.mem_cons.1 hd with rfl | hd
          · rcases hc with hc | hc
            · rw [hc] at h1; cases h1
            · rw [h2] at hc; simp at hc
          · exact Or.inr ⟨d, hd, h1, a, b, h2, h3⟩
    unfold sweepClauses
    by_cases hg : c.garbage = true
    · have hlive : live t c = false := by unfold live; simp [hg]
      rw [if_pos hg]
      obtain ⟨bins', h1, h2⟩ := sweepClauses_ok ht h cs bins hu' hl'
      refine ⟨bins', ?_, hskip (Or.inl hlive) bins' h2⟩
      rw [h1]
      unfold swept
      rw [List.filter_cons_of_neg (by simp [hlive])]
    · have hg : c.garbage = false := by simpa using hg
      rw [if_neg (by simp [hg]), sweepLiterals_ok ht h (hu c (by simp) hg)]
      by_cases hs : rootSat t c.lits = true
      · have hlive : live t c = false := by unfold live; simp [hs]
        rw [if_pos hs]
        obtain ⟨bins', h1, h2⟩ := sweepClauses_ok ht h cs bins hu' hl'
        refine ⟨bins', ?_, hskip (Or.inl hlive) bins' h2⟩
        simp only
        rw [h1]
        unfold swept
        rw [List.filter_cons_of_neg (by simp [hlive])]
      · rw [if_neg hs]
        have hs : rootSat t c.lits = false := by simpa using hs
        have hlive : live t c = true := by unfold live; simp [hs, hg]
        have hlen := hl c (by simp) hg hs
        match hr : rest t c.lits with
        | [] => rw [hr] at hlen; simp at hlen
        | [_] => rw [hr] at hlen; simp at hlen
        | [a, b] =>
          simp only [List.map_cons, List.map_nil]
          obtain ⟨bins', h1, h2⟩ := sweepClauses_ok ht h cs (watchBinary bins (newLit t a) (newLit t b)) hu' hl'
          refine ⟨bins', ?_, fun a' b' => ?_⟩
          · rw [h1]
            unfold swept
            rw [List.filter_cons_of_neg (by simp [hr])]
          · rw [h2, mem_watchBinary]
            constructor
            · rintro ((h3 | h3) | ⟨d, hd, h3⟩)
              · exact Or.inl h3
              · refine Or.inr ⟨c, by simp, hlive, a, b, hr, ?_⟩
                rcases h3 with h3 | h3
                · exact Or.inl h3
                · exact Or.inr h3
              · exact Or.inr ⟨d, by simp [hd], h3⟩
            · rintro (h3 | ⟨d, hd, h3, x, y, h4, h5⟩)
              · exact Or.inl (Or.inl h3)
              · rcases List.mem_cons.1 hd with rfl | hd
                · rw [hr] at h4
                  cases h4
                  refine Or.inl (Or.inr ?_)
                  rcases h5 with h5 | h5
                  · exact Or.inl h5
                  · exact Or.inr h5
                · exact Or.inr ⟨d, hd, h3, x, y, h4, h5⟩
        | a :: b :: d :: ls =>
          simp only [List.map_cons]
          obtain ⟨bins', h1, h2⟩ := sweepClauses_ok ht h cs bins hu' hl'
          refine ⟨bins', ?_, hskip (Or.inr (by rw [hr]; simp)) bins' h2⟩
          rw [if_pos (by simp), h1]
          unfold swept
          rw [List.filter_cons_of_pos (by simp [hlive, hr]), List.map_cons, hr]
          simp

/-! ## The whole collection -/

/-- The new tables with all clauses. -/
structure Compacted (t t' : Tables) : Prop where
  moved : Moved t t'
  values : ∀ e, t'.value e = t.value e
  clauses : t'.clauses = swept t t.clauses
  bins : ∀ a' b', b' ∈ t'.bins a' ↔ ∃ a b, Active t a ∧ Active t b ∧ a' = newLit t a ∧ b' = newLit t b ∧
    (b ∈ t.bins a ∨ ∃ c ∈ t.clauses, live t c = true ∧ (rest t c.lits = [a, b] ∨ rest t c.lits = [b, a]))

theorem Consistent.with (ht : Consistent t) (bins : Nat → List Nat) (clauses : List Clause) :
    Consistent { t with bins := bins, clauses := clauses } :=
  ⟨ht.exports, ht.imports, ht.inj, ht.back, ht.unit, ht.fixed, ht.flags, ht.dom, ht.anti, ht.unassigned,
    ht.active⟩

theorem Anchored.with (ht : Anchored t) (bins : Nat → List Nat) (clauses : List Clause) :
    Anchored { t with bins := bins, clauses := clauses } :=
  ⟨ht.trail, ht.nodup, ht.reason, ht.frames, ht.vars, ht.queue, ht.sweep⟩

theorem RInv.with {n : Nat} (h : RInv t n r) (bins : Nat → List Nat) (clauses : List Clause) :
    RInv { t with bins := bins, clauses := clauses } n r :=
  ⟨h.vars, h.none, h.some, h.done, h.todo, h.other, h.exports⟩

theorem Moved.with {t' : Tables} {bins : Nat → List Nat} {clauses : List Clause}
    (h : Moved { t with bins := bins, clauses := clauses } t') : Moved t t' :=
  ⟨h.vars, h.size, h.units, h.eliminated, h.exports, h.flags, h.best, h.saved, h.target, h.values,
    h.assigned, h.reason, h.trail, h.frames, h.sweep, h.queueVars, h.queue, h.bestAssigned,
    h.targetAssigned⟩

theorem sparseCollect_ok (ht : Consistent t) (hl : Anchored t) (hw : Watched t) :
    ∃ t', sparseCollect t = some t' ∧ Compacted t t' ∧ Consistent t' ∧ Anchored t' := by
  have h := compactLiterals_ok ht
  obtain ⟨bins', hs1, hs2⟩ := sweepClauses_ok ht h t.clauses
    (flushAll t (mapLiteral (compactLiterals t).imports (compactLiterals t).exports)) hw.clauses hw.long
  unfold sparseCollect
  simp only
  rw [hs1]
  simp only
  obtain ⟨t', f1, f2, f3, f4, f5, f6⟩ := finalize_moved (ht.with bins' (swept t t.clauses))
    (hl.with bins' (swept t t.clauses)) (h.with bins' (swept t t.clauses))
  refine ⟨t', f1, ?_⟩
  have hmoved : Moved t t' := f2.with
  have hcons : Consistent t' ∧ ∀ e, t'.value e = t.value e := by
    by_cases hv : t'.vars = t.vars
    · rw [f5 hv]
      exact ⟨ht.with bins' _, fun e => rfl⟩
    · obtain ⟨g1, g2, g3⟩ := f6 hv
      exact ⟨consistent_moved (ht.with bins' _) (h.with bins' _) f2 g1 g2 g3,
        fun e => value_moved (ht.with bins' _) (h.with bins' _) f2 g1 e⟩
  refine ⟨⟨hmoved, hcons.2, f3, fun a' b' => ?_⟩, hcons.1, anchored_moved hl hmoved⟩
  have hactlt : ∀ a, Active t a → newLit t a < 2 * t'.vars := by
    intro a ha
    have h1 := rank_lt t (kept_active ha.2) ha.1
    have h2 := newLit_div t a
    rw [hmoved.vars]
    omega
  have hbins : b' ∈ bins' a' ↔ ∃ a b, Active t a ∧ Active t b ∧ a' = newLit t a ∧ b' = newLit t b ∧
      (b ∈ t.bins a ∨ ∃ c ∈ t.clauses, live t c = true ∧ (rest t c.lits = [a, b] ∨ rest t c.lits = [b, a])) := by
    rw [hs2, mem_flushAll ht h hw]
    have hrest : ∀ c ∈ t.clauses, live t c = true → ∀ l ∈ rest t c.lits, Active t l := by
      intro c hc hlive l hlr
      unfold live at hlive
      rw [Bool.and_eq_true] at hlive
      unfold rest at hlr
      rw [List.mem_filter] at hlr
      exact (hw.clauses c hc (by simpa using hlive.1) l hlr.1).active ht (by simpa using hlr.2)
    constructor
    · rintro (⟨a, b, h1, h2, h3, h4, h5⟩ | ⟨c, hc, hlive, a, b, h1, h2⟩)
      · exact ⟨a, b, h1, h2, h4, h5, Or.inl h3⟩
      · have ha := hrest c hc hlive a (by rw [h1]; simp)
        have hb := hrest c hc hlive b (by rw [h1]; simp)
        rcases h2 with ⟨h2, h3⟩ | ⟨h2, h3⟩
        · exact ⟨a, b, ha, hb, h2, h3, Or.inr ⟨c, hc, hlive, Or.inl h1⟩⟩
        · exact ⟨b, a, hb, ha, h2, h3, Or.inr ⟨c, hc, hlive, Or.inr h1⟩⟩
    · rintro ⟨a, b, ha, hb, h1, h2, h3 | ⟨c, hc, hlive, h3 | h3⟩⟩
      · exact Or.inl ⟨a, b, ha, hb, h3, h1, h2⟩
      · exact Or.inr ⟨c, hc, hlive, a, b, h3, Or.inl ⟨h1, h2⟩⟩
      · exact Or.inr ⟨c, hc, hlive, b, a, h3, Or.inr ⟨h1, h2⟩⟩
  rw [f4, ← hbins]
  split
  · exact Iff.rfl
  · unfold clearFrom
    split
    · exact Iff.rfl
    · rename_i hlt
      constructor
      · intro hc; cases hc
      · intro hc
        rw [hbins] at hc
        obtain ⟨a, b, ha, _, h1, _⟩ := hc
        exact absurd (h1 ▸ hactlt a ha) hlt

theorem Compacted.active {t' : Tables} (h : Compacted t t') {l : Nat} (ha : Active t l) :
    Active t' (newLit t l) := by
  have hk := kept_active ha.2
  unfold Active
  rw [newLit_div, h.moved.vars, h.moved.flags _ ha.1 hk]
  exact ⟨rank_lt t hk ha.1, ha.2⟩

theorem rest_active (ht : Consistent t) (hw : Watched t) {c : Clause} (hc : c ∈ t.clauses)
    (hlive : live t c = true) : ∀ l ∈ rest t c.lits, Active t l := by
  intro l hlr
  unfold live at hlive
  rw [Bool.and_eq_true] at hlive
  unfold rest at hlr
  rw [List.mem_filter] at hlr
  exact (hw.clauses c hc (by simpa using hlive.1) l hlr.1).active ht (by simpa using hlr.2)

theorem watched_compacted {t' : Tables} (ht : Consistent t) (hw : Watched t) (h : Compacted t t')
    (ht' : Consistent t') : Watched t' := by
  have hact : ∀ c' ∈ t'.clauses, ∀ l ∈ c'.lits, Active t' l := by
    intro c' hc' l hl
    rw [h.clauses] at hc'
    unfold swept at hc'
    obtain ⟨c, hc, rfl⟩ := List.mem_map.1 hc'
    rw [List.mem_filter, Bool.and_eq_true] at hc
    obtain ⟨x, hx, rfl⟩ := List.mem_map.1 hl
    exact h.active (rest_active ht hw hc.1 hc.2.1 x hx)
  refine ⟨fun a b hb => ?_, fun a b hb => ?_, fun a b hb hf => ?_, fun c hc _ l hl => ?_, fun c hc _ _ => ?_⟩
  · rw [h.bins] at hb ⊢
    obtain ⟨x, y, h1, h2, h3, h4, h5⟩ := hb
    refine ⟨y, x, h2, h1, h4, h3, ?_⟩
    rcases h5 with h5 | ⟨c, hc, hlive, h5 | h5⟩
    · exact Or.inl (hw.sym _ _ h5)
    · exact Or.inr ⟨c, hc, hlive, Or.inr h5⟩
    · exact Or.inr ⟨c, hc, hlive, Or.inl h5⟩
  · rw [h.bins] at hb
    obtain ⟨x, y, h1, h2, rfl, h4, h5⟩ := hb
    exact ⟨(h.active h1).1, Or.inl (h.active h1).2⟩
  · rw [h.bins] at hb
    obtain ⟨x, y, h1, h2, rfl, h4, h5⟩ := hb
    rw [(h.active h1).fixed ht'] at hf
    omega
  · exact ⟨(hact c hc l hl).1, Or.inl (hact c hc l hl).2⟩
  · have hrest : rest t' c.lits = c.lits := by
      unfold rest
      rw [List.filter_eq_self]
      intro l hl
      rw [(hact c hc l hl).fixed ht']; simp
    rw [hrest]
    rw [h.clauses] at hc
    unfold swept at hc
    obtain ⟨d, hd, rfl⟩ := List.mem_map.1 hc
    rw [List.mem_filter, Bool.and_eq_true] at hd
    have := hd.2.2
    simp only [List.length_map]
    have : 2 < (rest t d.lits).length := by simpa using this
    omega

end Verif.Compact
