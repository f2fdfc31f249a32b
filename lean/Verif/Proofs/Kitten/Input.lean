import Verif.Proofs.Kitten.Api

/-! # New clauses and assumptions of kitten -/

namespace Verif.Kitten

open Verif.Spec
open Verif.Core (upd)

/-- The internal literal of a known external literal. -/
def Kitten.inner (k : Kitten) (e : Nat) : Nat := 2 * (k.imports (e / 2) - 1) + e % 2

theorem inner_div (k : Kitten) (e : Nat) : k.inner e / 2 = k.imports (e / 2) - 1 := by
  unfold Kitten.inner; omega

/-- A new variable. -/
def Kitten.grow (k : Kitten) (v : Nat) : Kitten :=
  { k with
    exports := k.exports ++ [v]
    imports := upd k.imports v (k.exports.length + 1)
    unassigned := k.unassigned + 1 }

theorem importLit_old {k : Kitten} {e : Nat} (h : k.imports (e / 2) ≠ 0) : k.importLit e = (k, k.inner e) := by
  unfold Kitten.importLit
  simp only
  rw [if_neg h]
  rfl

theorem importLit_new {k : Kitten} {e : Nat} (h : k.imports (e / 2) = 0) :
    k.importLit e = (k.grow (e / 2), (k.grow (e / 2)).inner e) := by
  unfold Kitten.importLit
  simp only
  rw [if_pos h]
  unfold Kitten.grow Kitten.inner
  simp [upd]

theorem calm_grow (k : Kitten) (v : Nat) : (k.grow v).calm = k.calm.grow v := by
  unfold Kitten.calm Kitten.root
  by_cases hl : k.level ≠ 0
  · rw [if_pos hl, if_pos (show (k.grow v).level ≠ 0 from hl)]
    unfold Kitten.restart Kitten.grow
    simp only
    congr 1
    omega
  · rw [if_neg hl, if_neg (show ¬ (k.grow v).level ≠ 0 from hl)]
    rfl

theorem grow_n (k : Kitten) (v : Nat) : (k.grow v).n = k.n + 1 := by
  show (k.exports ++ [v]).length = k.exports.length + 1
  simp

theorem grow_inv {k : Kitten} (h : Inv k) (v : Nat) : Inv (k.grow v) := by
  have hn := grow_n k v
  refine ⟨⟨⟨h.vals.dom, h.vals.anti, ?_, ?_, h.vals.nodup, h.vals.tval, h.vals.flushed,
      h.vals.levle, h.vals.sorted, h.vals.high, h.vals.pending⟩, ⟨h.why.root, h.why.decision, h.why.first, h.why.reason⟩,
      ⟨?_, h.store.distinct, h.store.learned, h.store.flag, h.store.empty, h.store.units, h.store.unit,
        h.store.inconsistent⟩⟩, ⟨h.watch.watched, h.watch.back, h.watch.once⟩⟩
  · intro l hl
    rw [hn]
    have := h.vals.valid l hl
    omega
  · rw [hn]
    show k.unassigned + 1 = freeCount k.values (k.n + 1)
    rw [h.vals.count]
    unfold freeCount
    rw [List.range_succ, List.countP_append]
    congr 1
    have : k.values (2 * k.n) = 0 := by
      apply Classical.byContradiction
      intro hc
      have := h.vals.valid _ hc
      omega
    simp [this]
  · intro kl hk l hl
    rw [hn]
    have := h.store.valid kl hk l hl
    omega

/-- Variables are only added. -/
structure Extends (k k' : Kitten) : Prop where
  old : ∀ v, k.imports v ≠ 0 → k'.imports v = k.imports v
  new : ∀ l, k.n ≤ l / 2 → k'.values l = k.values l
  klauses : k'.klauses = k.klauses
  values : k'.values = k.values
  vars : k'.vars = k.vars
  status : k'.status = k.status
  assumptions : k'.assumptions = k.assumptions
  inconsistent : k'.inconsistent = k.inconsistent
  antecedents : k'.antecedents = k.antecedents
  level : k'.level = k.level
  trail : k'.trail = k.trail
  exports : ∃ t, k'.exports = k.exports ++ t

theorem Extends.refl (k : Kitten) : Extends k k :=
  ⟨fun _ _ => rfl, fun _ _ => rfl, rfl, rfl, rfl, rfl, rfl, rfl, rfl, rfl, rfl, [], by simp⟩

theorem Extends.trans {a b c : Kitten} (h : Extends a b) (h' : Extends b c) : Extends a c := by
  obtain ⟨t, ht⟩ := h.exports
  obtain ⟨t', ht'⟩ := h'.exports
  exact ⟨fun v hv => by have h1 := h.old v hv; rw [h'.old v (by omega), h1], fun l _ => by rw [h'.values, h.values],
    h'.3.trans h.3, h'.4.trans h.4, h'.5.trans h.5, h'.6.trans h.6, h'.7.trans h.7, h'.8.trans h.8, h'.9.trans h.9,
    h'.10.trans h.10, h'.11.trans h.11, t ++ t', by rw [ht', ht, List.append_assoc]⟩

theorem Extends.inner {k k' : Kitten} (h : Extends k k') {e : Nat} (he : k.imports (e / 2) ≠ 0) : k'.inner e = k.inner e := by
  unfold Kitten.inner
  rw [h.old _ he]

theorem grow_extends {k : Kitten} {v : Nat} (h : k.imports v = 0) : Extends k (k.grow v) :=
  ⟨fun w hw => by
    show upd k.imports v _ w = _
    unfold upd
    split
    · rename_i e; rw [e] at hw; exact absurd h hw
    · rfl, fun _ _ => rfl, rfl, rfl, rfl, rfl, rfl, rfl, rfl, rfl, rfl, [v], rfl⟩

theorem grow_names {k : Kitten} {v : Nat} (h : Names k) (hv : k.imports v = 0) : Names (k.grow v) := by
  intro w i
  show (k.exports ++ [v])[i]? = some w ↔ upd k.imports v (k.exports.length + 1) w = i + 1
  constructor
  · intro hi
    rcases getElem?_concat hi with hi | ⟨rfl, rfl⟩
    · have := (h w i).1 hi
      unfold upd
      split
      · rename_i e; rw [e] at this; omega
      · exact this
    · exact upd_self _ _ _
  · intro hi
    unfold upd at hi
    split at hi
    · rename_i e
      have : i = k.exports.length := by omega
      rw [this, e]; simp
    · exact getElem?_concat_old ((h w i).2 hi)

theorem grow_good {k : Kitten} {v : Nat} (h : Good k) (hv : k.imports v = 0) : Good (k.grow v) := by
  refine ⟨?_, ?_, ?_, h.failed, h.failing, h.idle, h.core, grow_names h.names hv⟩
  · rw [calm_grow]; exact grow_inv h.inv v
  · intro a ha
    rw [grow_n]
    have := h.valid a ha
    omega
  · intro hi
    rw [calm_grow]
    exact h.semi hi

theorem import_ok {k : Kitten} (h : Good k) (e : Nat) : ∃ k', k.importLit e = (k', k'.inner e) ∧ Good k' ∧ Extends k k' ∧
    k'.imports (e / 2) ≠ 0 ∧ k'.inner e / 2 < k'.n := by
  by_cases he : k.imports (e / 2) = 0
  · refine ⟨_, importLit_new he, grow_good h he, grow_extends he, ?_, ?_⟩
    · show upd k.imports (e / 2) _ (e / 2) ≠ 0
      rw [upd_self]; omega
    · rw [inner_div, grow_n]
      show upd k.imports (e / 2) (k.exports.length + 1) (e / 2) - 1 < k.exports.length + 1
      rw [upd_self]; omega
  · refine ⟨k, importLit_old he, h, .refl k, he, ?_⟩
    rw [inner_div]
    have := (h.names (e / 2) (k.imports (e / 2) - 1)).2 (by omega)
    exact lt_of_get this

theorem Extends.n_le {k k' : Kitten} (h : Extends k k') : k.n ≤ k'.n := by
  obtain ⟨t, ht⟩ := h.exports
  show k.exports.length ≤ k'.exports.length
  rw [ht]; simp

theorem importAll_ok : ∀ (es lits : List Nat) (k k' : Kitten) (out : List Nat), Kitten.importAll es lits k = some (k', out) →
    Good k → (∀ l ∈ lits, l / 2 < k.n) → (lits.map (· / 2)).Nodup →
    Good k' ∧ Extends k k' ∧ out = lits ++ es.map k'.inner ∧ (∀ e ∈ es, k'.imports (e / 2) ≠ 0) ∧
      (∀ l ∈ out, l / 2 < k'.n) ∧ (out.map (· / 2)).Nodup := by
  intro es
  induction es with
  | nil =>
    intro lits k k' out h hg hv hd
    unfold Kitten.importAll at h
    cases h
    exact ⟨hg, .refl _, by simp, by simp, hv, hd⟩
  | cons e es ih =>
    intro lits k k' out h hg hv hd
    obtain ⟨k1, e1, g1, x1, i1, v1⟩ := import_ok hg e
    unfold Kitten.importAll at h
    rw [e1] at h
    simp only at h
    by_cases hc : k1.inner e / 2 ∈ lits.map (· / 2)
    · rw [if_pos hc] at h; cases h
    · rw [if_neg hc] at h
      obtain ⟨q1, q2, q3, q4, q5, q6⟩ := ih _ _ _ _ h g1 (fun l hl => by
        rcases List.mem_append.1 hl with hl | hl
        · exact Nat.lt_of_lt_of_le (hv l hl) x1.n_le
        · rw [show l = k1.inner e by simpa using hl]; exact v1) (by
        rw [List.map_append]
        refine List.nodup_append.2 ⟨hd, by simp, fun x hx y hy hxy => hc ?_⟩
        have : y = k1.inner e / 2 := by simpa using hy
        rw [← this, ← hxy]; exact hx)
      refine ⟨q1, x1.trans q2, ?_, ?_, q5, q6⟩
      · rw [q3, List.map_cons, q2.inner i1]; simp
      · intro x hx
        rcases List.mem_cons.1 hx with rfl | hx
        · rw [q2.old _ i1]; exact i1
        · exact q4 x hx

theorem calm_add (k : Kitten) (c : Klause) : (k.add c).calm = k.calm.add c := by
  have hl : (k.add c).level = k.level := add_level k c
  unfold Kitten.calm Kitten.root
  rw [hl]
  by_cases h0 : k.level ≠ 0
  · rw [if_pos h0, if_pos h0]
    unfold Kitten.add Kitten.connect Kitten.restart
    cases hc : c.lits with
    | nil => by_cases hi : k.inconsistent = none <;> simp [hi]
    | cons a as =>
      cases as with
      | nil => rfl
      | cons b rest => rfl
  · rw [if_neg h0, if_neg h0]
    unfold Kitten.add Kitten.connect
    cases hc : c.lits with
    | nil => by_cases hi : k.inconsistent = none <;> simp [hi]
    | cons a as =>
      cases as with
      | nil => rfl
      | cons b rest => rfl

theorem Vals.congr {k k' : Kitten} (h : Vals k) (h1 : k'.values = k.values) (h2 : k'.vars = k.vars) (h3 : k'.trail = k.trail)
    (h4 : k'.level = k.level) (h5 : k'.propagated = k.propagated) (h6 : k'.unassigned = k.unassigned)
    (h7 : k'.exports = k.exports) : Vals k' := by
  have hlev : ∀ l, k'.lev l = k.lev l := fun l => by unfold Kitten.lev; rw [h2]
  have hn : k'.n = k.n := by show k'.exports.length = k.exports.length; rw [h7]
  constructor
  · rw [h1]; exact h.dom
  · rw [h1]; exact h.anti
  · rw [h1, hn]; exact h.valid
  · rw [h1, hn, h6]; exact h.count
  · rw [h3]; exact h.nodup
  · rw [h3, h1]; exact h.tval
  · intro l; rw [h3, h1, hlev]; exact h.flushed l
  · intro l; rw [h1, hlev, h4]; exact h.levle l
  · rw [h3]; exact h.sorted.imp fun {x y} hxy => by rw [hlev, hlev]; exact hxy
  · rw [h4, h3]; intro h0 l; rw [hlev]; exact h.high h0 l
  · rw [h4, h3, h5]; intro l; rw [hlev]; exact h.pending l

/-- A new original clause. -/
theorem add_inv {k : Kitten} {c : Klause} (h : Inv k) (hc : c.learned = false) (hv : ∀ l ∈ c.lits, l / 2 < k.n)
    (hd : (c.lits.map (· / 2)).Nodup) : Inv (k.add c) := by
  have hlev : ∀ l, (k.add c).lev l = k.lev l := fun l => by unfold Kitten.lev; rw [add_vars]
  have hwhy : ∀ l, (k.add c).why l = k.why l := fun l => by unfold Kitten.why; rw [add_vars]
  refine ⟨⟨h.vals.congr (add_values _ _) (add_vars _ _) (add_trail _ _) (add_level _ _) (add_propagated _ _)
    (add_unassigned _ _) (add_exports _ _), ⟨?_, ?_, ?_, ?_⟩, h.store.add hv hd fun h' => (by rw [hc] at h'; cases h')⟩,
    h.watch.add hd⟩
  · intro l
    rw [add_values, hlev, hwhy, add_klauses]
    intro h1 h2
    obtain ⟨r, kl, q1, q2, q3⟩ := h.why.root l h1 h2
    exact ⟨r, kl, q1, getElem?_concat_old q2, q3⟩
  · intro l
    rw [add_values, hwhy, hlev, add_assumptions]
    exact h.why.decision l
  · intro a l b
    rw [add_trail, hwhy]
    intro e h1 m hm
    rw [hlev, hlev]
    exact h.why.first a l b e h1 m hm
  · intro a l b r
    rw [add_trail, hwhy, hlev, add_klauses]
    intro e h1 h2
    obtain ⟨kl, q1, q2, q3⟩ := h.why.reason a l b r e h1 h2
    refine ⟨kl, getElem?_concat_old q1, q2, fun m hm hne => ?_⟩
    rw [add_values, hlev]
    exact q3 m hm hne

/-- The first two literals of a new clause are not both false on root level. -/
def Watchable (k : Kitten) (lits : List Nat) : Prop :=
  2 ≤ lits.length → ∃ w, IsWatch lits w ∧ ¬ (k.calm.values w = -1)

theorem add_inconsistent (k : Kitten) (c : Klause) (h : (k.add c).inconsistent = none) : k.inconsistent = none ∧ c.lits ≠ [] := by
  unfold Kitten.add Kitten.connect at h
  cases hc : c.lits with
  | nil =>
    rw [hc] at h
    simp only at h
    by_cases hi : k.inconsistent = none
    · rw [if_pos hi] at h; cases h
    · rw [if_neg hi] at h; exact absurd h hi
  | cons a as =>
    rw [hc] at h
    refine ⟨?_, by simp⟩
    cases as with
    | nil => exact h
    | cons b rest => exact h

theorem add_good {k : Kitten} {c : Klause} (h : Good k) (hs : k.status = 0) (hc : c.learned = false) (hf : c.core = false)
    (hv : ∀ l ∈ c.lits, l / 2 < k.n) (hd : (c.lits.map (· / 2)).Nodup) (hw : Watchable k c.lits) : Good (k.add c) := by
  have hn : (k.add c).n = k.n := by show (k.add c).exports.length = _; rw [add_exports]
  have hcn : k.calm.n = k.n := by
    show k.root.exports.length = k.exports.length
    rw [(root_same k).2.1]
  refine ⟨?_, ?_, ?_, ?_, ?_, ?_, ?_, ?_⟩
  · rw [calm_add]
    exact add_inv h.inv hc (by rw [hcn]; exact hv) hd
  · rw [add_assumptions, hn]; exact h.valid
  · intro hi
    obtain ⟨hi, hne⟩ := add_inconsistent k c hi
    obtain ⟨g1, g2, g3⟩ := h.semi hi
    rw [calm_add]
    refine ⟨?_, (add_trail _ _).trans g2, (add_propagated _ _).trans g3⟩
    intro r kl hr h2
    rw [add_klauses] at hr
    rcases getElem?_concat hr with hr | ⟨_, rfl⟩
    · obtain ⟨w, q1, q2⟩ := g1 r kl hr h2
      refine ⟨w, q1, ?_⟩
      rw [add_values, add_trail]
      unfold Kitten.lev
      rw [add_vars]
      exact q2
    · obtain ⟨w, q1, q2⟩ := hw h2
      exact ⟨w, q1, fun hc' => absurd hc' (by rw [add_values]; exact q2)⟩
  · rw [add_failed, add_assumptions]; exact h.failed
  · rw [add_failing, add_assumptions]; exact h.failing
  · rw [add_failed, add_failing]; exact fun _ => h.idle (Or.inl hs)
  · rw [add_status, add_core, add_klauses]
    intro h'
    obtain ⟨g1, g2⟩ := h.core h'
    refine ⟨g1, fun kl hk => ?_⟩
    rcases List.mem_append.1 hk with hk | hk
    · exact g2 kl hk
    · rw [show kl = c by simpa using hk]; exact hf
  · exact h.names.congr (add_exports _ _) (add_imports _ _)

end Verif.Kitten
