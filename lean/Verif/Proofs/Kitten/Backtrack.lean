import Verif.Proofs.Kitten.Propagate

/-! # Backtracking of kitten -/

namespace Verif.Kitten

open Verif.Spec
open Verif.Core (upd)

theorem clearValues_get (ls : List Nat) : ∀ (v : Nat → Int) (m : Nat),
    clearValues v ls m = if m ∈ ls ∨ neg m ∈ ls then 0 else v m := by
  induction ls with
  | nil => intro v m; simp [clearValues]
  | cons l ls ih =>
    intro v m
    show clearValues (upd (upd v l 0) (neg l) 0) ls m = _
    rw [ih]
    by_cases h : m ∈ ls ∨ neg m ∈ ls
    · rw [if_pos h, if_pos (by rcases h with h | h <;> simp [h])]
    · rw [if_neg h]
      by_cases h1 : m = l
      · rw [if_pos (by simp [h1])]
        unfold upd; split
        · rfl
        · simp [h1]
      · by_cases h2 : neg m = l
        · rw [if_pos (by simp [h2])]
          unfold upd
          rw [if_pos (by rw [← h2, Spec.neg_neg])]
        · rw [if_neg (by simp only [List.mem_cons]; rintro ((h' | h') | (h' | h')) <;> simp_all)]
          unfold upd
          rw [if_neg (by intro hc; exact h2 (by rw [hc, Spec.neg_neg])), if_neg h1]

theorem freeCount_clear {n : Nat} : ∀ (ls : List Nat) (v : Nat → Int), ls.Nodup → (∀ l ∈ ls, l / 2 < n ∧ v (2 * (l / 2)) ≠ 0) →
    (∀ l ∈ ls, neg l ∉ ls) → freeCount (clearValues v ls) n = freeCount v n + ls.length := by
  intro ls
  induction ls with
  | nil => intro v _ _ _; rfl
  | cons l ls ih =>
    intro v hn hv ha
    have hn := List.nodup_cons.1 hn
    show freeCount (clearValues (upd (upd v l 0) (neg l) 0) ls) n = _
    have hdiff : ∀ m ∈ ls, m / 2 ≠ l / 2 := by
      intro m hm hc
      rcases eq_or_eq_neg hc with e | e
      · exact hn.1 (e ▸ hm)
      · exact ha l (by simp) (by rw [← e]; simp [hm])
    have hother : ∀ x, x / 2 ≠ l / 2 → upd (upd v l 0) (neg l) 0 x = v x := by
      intro x hx
      rw [upd_other _ _ (by rintro rfl; exact hx (neg_div _)), upd_other _ _ (by rintro rfl; exact hx rfl)]
    rw [ih _ hn.2 (fun m hm => ?_) (fun m hm hc => ha m (by simp [hm]) (by simp [hc]))]
    · have := freeCount_change (v := upd (upd v l 0) (neg l) 0) (v' := v) (hv l (by simp)).1 (by
        rcases eq_or_eq_neg (show 2 * (l / 2) / 2 = l / 2 by omega) with e | e
        · rw [e]; unfold upd; split <;> simp
        · rw [e]; unfold upd; simp) (hv l (by simp)).2 (fun x hx => by rw [hother _ (by omega)])
      rw [this]
      simp only [List.length_cons]
      omega
    · refine ⟨(hv m (by simp [hm])).1, ?_⟩
      rw [hother _ (by have := hdiff m hm; omega)]
      exact (hv m (by simp [hm])).2

/-- Part of the trail is undone. -/
structure Undo (k k' : Kitten) (jump : Nat) (t1 t2 : List Nat) : Prop where
  lower : jump < k.level
  trail : k.trail = t1 ++ t2
  low : ∀ l ∈ t1, k.lev l ≤ jump
  high : ∀ l ∈ t2, jump < k.lev l
  popped : ∃ ls, ls.Perm t2 ∧ k' = { k with
    values := clearValues k.values ls, unassigned := k.unassigned + t2.length, trail := t1, propagated := t1.length, level := jump }

section

variable {k k' : Kitten} {jump : Nat} {t1 t2 : List Nat}

theorem Undo.values (h : Undo k k' jump t1 t2) (m : Nat) :
    k'.values m = if m ∈ t2 ∨ neg m ∈ t2 then 0 else k.values m := by
  obtain ⟨ls, hp, he⟩ := h.popped
  rw [he]
  show clearValues k.values ls m = _
  rw [clearValues_get]
  simp only [hp.mem_iff]

theorem Undo.lev (h : Undo k k' jump t1 t2) (m : Nat) : k'.lev m = k.lev m := by
  obtain ⟨ls, hp, he⟩ := h.popped
  rw [he]; rfl

theorem Undo.why (h : Undo k k' jump t1 t2) (m : Nat) : k'.why m = k.why m := by
  obtain ⟨ls, hp, he⟩ := h.popped
  rw [he]; rfl

theorem Undo.trail' (h : Undo k k' jump t1 t2) : k'.trail = t1 := by
  obtain ⟨ls, hp, he⟩ := h.popped
  rw [he]

theorem Undo.level (h : Undo k k' jump t1 t2) : k'.level = jump := by
  obtain ⟨ls, hp, he⟩ := h.popped
  rw [he]

theorem Undo.klauses (h : Undo k k' jump t1 t2) : k'.klauses = k.klauses := by
  obtain ⟨ls, hp, he⟩ := h.popped
  rw [he]

theorem Undo.propagated (h : Undo k k' jump t1 t2) : k'.propagated = k'.trail.length := by
  obtain ⟨ls, hp, he⟩ := h.popped
  rw [he]

/-- Literals of low level keep their value. -/
theorem Undo.keep (h : Undo k k' jump t1 t2) {m : Nat} (hm : k.lev m ≤ jump) : k'.values m = k.values m := by
  rw [h.values, if_neg]
  rintro (hc | hc)
  · have := h.high _ hc; omega
  · have := h.high _ hc; rw [lev_neg] at this; omega

/-- Literals of higher level lose it. -/
theorem Undo.lose (h : Undo k k' jump t1 t2) (hv : Vals k) {m : Nat} (hm : jump < k.lev m) : k'.values m = 0 := by
  rw [h.values]
  by_cases hc : m ∈ t2 ∨ neg m ∈ t2
  · rw [if_pos hc]
  · rw [if_neg hc]
    have key : ∀ x, k.values x = 1 → jump < k.lev x → x ∈ t2 := by
      intro x hx hl
      have : x ∈ k.trail := by
        apply Classical.byContradiction
        intro hn
        have := hv.flushed x hx hn
        omega
      rw [h.trail] at this
      rcases List.mem_append.1 this with e | e
      · have := h.low x e; omega
      · exact e
    rcases hv.dom m with e | e | e
    · exact absurd (Or.inl (key m e hm)) hc
    · exact e
    · exact absurd (Or.inr (key (neg m) (hv.neg_true.2 e) (by rw [lev_neg]; exact hm))) hc

theorem Undo.old (h : Undo k k' jump t1 t2) (hv : Vals k) {m : Nat} {x : Int} (hx : x ≠ 0) (hm : k'.values m = x) :
    k.values m = x ∧ k.lev m ≤ jump := by
  by_cases hl : k.lev m ≤ jump
  · rw [h.keep hl] at hm; exact ⟨hm, hl⟩
  · have := h.lose hv (m := m) (by omega)
    omega

theorem Undo.vals (h : Undo k k' jump t1 t2) (hv : Vals k) : Vals k' := by
  have hnd := hv.nodup
  rw [h.trail] at hnd
  have hsub : ∀ l ∈ t1, l ∈ k.trail := fun l hl => by rw [h.trail]; simp [hl]
  have hsub2 : ∀ l ∈ t2, l ∈ k.trail := fun l hl => by rw [h.trail]; simp [hl]
  have hjl := h.lower
  have heq : k'.trail = t1 ∧ k'.level = jump ∧ k'.propagated = t1.length := by
    obtain ⟨ls, hp, he⟩ := h.popped
    rw [he]; exact ⟨rfl, rfl, rfl⟩
  constructor
  · intro l; rw [h.values]; split
    · exact Or.inr (Or.inl rfl)
    · exact hv.dom l
  · intro l
    rw [h.values, h.values l, Spec.neg_neg]
    by_cases hc : l ∈ t2 ∨ neg l ∈ t2
    · rw [if_pos hc, if_pos hc.symm]; rfl
    · rw [if_neg hc, if_neg (fun h => hc h.symm)]; exact hv.anti l
  · intro l hl
    have : k.values l ≠ 0 := by
      rw [h.values] at hl
      split at hl
      · exact absurd rfl hl
      · exact hl
    have hn : k'.n = k.n := by
      obtain ⟨ls, hp, he⟩ := h.popped
      rw [he]
    rw [hn]
    exact hv.valid l this
  · obtain ⟨ls, hp, he⟩ := h.popped
    rw [he]
    show k.unassigned + t2.length = freeCount (clearValues k.values ls) k.n
    rw [freeCount_clear ls k.values (hp.nodup_iff.2 (List.nodup_append.1 hnd).2.1), hv.count, hp.length_eq]
    · intro l hl
      have h1 := hv.tval l (hsub2 l (hp.mem_iff.1 hl))
      exact ⟨hv.valid l (by omega), fun hc => by have := (hv.even_zero l).1 hc; omega⟩
    · intro l hl hc
      have h1 := hv.tval l (hsub2 l (hp.mem_iff.1 hl))
      have h2 := hv.tval _ (hsub2 _ (hp.mem_iff.1 hc))
      rw [hv.anti] at h2; omega
  · rw [heq.1]; exact (List.nodup_append.1 hnd).1
  · intro l hl
    rw [heq.1] at hl
    rw [h.keep (h.low l hl)]
    exact hv.tval l (hsub l hl)
  · intro l hl hn
    rw [heq.1] at hn
    rw [h.lev]
    obtain ⟨g1, g2⟩ := h.old hv (by omega) hl
    refine hv.flushed l g1 fun hc => ?_
    rw [h.trail] at hc
    rcases List.mem_append.1 hc with e | e
    · exact hn e
    · have := h.high l e; omega
  · intro l hl
    rw [h.lev, heq.2.1]
    exact (h.old hv (by omega) hl).2
  · rw [heq.1]
    have := hv.sorted
    rw [h.trail] at this
    refine List.Pairwise.imp (fun hab => ?_) (List.pairwise_append.1 this).1
    rw [h.lev, h.lev]; exact hab
  · intro hp l hl
    rw [heq.1] at hl
    rw [h.lev]
    exact hv.high (by omega) l (hsub l hl)
  · intro l hl
    rw [heq.1, heq.2.2] at hl
    simp at hl

theorem Undo.base (h : Undo k k' jump t1 t2) (hb : Base k) : Base k' := by
  have hv := hb.vals
  refine ⟨h.vals hv, ⟨?_, ?_, ?_, ?_⟩, ?_⟩
  · intro l hl h0
    rw [h.lev] at h0
    rw [h.why, h.klauses]
    exact hb.why.root l (h.old hv (by omega) hl).1 h0
  · intro l hl hn hle
    have ha : k'.assumptions = k.assumptions := by
      obtain ⟨ls, hp, he⟩ := h.popped
      rw [he]
    rw [ha] at hle ⊢
    rw [h.lev] at hle
    rw [h.why] at hn
    exact hb.why.decision l (h.old hv (by omega) hl).1 hn hle
  · intro a l b ht hn m hm
    rw [h.trail'] at ht
    rw [h.why] at hn
    rw [h.lev, h.lev]
    exact hb.why.first a l (b ++ t2) (by rw [h.trail, ht]; simp) hn m hm
  · intro a l b r ht hp hr
    rw [h.trail'] at ht
    rw [h.lev] at hp
    rw [h.why] at hr
    rw [h.klauses]
    obtain ⟨kl, g1, g2, g3⟩ := hb.why.reason a l (b ++ t2) r (by rw [h.trail, ht]; simp) hp hr
    refine ⟨kl, g1, g2, fun m hm hne => ?_⟩
    obtain ⟨q1, q2⟩ := g3 m hm hne
    rw [h.lev]
    refine ⟨?_, q2⟩
    rw [h.keep, q1]
    rcases q2 with q2 | q2
    · omega
    · rw [← lev_neg]
      exact h.low _ (by rw [ht]; simp [q2])
  · obtain ⟨ls, hp, he⟩ := h.popped
    rw [he]
    exact ⟨hb.store.valid, hb.store.distinct, hb.store.learned, hb.store.flag, hb.store.empty, hb.store.units,
      hb.store.unit, hb.store.inconsistent⟩

theorem Undo.inv (h : Undo k k' jump t1 t2) (hb : Inv k) : Inv k' := by
  refine ⟨h.base hb.toBase, ?_⟩
  obtain ⟨ls, hp, he⟩ := h.popped
  rw [he]
  exact ⟨hb.watch.watched, hb.watch.back, hb.watch.once⟩

theorem Undo.allSemi (h : Undo k k' jump t1 t2) (hv : Vals k) (hb : AllBelow k) : AllSemi k' k'.propagated := by
  intro r kl hr h2
  rw [h.klauses] at hr
  obtain ⟨w, hw, hs⟩ := hb r kl hr h2
  refine ⟨w, hw, fun h1 _ => ?_⟩
  obtain ⟨g1, g2⟩ := h.old hv (by omega) h1
  have := h.lower
  obtain ⟨t, ht, q1, q2⟩ := hs g1 (by omega)
  exact ⟨t, ht, by rw [h.keep (by omega)]; exact q1, by rw [h.lev, h.lev]; exact q2⟩

end

/-- What search leaves alone. -/
abbrev Keeps (k k' : Kitten) : Prop := Frame { k with level := k'.level } k'

theorem Frame.keeps {k k' : Kitten} (h : Frame k k') : Keeps k k' :=
  ⟨rfl, h.2, h.3, h.4, h.5, h.6, h.7, h.8, h.9, h.10, h.11⟩

theorem Keeps.trans {a b c : Kitten} (h : Keeps a b) (h' : Keeps b c) : Keeps a c :=
  ⟨rfl, h'.2.trans h.2, h'.3.trans h.3, h'.4.trans h.4, h'.5.trans h.5, h'.6.trans h.6,
    h'.7.trans h.7, h'.8.trans h.8, h'.9.trans h.9, h'.10.trans h.10, h.11.trans h'.11⟩

theorem Undo.keeps {k k' : Kitten} {jump : Nat} {t1 t2 : List Nat} (h : Undo k k' jump t1 t2) : Keeps k k' := by
  obtain ⟨ls, hp, he⟩ := h.popped
  rw [he]
  exact ⟨rfl, rfl, rfl, rfl, rfl, rfl, rfl, rfl, rfl, rfl, .refl _⟩

theorem sorted_split {k : Kitten} {jump : Nat} (ls : List Nat) :
    ls.Pairwise (fun a b => k.lev b ≤ k.lev a) → (∀ l ∈ ls, jump < k.lev l) ∨ (∃ l ∈ ls, k.lev l = jump) →
    (∀ l ∈ ls.takeWhile (fun l => decide (k.lev l ≠ jump)), jump < k.lev l) ∧
    (∀ l ∈ ls.dropWhile (fun l => decide (k.lev l ≠ jump)), k.lev l ≤ jump) := by
  induction ls with
  | nil => intro _ _; simp
  | cons a ls ih =>
    intro hs hc
    have hs' := List.pairwise_cons.1 hs
    by_cases ha : k.lev a = jump
    · simp [ha]
      exact fun l hl => by have := hs'.1 l hl; omega
    · have hgt : jump < k.lev a := by
        rcases hc with hc | ⟨l, hl, e⟩
        · exact hc a (by simp)
        · rcases List.mem_cons.1 hl with rfl | hl
          · exact absurd e ha
          · have := hs'.1 l hl; omega
      obtain ⟨h1, h2⟩ := ih hs'.2 (by
        rcases hc with hc | ⟨l, hl, e⟩
        · exact Or.inl fun l hl => hc l (by simp [hl])
        · rcases List.mem_cons.1 hl with rfl | hl
          · exact absurd e ha
          · exact Or.inr ⟨l, hl, e⟩)
      have hd : decide (k.lev a ≠ jump) = true := by simp [ha]
      rw [List.takeWhile_cons, List.dropWhile_cons, if_pos hd, if_pos hd]
      refine ⟨fun l hl => ?_, h2⟩
      rcases List.mem_cons.1 hl with rfl | hl
      · exact hgt
      · exact h1 l hl

/-- Backtracking to a level with an assigned literal, or to the root level. -/
theorem backtrack_ok {k : Kitten} {jump : Nat} (hv : Vals k) (hj : jump < k.level)
    (h : jump = 0 ∨ ∃ l ∈ k.trail, k.lev l = jump) :
    ∃ k' t1 t2, k.backtrack jump = some k' ∧ Undo k k' jump t1 t2 := by
  unfold Kitten.backtrack
  rw [if_neg (by omega)]
  obtain ⟨h1, h2⟩ := sorted_split (k := k) (jump := jump) k.trail.reverse (List.pairwise_reverse.2 hv.sorted) (by
    rcases h with h | ⟨l, hl, e⟩
    · left
      intro l hl
      rw [h]
      exact hv.high (by omega) l (List.mem_reverse.1 hl)
    · exact Or.inr ⟨l, List.mem_reverse.2 hl, e⟩)
  refine ⟨_, (k.trail.reverse.dropWhile (fun l => decide (k.lev l ≠ jump))).reverse,
    (k.trail.reverse.takeWhile (fun l => decide (k.lev l ≠ jump))).reverse, rfl, hj, ?_, ?_, ?_, ?_⟩
  · rw [← List.reverse_append, List.takeWhile_append_dropWhile, List.reverse_reverse]
  · intro l hl; exact h2 l (List.mem_reverse.1 hl)
  · intro l hl; exact h1 l (List.mem_reverse.1 hl)
  · exact ⟨k.trail.reverse.takeWhile (fun l => decide (k.lev l ≠ jump)), (List.reverse_perm _).symm, by simp⟩

/-- Complete backtracking. -/
theorem restart_undo {k : Kitten} (hv : Vals k) (hj : 0 < k.level) : Undo k k.restart 0 [] k.trail :=
  ⟨hj, rfl, by simp, fun l hl => hv.high hj l hl, k.trail, .refl _, rfl⟩

end Verif.Kitten
