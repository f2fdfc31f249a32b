import Verif.Proofs.Kitten.Core

/-! # Shuffling clauses and flipping literals -/

namespace Verif.Kitten

open Verif.Spec
open Verif.Core (upd)

/-! ## Shuffling -/

theorem swapAt_perm {α : Type} (a : List α) (i j : Nat) : (swapAt a i j).Perm a := by
  unfold swapAt
  split
  · rename_i x y hx hy
    obtain ⟨hi, rfl⟩ := List.getElem?_eq_some_iff.1 hx
    obtain ⟨hj, rfl⟩ := List.getElem?_eq_some_iff.1 hy
    exact List.set_set_perm hi hj
  · exact .refl _

theorem shuffleList_perm {α : Type} (pick : Nat → Nat) (a : List α) : (shuffleList pick a).Perm a := by
  unfold shuffleList
  have key : ∀ (is : List Nat) (b : List α), b.Perm a →
      (is.foldl (fun a i => swapAt a i (pick i % (i + 1))) b).Perm a := by
    intro is
    induction is with
    | nil => intro b hb; exact hb
    | cons i is ih => intro b hb; exact ih _ ((swapAt_perm b i _).trans hb)
  exact key _ a (.refl _)

theorem calm_same (k : Kitten) : k.calm.klauses = k.klauses ∧ k.calm.watches = k.watches ∧ k.calm.units = k.units ∧
    k.calm.inconsistent = k.inconsistent := by
  obtain ⟨r1, r2, r3, r4, r5, r6, r7, r8, r9, r10, r11, r12, r13, r14⟩ := root_same k
  exact ⟨r1, r14, r13, r4⟩

theorem shuffle_good {k k' : Kitten} {pick : Nat → Nat → Nat} {pickUnit : Nat → Nat} (hg : Good k)
    (he : k.shuffle pick pickUnit = some k') : Good k' := by
  unfold Kitten.shuffle at he
  by_cases h0 : k.status ≠ 0
  · rw [if_pos h0] at he; cases he
  rw [if_neg h0] at he
  cases he
  have hi := hg.inv
  obtain ⟨c1, c2, c3, c4⟩ := calm_same k
  have hc : ({ k with watches := fun l => shuffleList (pick l) (k.watches l), units := shuffleList pickUnit k.units } : Kitten).calm =
      { k.calm with watches := fun l => shuffleList (pick l) (k.watches l), units := shuffleList pickUnit k.units } := by
    unfold Kitten.calm Kitten.root
    by_cases h : k.level ≠ 0
    · rw [if_pos h, if_pos (show ({ k with watches := fun l => shuffleList (pick l) (k.watches l), units := shuffleList pickUnit k.units } : Kitten).level ≠ 0 from h)]; rfl
    · rw [if_neg h, if_neg (show ¬ ({ k with watches := fun l => shuffleList (pick l) (k.watches l), units := shuffleList pickUnit k.units } : Kitten).level ≠ 0 from h)]
  have hw := fun l => shuffleList_perm (pick l) (k.watches l)
  have hu := shuffleList_perm pickUnit k.units
  refine ⟨?_, hg.valid, fun hn => ?_, hg.failed, hg.failing, hg.idle, hg.core, hg.names⟩
  · rw [hc]
    refine ⟨⟨⟨hi.vals.dom, hi.vals.anti, hi.vals.valid, hi.vals.count, hi.vals.nodup, hi.vals.tval, hi.vals.flushed,
      hi.vals.levle, hi.vals.sorted, hi.vals.high, hi.vals.pending⟩, ⟨hi.why.root, hi.why.decision, hi.why.first, hi.why.reason⟩,
      ⟨hi.store.valid, hi.store.distinct, hi.store.learned, hi.store.flag, hi.store.empty, fun r kl l h1 h2 => ?_, fun r hr => ?_,
        hi.store.inconsistent⟩⟩, ⟨fun r kl w h1 h2 => ?_, fun w x hx => ?_, fun w => ?_⟩⟩
    · have := hi.store.units r kl l h1 h2
      rw [c3] at this
      exact hu.mem_iff.2 this
    · have := hu.mem_iff.1 hr
      rw [← c3] at this
      exact hi.store.unit r this
    · obtain ⟨x, hx, e⟩ := hi.watch.watched r kl w h1 h2
      rw [c2] at hx
      exact ⟨x, (hw w).mem_iff.2 hx, e⟩
    · have := (hw w).mem_iff.1 hx
      rw [← c2] at this
      exact hi.watch.back w x this
    · have := hi.watch.once w
      rw [c2] at this
      exact ((hw w).map _).nodup_iff.2 this
  · rw [hc]; exact hg.semi hn

/-! ## Flipping -/

/-- Values of literals above root level are on the trail, with one of the two signs. -/
structure Flippable (k : Kitten) : Prop where
  dom : ∀ l, k.values l = 1 ∨ k.values l = 0 ∨ k.values l = -1
  anti : ∀ l, k.values (neg l) = - k.values l
  off : ∀ l, k.values l ≠ 0 → k.lev l ≠ 0 → k.level ≠ 0 ∧ (l ∈ k.trail ∨ neg l ∈ k.trail)

theorem Vals.flippable {k : Kitten} (h : Vals k) : Flippable k := by
  have key : ∀ l, k.values l = 1 → k.lev l ≠ 0 → k.level ≠ 0 ∧ l ∈ k.trail := by
    intro l h1 h2
    refine ⟨fun hc => ?_, ?_⟩
    · have := h.levle l h1
      omega
    · by_cases hm : l ∈ k.trail
      · exact hm
      · exact absurd (h.flushed l h1 hm) h2
  refine ⟨h.dom, h.anti, fun l h1 h2 => ?_⟩
  rcases h.dom l with e | e | e
  · exact ⟨(key l e h2).1, Or.inl (key l e h2).2⟩
  · exact absurd e h1
  · have := key (neg l) (by rw [h.anti]; omega) (by rw [lev_neg]; exact h2)
    exact ⟨this.1, Or.inr this.2⟩

theorem calm_values (k : Kitten) : k.calm.values = if k.level ≠ 0 then clearValues k.values k.trail else k.values := by
  unfold Kitten.calm Kitten.root
  split <;> rfl

/-- A true literal is not false at root level. -/
theorem Flippable.calm_true {k : Kitten} (h : Flippable k) {l : Nat} (hv : 0 < k.values l) : k.calm.values l ≠ -1 := by
  rw [calm_values]
  split
  · rw [clearValues_get]
    split <;> omega
  · omega

/-- The loop over the watches of the literal to be flipped. -/
structure Flipping (k0 : Kitten) (lit : Nat) (kept rest : List Katch) (k : Kitten) : Prop where
  eq : k = { k0 with klauses := k.klauses, watches := k.watches }
  evolve : Evolve k0.klauses k.klauses
  length : k.klauses.length = k0.klauses.length
  base : Base k.calm
  watch : Watches (k.calm.withList lit (kept ++ rest))
  semi : k.inconsistent = none → AllSemi k.calm 0

theorem calm_with (k : Kitten) (ks : List Klause) (ws : Nat → List Katch) :
    ({ k with klauses := ks, watches := ws } : Kitten).calm = { k.calm with klauses := ks, watches := ws } := by
  unfold Kitten.calm Kitten.root
  by_cases h : k.level ≠ 0
  · rw [if_pos h, if_pos (show ({ k with klauses := ks, watches := ws } : Kitten).level ≠ 0 from h)]; rfl
  · rw [if_neg h, if_neg (show ¬ ({ k with klauses := ks, watches := ws } : Kitten).level ≠ 0 from h)]

theorem calm_move (k : Kitten) (ref : Nat) (lits : List Nat) (r b : Nat) :
    ((k.setLits ref lits).watch r b ref false).calm = (k.calm.setLits ref lits).watch r b ref false := by
  obtain ⟨c1, c2, _⟩ := calm_same k
  show ({ k with klauses := _, watches := _ } : Kitten).calm = _
  rw [calm_with]
  unfold Kitten.setLits Kitten.watch
  rw [c1, c2]

theorem flipVisit_ok {k0 : Kitten} {lit : Nat} (hf : Flippable k0) : ∀ (rest kept : List Katch) (k : Kitten),
    Flipping k0 lit kept rest k → ∃ k' kept' res, Kitten.flipVisit lit rest kept k = some (k', kept', res) ∧
      Flipping k0 lit kept' [] k'
  | [], kept, k, h => ⟨k, kept, true, rfl, h⟩
  | w :: rest, kept, k, h => by
    unfold Kitten.flipVisit
    have hskip : Flipping k0 lit (kept ++ [w]) rest k :=
      ⟨h.eq, h.evolve, h.length, h.base, by rw [List.append_assoc]; exact h.watch, h.semi⟩
    by_cases h1 : 0 < k.values w.blit
    · rw [if_pos h1]
      exact flipVisit_ok hf rest _ k hskip
    rw [if_neg h1]
    obtain ⟨c1, c2, c3, c4⟩ := calm_same k
    obtain ⟨kl, hr, hw, hb, hnl, hbin⟩ := h.watch.back lit w (by rw [withList_self]; simp)
    have hr : k.calm.klauses[w.ref]? = some kl := hr
    obtain ⟨a, b, others, hl, hab⟩ := hw.cases
    obtain ⟨f1, f2, f3, lits, f5⟩ := kl
    simp only at hl hr hw hb hbin hnl
    subst hl
    have hr' : k.klauses[w.ref]? = some ⟨f1, f2, f3, a :: b :: others, f5⟩ := by rw [← c1]; exact hr
    rw [hr']
    simp only
    have hdist := h.base.store.distinct _ (List.mem_of_getElem? hr)
    simp only [List.map_cons] at hdist
    generalize ho : a ^^^ b ^^^ lit = other
    have hpair : (lit = a ∧ other = b) ∨ (lit = b ∧ other = a) := by
      rcases hab with e | e
      · exact Or.inl ⟨e, by rw [← ho, e]; exact Core.xor_cancel a b⟩
      · exact Or.inr ⟨e, by rw [← ho, e]; exact Core.xor_cancel' a b⟩
    have hna : a ≠ b := by rintro rfl; simp at hdist
    have hno : lit ≠ other := by
      rcases hpair with ⟨e1, e2⟩ | ⟨e1, e2⟩ <;> rw [e1, e2]
      · exact hna
      · exact Ne.symm hna
    by_cases h3 : 0 < k.values other
    · rw [if_pos h3]
      exact flipVisit_ok hf rest _ k hskip
    rw [if_neg h3]
    cases hfi : others.findIdx? fun m => decide (0 < k.values m) with
    | none =>
      simp only
      refine ⟨_, _, _, rfl, ⟨h.eq, h.evolve, h.length, h.base, by rw [List.append_nil]; exact h.watch, h.semi⟩⟩
    | some i =>
      simp only
      obtain ⟨hi, hval, _⟩ := List.findIdx?_eq_some_iff_getElem.1 hfi
      generalize hrepl : others.getD i 0 = repl
      have hget : others[i] = repl := by rw [← hrepl]; simp [List.getD, hi]
      have hrm : repl ∈ others := by rw [← hget]; exact List.getElem_mem hi
      have hrv : 0 < k.values repl := by rw [← hget]; simpa using hval
      have hlen : (a :: b :: others).length ≠ 2 := by
        intro hc
        have : others.length = 0 := by simpa using hc
        omega
      have hdiv : ∀ m ∈ others, m / 2 ≠ a / 2 ∧ m / 2 ≠ b / 2 := by
        intro m hm
        simp only [List.nodup_cons, List.mem_cons, List.mem_map, not_or, not_exists, not_and] at hdist
        exact ⟨hdist.1.2 m hm, hdist.2.1 m hm⟩
      have hnr : lit ≠ repl := by
        intro hc
        have := hdiv repl hrm
        rcases hpair with ⟨e, _⟩ | ⟨e, _⟩ <;> rw [← hc, e] at this
        · exact this.1 rfl
        · exact this.2 rfl
      have hor : other ≠ repl := by
        intro hc
        have := hdiv repl hrm
        rcases hpair with ⟨_, e⟩ | ⟨_, e⟩ <;> rw [← hc, e] at this
        · exact this.2 rfl
        · exact this.1 rfl
      have hperm : (other :: repl :: others.set i lit).Perm (a :: b :: others) := by
        have h1 : (repl :: others.set i lit).Perm (lit :: others) := by
          have := List.set_set_perm (as := lit :: others) (i := 0) (j := i + 1) (by simp) (by simpa using hi)
          simpa [hget] using this
        rcases hpair with ⟨e1, e2⟩ | ⟨e1, e2⟩
        · subst e1 e2
          exact (h1.cons _).trans (List.Perm.swap _ _ _)
        · subst e1 e2
          exact h1.cons _
      have hev := evolve_setLits hr hperm
      have hev' := evolve_setLits hr' hperm
      have hW := h.watch.move (lits := other :: repl :: others.set i lit) hr
        (fun m => by
          show IsWatch (a :: b :: others) m ↔ _
          rw [isWatch_two]
          rcases hpair with ⟨e1, e2⟩ | ⟨e1, e2⟩ <;> rw [e1, e2]
          exact Or.comm) hno hnr hor (fun m => isWatch_two) hperm hlen
      have hbase : Base ((k.calm.setLits w.ref (other :: repl :: others.set i lit)).watch repl other w.ref false) :=
        h.base.permute hev (by simp [Kitten.setLits, Kitten.watch]) rfl
      have hcv : k.calm.values = k0.calm.values := by
        rw [calm_values, calm_values, h.eq]
      have hcl : ∀ r, ((k.calm.setLits w.ref (other :: repl :: others.set i lit)).watch repl other w.ref false).klauses[r]? =
          if w.ref = r then k.calm.klauses[r]?.map fun c => { c with lits := other :: repl :: others.set i lit } else k.calm.klauses[r]? :=
        modify_get _ _ _
      refine flipVisit_ok hf rest kept _ ⟨?_, h.evolve.trans hev', ?_, by rw [calm_move]; exact hbase, by rw [calm_move]; exact hW, fun hn => ?_⟩
      · unfold Kitten.setLits Kitten.watch
        dsimp only
        rw [h.eq]
      · simp [Kitten.setLits, Kitten.watch, h.length]
      · rw [calm_move]
        intro r c hc h2
        rw [hcl] at hc
        by_cases hx : w.ref = r
        · subst hx
          rw [if_pos rfl, hr] at hc
          cases hc
          refine ⟨repl, isWatch_two.2 (Or.inr rfl), fun h1 => ?_⟩
          have h1 : k.calm.values repl = -1 := h1
          rw [hcv] at h1
          refine absurd h1 (hf.calm_true ?_)
          rw [h.eq] at hrv
          exact hrv
        · rw [if_neg hx] at hc
          exact h.semi hn r c hc h2

structure FlipOk (k k' : Kitten) : Prop where
  good : Good k'
  flippable : Flippable k'
  evolve : Evolve k.klauses k'.klauses
  length : k'.klauses.length = k.klauses.length
  rest : k' = { k with klauses := k'.klauses, watches := k'.watches, values := k'.values }

theorem FlipOk.refl {k : Kitten} (hg : Good k) (hf : Flippable k) : FlipOk k k := ⟨hg, hf, .refl _, rfl, rfl⟩

/-- New clauses and watch lists. -/
theorem Flipping.good {k0 k : Kitten} {lit : Nat} {kept : List Katch} (hg : Good k0) (h : Flipping k0 lit kept [] k) :
    Good (k.withList lit kept) := by
  have hw := h.watch
  rw [List.append_nil] at hw
  have hc : (k.withList lit kept).calm = k.calm.withList lit kept := by
    have := calm_with k k.klauses (upd k.watches lit kept)
    obtain ⟨c1, c2, _⟩ := calm_same k
    unfold Kitten.withList
    rw [c2]
    rw [show ({ k with watches := upd k.watches lit kept } : Kitten) = { k with klauses := k.klauses, watches := upd k.watches lit kept } from rfl,
      this, ← c1]
  have hb : Base (k.calm.withList lit kept) := h.base.permute (.refl _) rfl rfl
  have hk : ∀ kl ∈ k.klauses, ∃ kl0 ∈ k0.klauses, kl.core = kl0.core := by
    intro kl hm
    obtain ⟨r, hr⟩ := List.getElem?_of_mem hm
    obtain ⟨kl0, g1, _, _, _, _, g2⟩ := h.evolve.back h.length hr
    exact ⟨kl0, List.mem_of_getElem? g1, g2⟩
  have he := h.eq
  have hsemi := h.semi
  have hct : k.calm.trail = k0.calm.trail ∧ k.calm.propagated = k0.calm.propagated := by
    rw [he, calm_with]
    exact ⟨rfl, rfl⟩
  generalize k.klauses = ks at *
  generalize k.watches = ws at *
  subst he
  refine ⟨by rw [hc]; exact ⟨hb, hw⟩, hg.valid, fun hn => ?_, hg.failed, hg.failing, hg.idle, fun h21 => ⟨(hg.core h21).1, fun kl hm => ?_⟩,
    hg.names⟩
  · rw [hc]
    have hn : k0.inconsistent = none := hn
    obtain ⟨g1, g2, g3⟩ := hg.semi hn
    exact ⟨hsemi hn, hct.1.trans g2, hct.2.trans g3⟩
  · obtain ⟨kl0, g1, g2⟩ := hk kl hm
    rw [g2]; exact (hg.core h21).2 kl0 g1

/-- Changing the value of a literal on the trail. -/
theorem calm_flip {k : Kitten} {l : Nat} (h0 : k.level ≠ 0) (ht : l ∈ k.trail ∨ neg l ∈ k.trail) (a b : Int) :
    ({ k with values := upd (upd k.values l a) (neg l) b } : Kitten).calm = k.calm := by
  unfold Kitten.calm Kitten.root
  rw [if_pos h0, if_pos (show ({ k with values := upd (upd k.values l a) (neg l) b } : Kitten).level ≠ 0 from h0)]
  unfold Kitten.restart
  have : clearValues (upd (upd k.values l a) (neg l) b) k.trail = clearValues k.values k.trail := by
    funext m
    rw [clearValues_get, clearValues_get]
    by_cases hm : m ∈ k.trail ∨ neg m ∈ k.trail
    · rw [if_pos hm, if_pos hm]
    · rw [if_neg hm, if_neg hm]
      have h1 : m ≠ neg l := by
        rintro rfl
        rw [Spec.neg_neg] at hm
        exact hm ht.symm
      have h2 : m ≠ l := by rintro rfl; exact hm ht
      rw [upd_other _ _ h1, upd_other _ _ h2]
  dsimp only
  rw [this]

/-- The values after flipping. -/
def Kitten.turn (k : Kitten) (l : Nat) : Kitten := { k with values := upd (upd k.values l (-1)) (neg l) 1 }

theorem flipInternal_ok {k k' : Kitten} {lit : Nat} {res : Bool} (hg : Good k) (hf : Flippable k)
    (he : k.flipInternal lit = some (k', res)) : FlipOk k k' := by
  unfold Kitten.flipInternal at he
  by_cases hv : k.values lit = 0
  · rw [if_pos hv] at he; cases he
  rw [if_neg hv] at he
  by_cases h0 : k.lev lit = 0
  · rw [if_pos h0] at he
    cases he
    exact .refl hg hf
  rw [if_neg h0] at he
  dsimp only at he
  generalize hl : (if k.values lit < 0 then neg lit else lit) = l at he
  have hlv : k.lev l ≠ 0 := by
    rw [← hl]
    split
    · rw [lev_neg]; exact h0
    · exact h0
  have hv : k.values l ≠ 0 := by
    rw [← hl]
    split
    · rw [hf.anti]; omega
    · exact hv
  obtain ⟨hlev, htr⟩ := hf.off l hv hlv
  obtain ⟨c1, c2, _⟩ := calm_same k
  have hstart : Flipping k l [] (k.watches l) k := by
    refine ⟨rfl, .refl _, rfl, hg.inv.toBase, ?_, fun hn => (hg.semi hn).1⟩
    have : k.calm.withList l ([] ++ k.watches l) = k.calm := by
      unfold Kitten.withList
      have : upd k.calm.watches l ([] ++ k.watches l) = k.calm.watches := by
        funext w
        by_cases hw : w = l
        · subst hw; rw [upd_self, c2]; rfl
        · rw [upd_other _ _ hw]
      rw [this]
    rw [this]
    exact hg.inv.watch
  obtain ⟨k1, kept, r, e, hF⟩ := flipVisit_ok hf _ _ _ hstart
  rw [e] at he
  simp only [Option.some.injEq, Prod.mk.injEq] at he
  obtain ⟨he, _⟩ := he
  have hG := hF.good hg
  have heq := hF.eq
  have hev := hF.evolve
  have hlen := hF.length
  have hwl : ({ k1 with watches := upd k1.watches l kept } : Kitten) = k1.withList l kept := rfl
  have he : (if r = true then (k1.withList l kept).turn l else k1.withList l kept) = k' := he
  have hval1 : (k1.withList l kept).values = k.values := by
    show k1.values = _
    rw [heq]
  have hvars1 : (k1.withList l kept).vars = k.vars := by
    show k1.vars = _
    rw [heq]
  have hlev1 : (k1.withList l kept).level = k.level := by
    show k1.level = _
    rw [heq]
  have htr1 : (k1.withList l kept).trail = k.trail := by
    show k1.trail = _
    rw [heq]
  have hlv1 : ∀ m, (k1.withList l kept).lev m = k.lev m := by
    intro m; unfold Kitten.lev; rw [hvars1]
  have heq2 : k1.withList l kept = { k with klauses := (k1.withList l kept).klauses, watches := (k1.withList l kept).watches } := by
    unfold Kitten.withList
    dsimp only
    rw [heq]
  have hkl : (k1.withList l kept).klauses = k1.klauses := rfl
  rw [← hkl] at hev hlen
  generalize k1.withList l kept = k2 at *
  by_cases hr : r = true
  · rw [if_pos hr] at he
    subst he
    have hcalm : (k2.turn l).calm = k2.calm := calm_flip (k := k2) (l := l) (by rw [hlev1]; exact hlev) (by rw [htr1]; exact htr) (-1) 1
    refine ⟨⟨by rw [hcalm]; exact hG.inv, hG.valid, fun hn => by rw [hcalm]; exact hG.semi hn, hG.failed, hG.failing, hG.idle, hG.core, hG.names⟩,
      ⟨fun m => ?_, fun m => ?_, fun m h1 h2 => ?_⟩, hev, hlen, ?_⟩
    · show upd (upd k2.values l (-1)) (neg l) 1 m = 1 ∨ upd (upd k2.values l (-1)) (neg l) 1 m = 0 ∨
        upd (upd k2.values l (-1)) (neg l) 1 m = -1
      by_cases h1 : m = neg l
      · subst h1; rw [upd_self]; exact Or.inl rfl
      · rw [upd_other _ _ h1]
        by_cases h2 : m = l
        · subst h2; rw [upd_self]; exact Or.inr (Or.inr rfl)
        · rw [upd_other _ _ h2, hval1]; exact hf.dom m
    · show upd (upd k2.values l (-1)) (neg l) 1 (neg m) = - upd (upd k2.values l (-1)) (neg l) 1 m
      by_cases h1 : m = neg l
      · subst h1
        rw [upd_self, Spec.neg_neg, upd_other _ _ (Ne.symm (Spec.neg_ne l)), upd_self]
      · by_cases h2 : m = l
        · subst h2
          rw [upd_self, upd_other _ _ (Ne.symm (Spec.neg_ne m)), upd_self]; rfl
        · rw [upd_other _ _ h1, upd_other _ _ h2, upd_other _ _ (fun h => h2 (by rw [← Spec.neg_neg m, h, Spec.neg_neg])),
            upd_other _ _ (fun h => h1 (by rw [← h, Spec.neg_neg])), hval1, hf.anti]
    · have h2 : k2.lev m ≠ 0 := h2
      rw [hlv1] at h2
      show k2.level ≠ 0 ∧ (m ∈ k2.trail ∨ neg m ∈ k2.trail)
      rw [hlev1, htr1]
      by_cases e1 : m = l
      · subst e1; exact ⟨hlev, htr⟩
      by_cases e2 : m = neg l
      · subst e2; rw [Spec.neg_neg]; exact ⟨hlev, htr.symm⟩
      have h1 : upd (upd k2.values l (-1)) (neg l) 1 m ≠ 0 := h1
      rw [upd_other _ _ e2, upd_other _ _ e1, hval1] at h1
      exact hf.off m h1 h2
    · unfold Kitten.turn
      dsimp only
      rw [heq2]
  · rw [if_neg hr] at he
    subst he
    refine ⟨hG, ⟨fun m => by rw [hval1]; exact hf.dom m, fun m => by rw [hval1]; exact hf.anti m, fun m h1 h2 => ?_⟩, hev, hlen, ?_⟩
    · rw [hval1] at h1
      rw [hlv1] at h2
      rw [hlev1, htr1]
      exact hf.off m h1 h2
    · rw [← hval1] at *
      rw [heq2]

theorem flip_ok {k k' : Kitten} {e : Nat} {res : Bool} (hg : Good k) (hf : k.status = 10 → Flippable k)
    (he : k.flip e = some (k', res)) : FlipOk k k' ∧ k.status = 10 := by
  unfold Kitten.flip at he
  by_cases h0 : k.status ≠ 10
  · rw [if_pos h0] at he; cases he
  have h0 : k.status = 10 := by omega
  rw [if_neg (by omega)] at he
  refine ⟨?_, h0⟩
  cases hi : k.internal e with
  | none => rw [hi] at he; cases he; exact .refl hg (hf h0)
  | some l =>
    rw [hi] at he
    exact flipInternal_ok hg (hf h0) he

end Verif.Kitten
