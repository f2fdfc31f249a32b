import Verif.Proofs.Collect.Models
import Verif.Proofs.Collect.Proof
import Verif.Proofs.Core.Bound

/-! # Garbage collection keeps the invariants of search -/

namespace Verif.Core

open Verif.Spec

/-! ## The proof checker -/

theorem marked_fst (s : Solver) (first : Nat) : (s.marked first).map (·.1) = s.arena.drop first := by
  have key : ∀ (l : List Clause) (f : Nat → Bool), (l.mapIdx fun i c => (c, f i)).map (·.1) = l := by
    intro l
    induction l with
    | nil => intro f; rfl
    | cons a l ih =>
      intro f
      rw [List.mapIdx_cons, List.map_cons]
      exact congrArg (a :: ·) (ih fun i => f (i + 1))
  exact key _ _

theorem moveRedundant_rest (t : Solver) (start : Nat) :
    (t.moveRedundant start).arena.Perm t.arena ∧ (t.moveRedundant start).watches = t.watches := by
  unfold Solver.moveRedundant
  simp only
  generalize start + (t.arena.drop start).findIdx (·.redundant) = first
  split
  · have hp := place_fold ((t.marked first).filter (!·.1.redundant) ++ (t.marked first).filter (·.1.redundant))
      { t with arena := t.arena.take first }
    refine ⟨?_, hp.watches⟩
    rw [hp.arena]
    show (t.arena.take first ++ _).Perm _
    have h1 : ((t.marked first).filter (!·.1.redundant) ++ (t.marked first).filter (·.1.redundant)).Perm
        (t.marked first) :=
      List.perm_append_comm.trans (List.filter_append_perm (fun p : Clause × Bool => p.1.redundant) _)
    have h2 := (h1.map (·.1)).append_left (t.arena.take first)
    rw [marked_fst, List.take_append_drop] at h2
    exact h2
  · exact ⟨.refl _, rfl⟩

theorem watch_bin (s : Solver) (a b r : Nat) : SameBin (s.watchReference a b r).watches s.watches := by
  intro x y
  unfold Solver.watchReference Solver.pushWatch
  show List.count _ (upd (upd s.watches a _) b (upd s.watches a _ b ++ _) x) = _
  by_cases hb : x = b
  · subst hb; rw [upd_same]
    by_cases ha : x = a
    · subst ha; rw [upd_same]; simp [List.count_append]
    · rw [upd_other _ _ ha]; simp [List.count_append]
  · rw [upd_other _ _ hb]
    by_cases ha : x = a
    · subst ha; rw [upd_same]; simp [List.count_append]
    · rw [upd_other _ _ ha]

theorem rewatchClause_bin (s : Solver) (r : Nat) : SameBin (rewatchClause s r).watches s.watches := by
  unfold rewatchClause
  simp only
  split
  · exact fun x y => watch_bin _ _ _ _ x y
  · exact .refl _

theorem rewatch_bin : ∀ (rs : List Nat) (s : Solver), SameBin (rs.foldl rewatchClause s).watches s.watches
  | [], _ => .refl _
  | r :: rs, s => (rewatch_bin rs (rewatchClause s r)).trans (rewatchClause_bin s r)

theorem countP_congr {α : Type} {p : α → Bool} : ∀ {l l' : List α}, l.length = l'.length →
    (∀ (i : Nat) (x y : α), l[i]? = some x → l'[i]? = some y → p x = p y) → l.countP p = l'.countP p
  | [], [], _, _ => rfl
  | a :: l, b :: l', hl, h => by
    rw [List.countP_cons, List.countP_cons, h 0 a b rfl rfl,
      countP_congr (l := l) (l' := l') (by simpa using hl) fun i x y hx hy => h (i + 1) x y (by simpa using hx) (by simpa using hy)]

theorem Rewatching.copies {t u : Solver} {start : Nat} (h : Rewatching t u start t.arena.length)
    (X : List Nat) : u.copies X = t.copies X := by
  refine countP_congr h.length fun i x y hx hy => ?_
  rw [← clause_of_get hx, ← clause_of_get hy]
  by_cases hi : start ≤ i
  · obtain ⟨a, b, rest, e, hp, _⟩ := h.done i hi (List.getElem?_eq_some_iff.1 hy).1
    rw [e]
    show (!(t.clause i).garbage && sameLits X (a :: b :: rest)) = _
    rw [sameLits_congr (c := a :: b :: rest) (d := (t.clause i).lits) (fun l => hp.mem_iff)]
  · rw [h.others i (.inl (by omega))]

theorem Settled.pinv {orig : Base} [Deletes orig] {s : Solver} {start : Nat} (hs : Settled s)
    (hst : start ≤ s.arena.length) (hp : PInv orig s) : PInv orig (s.collectClauses start) := by
  have h0 := hs.sweep hst
  obtain ⟨h1, h2⟩ := h0.move hs
  obtain ⟨m1, m2⟩ := moveRedundant_rest ((s.flushWatches start).sweepGarbage start) start
  obtain ⟨db, g1, g2⟩ := hs.sweep_covers hst hp
  have h3 := h1.rewatch hs
  have hb := rewatch_bin (List.range' start
    ((((s.flushWatches start).sweepGarbage start).moveRedundant start).arena.length - start))
    (((s.flushWatches start).sweepGarbage start).moveRedundant start)
  have hfr := h1.framed.trans h3.framed
  refine ⟨db, ?_, fun X => ?_, fun a b => ?_, fun l hv hl => ?_, fun hin => ?_⟩
  · have e : (s.collectClauses start).proof = ((s.flushWatches start).sweepGarbage start).proof := by
      exact h3.proof.trans h2
    rw [e]
    have : (s.collectClauses start).vars = s.vars := hfr.vars
    rw [this]; exact g1
  · have e : (s.collectClauses start).copies X = ((s.flushWatches start).sweepGarbage start).copies X := by
      refine (h3.copies X).trans ?_
      unfold Solver.copies
      exact m1.countP_eq _
    rw [e]; exact g2.large X
  · have e : ((s.collectClauses start).watches a).count (.binary b) =
        (((s.flushWatches start).sweepGarbage start).watches a).count (.binary b) := by
      rw [← m2]; exact hb a b
    rw [e]; exact g2.bin a b
  · have hv : (((((s.flushWatches start).sweepGarbage start).moveRedundant start).rewatchClauses start)).values l = 1 := hv
    have hl : (((((s.flushWatches start).sweepGarbage start).moveRedundant start).rewatchClauses start)).lev l = 0 := hl
    rw [hfr.values, ← h0.framed.values] at hv
    rw [hfr.lev, ← h0.framed.lev] at hl
    exact g2.unit l hv hl
  · have hin : (((((s.flushWatches start).sweepGarbage start).moveRedundant start).rewatchClauses start)).inconsistent = true := hin
    rw [hfr.inconsistent, ← h0.framed.inconsistent] at hin
    exact g2.empty hin

/-! ## The watches -/

theorem Collected.withLoose {s u : Solver} {start : Nat} (h : Collected s u start) (b : Bool) :
    Collected s { u with loose := b } start := by
  obtain ⟨f, h2, h3, h4, h5, h6, h7, h8, h9, h10, h11, h12⟩ := h
  exact ⟨⟨f.1, f.2, f.3, f.4, f.5, f.6, f.7, f.8, f.9, f.10, f.11, f.12, f.13, f.14, f.15, f.16⟩,
    h2, h3, h4, h5, h6, h7, h8, h9, h10, h11, h12⟩

theorem Settled.collected {s : Solver} {start : Nat} (hs : Settled s) (hst : start ≤ s.arena.length) :
    Collected s (s.sparseCollect start) start := (hs.collect hst).withLoose _

theorem Collectible.inv {u : Solver} (h : Collectible u) : Inv u := by
  refine ⟨h.trail, h.reason, h.clause, fun r hr w hw => ?_, h.inarena, h.back, h.once⟩
  by_cases hrs : u.RootSat (u.clause r).lits
  · exact .inr hrs
  · exact .inl (h.watched r hr hrs w hw)

theorem Framed.satisfying {s u : Solver} (h : Framed s u) {c : List Nat} {w : Nat}
    (hc : s.Satisfying c w) : u.Satisfying c w := by
  obtain ⟨t, h1, h2, h3⟩ := hc
  refine ⟨t, h1, by rw [h.values]; exact h2, fun j f hj hd => ?_⟩
  rw [h.frames] at hj
  rw [h.trail] at hd
  rw [h.lev]; exact h3 j f hj hd

/-- After garbage collection from a completely propagated state. -/
theorem PropInv.collect {orig : Base} [Deletes orig] {G : Assignment → Prop} {s : Solver} {start : Nat}
    (h : PropInv orig G s) (hp : s.propagate = s.trail.length) (hu : s.unflushed = 0)
    (hst : start ≤ s.arena.length) : PropInv orig G (s.sparseCollect start) := by
  have hs : Settled s := ⟨h.ok.inv, by have := h.watching; rw [hp] at this; exact this, hu⟩
  have hc := hs.collected hst
  have hfr := hc.framed
  have ht := hs.inv.trail
  have hnot : ∀ x, x ∉ s.trail.drop s.trail.length := by simp
  refine ⟨⟨(hc.collectible hs).inv, ?_, fun σ hσ => h.ok.irr σ fun c hcl => ?_⟩, ⟨?_, ?_⟩, ?_, ?_⟩
  · obtain ⟨db, g1, g2⟩ := hs.pinv hst h.ok.proof
    exact ⟨db, g1, ⟨g2.1, g2.2, g2.3, g2.4⟩⟩
  · have hun : ∀ l, s.values l = 1 → s.lev l = 0 → litTrue σ l := fun l hv h0 => by
      obtain ⟨x, hx, hx'⟩ := hσ [l] (.inr (.inr ⟨l, by rw [hfr.values]; exact hv,
        by rw [hfr.lev]; exact h0, rfl⟩))
      rw [List.mem_singleton.1 hx] at hx'
      exact hx'
    rcases hc.irr_fwd hs hcl with ⟨l, hl, h1, h2⟩ | k | ⟨d, k1, k2⟩
    · exact ⟨l, hl, hun l h1 h2⟩
    · exact hσ c k
    · exact satClause_congr (fun l hl => ((mem_reduct ht).1 ((k2 l).1 hl)).1) (hσ d k1)
  · -- large clauses
    intro r hr w hw hv _
    rw [hfr.values] at hv
    by_cases hlt : r < start
    · unfold Solver.Live at hr
      rw [hc.low r hlt] at hr hw ⊢
      refine (hs.watching.large r hr w hw hv (hnot _)).imp hfr.satisfying ?_
      rintro ⟨e1, e2, v, e3, e4, e5, t, e6, e7, e8, e9⟩
      refine ⟨?_, by rw [hfr.lev]; exact e2, v, e3, e4, fun g1 _ => ?_, t, e6, e7, e8, fun g => ?_⟩
      · show (s.loose || s.level != 0) = true
        rw [e1]; rfl
      · rw [hfr.values] at g1
        exact hfr.satisfying (e5 g1 (hnot _))
      · rw [hfr.values] at g; rw [hfr.trail]; exact e9 g
    · have hrlt := clause_lt hr
      obtain ⟨r0, _, k2, k3, _, _, _, k4⟩ := hc.back r (by omega) hrlt
      obtain ⟨a, b, rest, e, hb⟩ := hc.best r (by omega) hrlt
      rw [e] at k4
      have hnd : (a :: b :: rest).Nodup := k4.nodup_iff.2 ((hs.inv.clause.nodup r0 k2.1).filter _)
      have hnf : ∀ x ∈ a :: b :: rest, s.values x = -1 → s.lev x ≠ 0 := fun x hx hv h0 =>
        ((mem_reduct ht).1 (k4.mem_iff.1 hx)).2 ⟨hv, h0⟩
      have ha : s.values a ≠ -1 := by
        intro ha
        refine h.noConflict hp (.large r0) ⟨k2.1, fun x hx => ?_⟩
        by_cases hx' : x ∈ s.reduct (s.clause r0).lits
        · have := (hb.first (by omega) x (k4.mem_iff.2 hx')).1
          have := ht.dom x
          omega
        · exact (Classical.byContradiction fun hh => hx' ((mem_reduct ht).2 ⟨hx, fun hh' => hh hh'.1⟩))
      rw [e]
      have hwb : w = b := by
        unfold Clause.Watched at hw
        rw [e] at hw
        rcases hw with hw | hw <;> cases hw
        · exact absurd hv ha
        · rfl
      subst hwb
      have hl0 := hnf w (by simp) hv
      obtain ⟨t, rest', rfl⟩ : ∃ t rest', rest = t :: rest' := by
        cases rest with
        | nil =>
          have := k4.length_eq
          simp only [List.length_cons, List.length_nil] at this
          omega
        | cons t rest' => exact ⟨t, rest', rfl⟩
      simp only [List.nodup_cons, List.mem_cons, not_or] at hnd
      refine .inr ⟨?_, by rw [hfr.lev]; exact hl0, a, .inl (by rw [e]; rfl), hnd.1.1, fun g => ?_, t,
        by rw [e]; simp, Ne.symm hnd.1.2.1, Ne.symm hnd.2.1.1, fun g => ?_⟩
      · show (s.loose || s.level != 0) = true
        have h1 := ht.levle (neg w) (ht.neg_pos.2 hv)
        rw [lev_neg] at h1
        have h2 : s.level ≠ 0 := by omega
        simp [h2]
      · rw [hfr.values] at g; exact absurd g ha
      · rw [hfr.values] at g
        rw [hfr.trail]
        refine Classical.byContradiction fun hn => ?_
        have := ht.flushed (neg t) (ht.neg_pos.2 g) hn
        rw [lev_neg] at this
        exact hnf t (by simp) g this
  · -- binary clauses
    intro w o hw hv _
    rw [hfr.values] at hv
    rcases (hc.bins w o).1 hw with ⟨k1, _⟩ | ⟨r, k1, k2, k3⟩
    · exact hfr.satisfying (hs.watching.binary w o k1 hv (hnot _))
    · obtain ⟨a, b, rest, e1, e2⟩ := hs.reduct_two k2.1 k2.2
      have hmem : ∀ x, x ∈ s.reduct (s.clause r).lits ↔ x = w ∨ x = o := by
        intro x
        rcases k3 with k3 | k3 <;> rw [k3] <;> simp only [List.mem_cons, List.not_mem_nil, or_false]
        exact or_comm
      have hwat : ∀ x, (s.clause r).Watched x ↔ x = w ∨ x = o := by
        intro x
        have e3 : (a = w ∧ b = o) ∨ (a = o ∧ b = w) := by
          rw [e2] at k3
          rcases k3 with k3 | k3
          · exact .inl ⟨(List.cons.inj k3).1, (List.cons.inj (List.cons.inj k3).2).1⟩
          · exact .inr ⟨(List.cons.inj k3).1, (List.cons.inj (List.cons.inj k3).2).1⟩
        unfold Clause.Watched
        rw [e1]
        simp only [List.getElem?_cons_zero, List.getElem?_cons_succ, Option.some.injEq]
        rcases e3 with ⟨rfl, rfl⟩ | ⟨rfl, rfl⟩
        · exact ⟨fun g => g.imp Eq.symm Eq.symm, fun g => g.imp Eq.symm Eq.symm⟩
        · exact ⟨fun g => (g.imp Eq.symm Eq.symm).symm, fun g => (g.imp Eq.symm Eq.symm).symm⟩
      apply hfr.satisfying
      rcases hs.watching.large r k2.1 w ((hwat w).2 (.inl rfl)) hv (hnot _) with
        ⟨t, g1, g2, g3⟩ | ⟨_, _, v, e3, e4, _, t, e6, e7, e8, e9⟩
      · have : t = o := by
          refine ((hmem t).1 ((mem_reduct ht).2 ⟨g1, fun hh => by omega⟩)).resolve_left ?_
          rintro rfl
          omega
        subst this
        exact ⟨t, by simp, g2, g3⟩
      · exfalso
        have hvo : v = o := ((hwat v).1 e3).resolve_left e4
        have ht' : t ∉ s.reduct (s.clause r).lits := fun hh => by
          rcases (hmem t).1 hh with g | g
          · exact e8 g
          · exact e7 (g.trans hvo.symm)
        have hf : s.values t = -1 ∧ s.lev t = 0 := Classical.byContradiction fun hh =>
          ht' ((mem_reduct ht).2 ⟨e6, hh⟩)
        exact hs.not_trail (l := neg t) (by rw [lev_neg]; exact hf.2) (e9 hf.1)
  · intro f hf
    rw [hfr.frames] at hf
    rw [hfr.propagate]; exact h.frames f hf
  · rw [hfr.propagate, hfr.trail]; exact h.le

end Verif.Core
