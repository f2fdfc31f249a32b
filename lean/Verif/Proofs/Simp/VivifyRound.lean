import Verif.Proofs.Simp.VivifyClause

/-!
# Vivification: changing clauses
-/

namespace Verif.Simp

open Verif.Spec Verif.Model Verif.Model.Extend

/-! ## Changes while there are assumptions -/

theorem Compat.trans {a b c : State} {T : List VEntry} (h : Compat a b T) (h' : Compat b c T) : Compat a c T :=
  ⟨h'.exports.trans h.exports, h'.removed.trans h.removed, fun l hl => h'.neg l (h.neg l hl), h'.free, fun e he r hr hg => by
    obtain ⟨h1, h2⟩ := h.reason e he r hr hg
    obtain ⟨h3, h4⟩ := h'.reason e he r hr h1
    exact ⟨h3, h4.trans h2⟩, fun a b hab => h'.impl a b (h.impl a b hab)⟩

theorem VInv.change {orig : List (List Nat)} {p : VState} (h : VInv orig p) {s' : State} (hs : Inv orig none s')
    (hc : Compat p.s s' p.trail) : VInv orig { p with s := s' } :=
  ⟨hs, h.trail.compat hc, h.dec, h.uniq⟩

theorem compat_garbage {s : State} {T : List VEntry} (hT : VT s T) {cand : Nat} (hg : (s.clause cand).garbage = false)
    (hl : 3 ≤ (s.clause cand).lits.length) (hn : NotReason cand T) : Compat s (s.markGarbage cand) T := by
  refine ⟨rfl, rfl, fun _ h => h, fun e he => (hT.free e he).1, fun e he r hr hgr => ?_, fun a b hab => ?_⟩
  · have : r ≠ cand := fun e' => hn e he (by rw [hr, e'])
    rw [clause_garbage (clause_lt hg), if_neg this]
    exact ⟨hgr, rfl⟩
  · obtain ⟨r, h1, h2, h3, h4⟩ := hab
    have : r ≠ cand := fun e' => by rw [e'] at h3; omega
    refine ⟨r, ?_⟩
    rw [clause_garbage (clause_lt hg), if_neg this]
    exact ⟨h1, h2, h3, h4⟩

theorem compat_new {s : State} {T : List VEntry} (hT : VT s T) (c : List Nat) (red : Bool) : Compat s (s.newClause c red) T := by
  have hold : ∀ r, (s.clause r).garbage = false → (s.newClause c red).clause r = s.clause r := fun r hr => by
    have := clause_lt hr
    rw [clause_new, if_neg (by omega)]
  refine ⟨rfl, rfl, fun _ h => h, fun e he => (hT.free e he).1, fun e he r hr hgr => ?_, fun a b hab => ?_⟩
  · rw [hold r hgr]; exact ⟨hgr, rfl⟩
  · obtain ⟨r, h1, h2⟩ := hab
    refine ⟨r, ?_⟩
    rw [hold r h1]
    exact ⟨h1, h2⟩

theorem preserves_new {s : State} {c : List Nat} {red : Bool} (h : Entails s.formula c) : Preserves s (s.newClause c red) :=
  ⟨fun σ hσ d hd => hσ d (irr_new.2 (Or.inr hd)), fun σ hσ => ⟨fun d hd => by
    rcases formula_new.1 hd with rfl | hd
    · exact h σ hσ
    · exact hσ d hd, rfl⟩⟩

/-- Replacing a clause by one with fewer literals. -/
theorem Inv.replace {orig : List (List Nat)} {s : State} (h : Inv orig none s) {r : Nat} {c : List Nat}
    (hg : (s.clause r).garbage = false) (hsub : ∀ x ∈ c, x ∈ (s.clause r).lits) (hnd : c.Nodup) (hsz : 2 ≤ c.length)
    (hrem : ∀ x ∈ c, s.removed (x / 2) = false) (hr : RUP s.formula c) :
    Inv orig none ((s.newClause c (s.clause r).redundant).markGarbage r) ∧
      Preserves s ((s.newClause c (s.clause r).redundant).markGarbage r) := by
  have hS := h.struct
  have h1 := h.newClause (red := (s.clause r).redundant) (fun x hx => hS.clause r hg x (hsub x hx)) hnd
    (fun x hx hx' => hS.taut r hg x (hsub x hx) (hsub _ hx')) hsz (fun _ => hrem) hr
  have hlt := clause_lt hg
  have hrc : (s.newClause c (s.clause r).redundant).clause r = s.clause r := by
    rw [clause_new, if_neg (by omega)]
  have hg' : ((s.newClause c (s.clause r).redundant).clause r).garbage = false := by rw [hrc]; exact hg
  have himp : ((s.newClause c (s.clause r).redundant).clause r).redundant = true ∨
      Entails ((s.newClause c (s.clause r).redundant).markGarbage r).irr ((s.newClause c (s.clause r).redundant).clause r).lits := by
    rw [hrc]
    cases hred : (s.clause r).redundant with
    | true => exact Or.inl rfl
    | false =>
      refine Or.inr fun σ hσ => ?_
      rw [hred] at hg'
      refine SatClause.mono hsub (hσ c ((irr_garbage (clause_lt hg')).2 (Or.inr ⟨s.arena.length, by omega, ?_⟩)))
      rw [clause_new, if_pos rfl]
      exact ⟨rfl, rfl, rfl⟩
  exact ⟨h1.markGarbage hg' himp, (preserves_new hr.entails).trans (preserves_garbage hg' himp)⟩

theorem compat_replace {s : State} {T : List VEntry} (hT : VT s T) {cand : Nat} (hg : (s.clause cand).garbage = false)
    (hl : 3 ≤ (s.clause cand).lits.length) (hn : NotReason cand T) (c : List Nat) (red : Bool) :
    Compat s ((s.newClause c red).markGarbage cand) T := by
  have h1 := compat_new hT c red
  have hrc : (s.newClause c red).clause cand = s.clause cand := by
    have := clause_lt hg
    rw [clause_new, if_neg (by omega)]
  exact h1.trans (compat_garbage (hT.compat h1) (by rw [hrc]; exact hg) (by rw [hrc]; exact hl) hn)

/-! ## Promotion -/

theorem clause_promote {s : State} {r : Nat} (hr : r < s.arena.length) (k : Nat) :
    (s.promote r).clause k = if k = r then { s.clause r with redundant := false } else s.clause k :=
  clause_set rfl hr k

theorem promote_garbage {s : State} {r : Nat} (hr : r < s.arena.length) (k : Nat) :
    ((s.promote r).clause k).garbage = (s.clause k).garbage ∧ ((s.promote r).clause k).lits = (s.clause k).lits := by
  rw [clause_promote hr]
  split
  · rename_i e; rw [e]; exact ⟨rfl, rfl⟩
  · exact ⟨rfl, rfl⟩

theorem irr_promote {s : State} {r : Nat} (hg : (s.clause r).garbage = false) {d : List Nat} :
    (s.promote r).irr d ↔ s.irr d ∨ d = (s.clause r).lits := by
  have hr := clause_lt hg
  constructor
  · rintro (h | ⟨k, h1, h2, rfl⟩)
    · exact Or.inl (Or.inl h)
    · rw [clause_promote hr] at h1 h2 ⊢
      split
      · exact Or.inr rfl
      · rename_i e
        rw [if_neg e] at h1 h2
        exact Or.inl (Or.inr ⟨k, h1, h2, rfl⟩)
  · rintro ((h | ⟨k, h1, h2, rfl⟩) | rfl)
    · exact Or.inl h
    · refine Or.inr ⟨k, ?_⟩
      rw [clause_promote hr]
      split
      · rename_i e; rw [e]; exact ⟨hg, rfl, rfl⟩
      · exact ⟨h1, h2, rfl⟩
    · refine Or.inr ⟨r, ?_⟩
      rw [clause_promote hr, if_pos rfl]
      exact ⟨hg, rfl, rfl⟩

theorem formula_promote {s : State} {r : Nat} (hg : (s.clause r).garbage = false) {d : List Nat} :
    (s.promote r).formula d ↔ s.formula d := by
  have hr := clause_lt hg
  constructor
  · rintro (h | ⟨k, h1, rfl⟩)
    · exact Or.inl h
    · obtain ⟨e1, e2⟩ := promote_garbage hr k
      rw [e1] at h1
      exact Or.inr ⟨k, h1, e2⟩
  · rintro (h | ⟨k, h1, rfl⟩)
    · exact Or.inl h
    · obtain ⟨e1, e2⟩ := promote_garbage hr k
      exact Or.inr ⟨k, by rw [e1]; exact h1, e2.symm⟩

theorem copies_promote {s : State} {r : Nat} (hr : r < s.arena.length) (X : List Nat) :
    (s.promote r).copies X = s.copies X := by
  unfold State.copies
  show List.countP _ (s.arena.set r _) + List.countP _ s.trail = _
  have h := countP_set (p := fun c => !c.garbage && sameLits X (c.lits.map s.ext))
    (c := { s.clause r with redundant := false }) (clause_get hr)
  have e1 : List.countP (fun c => !c.garbage && sameLits X (List.map (s.promote r).ext c.lits))
    (s.arena.set r { s.clause r with redundant := false }) =
    List.countP (fun c => !c.garbage && sameLits X (List.map s.ext c.lits))
    (s.arena.set r { s.clause r with redundant := false }) := rfl
  have e2 : List.countP (fun k => sameLits X [(s.promote r).ext k]) s.trail =
    List.countP (fun k => sameLits X [s.ext k]) s.trail := rfl
  rw [e1, e2]
  generalize List.countP (fun c => !c.garbage && sameLits X (List.map s.ext c.lits))
    (s.arena.set r { s.clause r with redundant := false }) = x at h ⊢
  dsimp only at h
  omega

theorem Struct.promote {orig : List (List Nat)} {s : State} (h : Struct orig s) {r : Nat}
    (hg : (s.clause r).garbage = false) (hrem : ∀ l ∈ (s.clause r).lits, s.removed (l / 2) = false) :
    Struct orig (s.promote r) where
  neg := h.neg
  range := h.range
  trail := h.trail
  nonzero := h.nonzero
  inj := h.inj
  imported := h.imported
  back := h.back
  clause := by
    intro k
    obtain ⟨e1, e2⟩ := promote_garbage (clause_lt hg) k
    rw [e1, e2]; exact h.clause k
  unit := h.unit
  nodup := by
    intro k
    obtain ⟨e1, e2⟩ := promote_garbage (clause_lt hg) k
    rw [e1, e2]; exact h.nodup k
  taut := by
    intro k
    obtain ⟨e1, e2⟩ := promote_garbage (clause_lt hg) k
    rw [e1, e2]; exact h.taut k
  size := by
    intro k
    obtain ⟨e1, e2⟩ := promote_garbage (clause_lt hg) k
    rw [e1, e2]; exact h.size k
  removed := by
    intro k
    rw [clause_promote (clause_lt hg)]
    split
    · intro _ _; exact hrem
    · exact h.removed k
  bound := h.bound
  given := h.given
  lines := h.lines
  proof := by
    obtain ⟨db, h1, h2⟩ := h.proof
    refine ⟨db, h1, fun X => ?_, h2.empty⟩
    rw [copies_promote (clause_lt hg)]
    exact h2.copies X

theorem Inv.promote {orig : List (List Nat)} {s : State} (h : Inv orig none s) {r : Nat}
    (hg : (s.clause r).garbage = false) (hrem : ∀ l ∈ (s.clause r).lits, s.removed (l / 2) = false) :
    Inv orig none (s.promote r) := by
  have hs := h.struct.promote hg hrem
  exact ⟨hs, State.Hist.restrict (s := s.promote r) hs h.hist h.struct.irr_range hs.irr_range
    fun σ hσ d hd => hσ d ((irr_promote hg).2 (Or.inl hd)), h.witness,
    h.implied.step (fun _ hv => hv) (fun σ hσ d hd => hσ d ((irr_promote hg).2 (Or.inl hd)))
      fun σ τ _ hτ _ d hd => hτ d ((formula_promote hg).1 hd)⟩

theorem preserves_promote {s : State} {r : Nat} (hg : (s.clause r).garbage = false) : Preserves s (s.promote r) :=
  ⟨fun σ hσ d hd => hσ d ((irr_promote hg).2 (Or.inl hd)), fun σ hσ => ⟨fun d hd => hσ d ((formula_promote hg).1 hd), rfl⟩⟩

theorem compat_promote {s : State} {T : List VEntry} (hT : VT s T) {r : Nat} (hg : (s.clause r).garbage = false) :
    Compat s (s.promote r) T := by
  refine ⟨rfl, rfl, fun _ h => h, fun e he => (hT.free e he).1, fun e he k hr hgr => ?_, fun a b hab => ?_⟩
  · obtain ⟨e1, e2⟩ := promote_garbage (clause_lt hg) k
    rw [e1, e2]; exact ⟨hgr, rfl⟩
  · obtain ⟨k, h1, h2, h3⟩ := hab
    refine ⟨k, ?_⟩
    rw [clause_promote (clause_lt hg)]
    split
    · rename_i e
      rw [e] at h3
      exact ⟨hg, rfl, h3⟩
    · exact ⟨h1, h2, h3⟩

/-! ## Outcomes -/

/-- The invariant holds again, and models are kept. -/
structure VDone (orig : List (List Nat)) (s : State) (p : VState) : Prop where
  inv : VInv orig p
  pres : Preserves s p.s

theorem VDone.backtrack {orig : List (List Nat)} {s : State} {p : VState} (h : VDone orig s p) (k : Nat) : VDone orig s (p.backtrack k) :=
  ⟨h.inv.backtrack k, h.pres⟩

theorem VDone.garbage {orig : List (List Nat)} {p : VState} {cand : Nat} {sorted : List Nat} (h : VInv orig p)
    (hn : NotReason cand p.trail) (hc : Cand p cand sorted)
    (hi : (p.s.clause cand).redundant = true ∨ Entails (p.s.markGarbage cand).irr (p.s.clause cand).lits) :
    VDone orig p.s { p with s := p.s.markGarbage cand } :=
  ⟨h.change (h.inv.markGarbage hc.live hi) (compat_garbage h.trail hc.live hc.large hn), preserves_garbage hc.live hi⟩

theorem binaries_garbage {s : State} {cand : Nat} (hg : (s.clause cand).garbage = false) (hl : 3 ≤ (s.clause cand).lits.length) :
    HasBinaries s (s.markGarbage cand).irr := fun r h1 h2 h3 =>
  (irr_garbage (clause_lt hg)).2 (Or.inr ⟨r, fun e => by rw [e] at h3; omega, h1, h2, rfl⟩)

theorem binaries_formula (s : State) : HasBinaries s s.formula := fun _ h1 _ _ => Struct.clause_formula h1

theorem units_formula {s : State} : ∀ l ∈ s.trail, s.formula [l] := fun l hl => Or.inl ⟨l, hl, rfl⟩

/-- A literal which is false at the root level is false in all models. -/
theorem root_false {orig : List (List Nat)} {s : State} (hS : Struct orig s) {F : Formula} (hU : ∀ l ∈ s.trail, F [l]) {m : Nat}
    (hv : s.values m < 0) {σ : Assignment} (hσ : SatFormula σ F) : ¬ litTrue σ m := by
  have := hσ _ (hU (Spec.neg m) (by rw [hS.trail, hS.neg]; omega))
  obtain ⟨l, hl, ht⟩ := this
  rw [List.mem_singleton.1 hl, litTrue_neg] at ht
  exact ht

theorem VDone.learn {orig : List (List Nat)} {p : VState} {cand : Nat} {sorted c root : List Nat} (h : VInv orig p)
    (hn : NotReason cand p.trail) (hc : Cand p cand sorted) (hsub : ∀ x ∈ c, x ∈ sorted) (hnd : c.Nodup)
    (hr : RUP p.s.formula c) {p' : VState} (he : p.learn cand c root = some p') : VDone orig p.s p' := by
  have hrem : ∀ x ∈ c, p.s.removed (x / 2) = false := fun x hx => hc.removed x (hc.mem x (hsub x hx))
  have hrep : 2 ≤ c.length → _ := fun hsz => h.inv.replace hc.live (fun x hx => hc.mem x (hsub x hx)) hnd hsz hrem hr
  unfold VState.learn at he
  match c, hsub, hnd, hr, hrem, hrep, he with
  | [], _, _, _, _, _, he => cases he
  | [u], hsub, _, hr, hrem, _, he =>
    cases he
    have hus := hsub u (by simp)
    have h1 := h.inv.learnedUnit (hc.free u hus) (hc.range u hus) (hrem u (by simp)) hr
    have hg : ((p.s.learnedUnit u).clause cand).garbage = false := hc.live
    have hi : ((p.s.learnedUnit u).clause cand).redundant = true ∨
        Entails ((p.s.learnedUnit u).markGarbage cand).irr ((p.s.learnedUnit u).clause cand).lits := by
      refine Or.inr fun σ hσ => ?_
      refine SatClause.mono (c := [u]) (fun l hl => by rw [List.mem_singleton.1 hl]; exact hc.mem u hus) (hσ [u] ?_)
      exact (irr_garbage (clause_lt hg)).2 (Or.inl ⟨u, by unfold State.learnedUnit State.assignUnit; simp [State.emitAdd], rfl⟩)
    have h2 := h1.markGarbage hg hi
    exact ⟨.empty (h2.propagateAll root), ((preserves_unit hr.entails).trans (preserves_garbage hg hi)).trans
      (preserves_propagateRoot h2 root)⟩
  | [a, b], _, _, _, _, hrep, he =>
    cases he
    obtain ⟨h1, h2⟩ := hrep (by simp)
    exact ⟨.empty h1, h2⟩
  | a :: b :: d :: c, _, _, _, _, hrep, he =>
    cases he
    obtain ⟨h1, h2⟩ := hrep (by simp)
    exact ⟨h.change h1 (compat_replace h.trail hc.live hc.large hn _ _), h2⟩

/-! ## Instantiation -/

/-- Everything on the trail follows from the decisions. -/
theorem all_up {orig : List (List Nat)} {p : VState} (h : VInv orig p) {A : Nat → Prop}
    (hd : ∀ e ∈ p.trail, e.reason = .decision → UP p.s.formula A e.lit) : ∀ e ∈ p.trail, UP p.s.formula A e.lit := by
  have hmem : ∀ m, (∃ e ∈ p.trail, e.lit = Spec.neg m) → m ∈ p.trail.map fun e => Spec.neg e.lit := by
    rintro m ⟨e, e1, e2⟩
    exact List.mem_map.2 ⟨e, e1, by rw [e2, neg_neg]⟩
  intro e he
  refine closure_up h.inv.struct h.trail (S := p.trail.map fun e => Spec.neg e.lit) (binaries_formula _) units_formula
    ⟨fun e he _ hr => hd e he hr, fun e he _ o hr => ?_, fun e he _ r hr => ?_⟩ e he (List.mem_map.2 ⟨e, he, rfl⟩)
  · have := h.trail.valid e he
    unfold Valid at this
    rw [hr] at this
    obtain ⟨_, y, y1, y2, _⟩ := this
    exact hmem o ⟨y, y1, y2⟩
  · have := h.trail.valid e he
    unfold Valid at this
    rw [hr] at this
    exact ⟨Struct.clause_formula this.1, fun m _ _ hl => hmem m ((levelOf_pos h.trail).1 hl)⟩

theorem filter_ne_length {l : List Nat} (a : Nat) (h : l.Nodup) : l.length ≤ (l.filter fun m => decide (m ≠ a)).length + 1 := by
  induction l with
  | nil => simp
  | cons b l ih =>
    obtain ⟨h1, h2⟩ := List.nodup_cons.1 h
    by_cases e : b = a
    · have : l.filter (fun m => decide (m ≠ a)) = l := List.filter_eq_self.2 fun x hx => by
        simp only [decide_eq_true_eq]; rintro rfl; exact h1 (e ▸ hx)
      rw [List.filter_cons_of_neg (by simpa using e), this, List.length_cons]
      exact Nat.le_refl _
    · rw [List.filter_cons_of_pos (by simpa using e), List.length_cons, List.length_cons]
      have := ih h2
      omega

theorem VDone.instantiate {orig : List (List Nat)} {p : VState} {cand : Nat} {sorted order : List Nat} {jump : Bool} (h : VInv orig p)
    (hn : NotReason cand p.trail) (hc : Cand p cand sorted)
    (hdec : p.level = sorted.length → ∀ e ∈ p.trail, e.reason = .decision → Spec.neg e.lit ∈ sorted)
    {p' : VState} (he : p.instantiate jump cand sorted order = some p') : VDone orig p.s p' := by
  unfold VState.instantiate at he
  by_cases c1 : p.level ≠ sorted.length
  · rw [if_pos c1] at he; cases he
  · rw [if_neg c1] at he
    have hdec := hdec (by simpa using c1)
    cases hl : sorted.getLast? with
    | none => rw [hl] at he; cases he
    | some lit =>
      rw [hl] at he
      dsimp only at he
      have hlit : lit ∈ sorted := List.mem_of_getLast? hl
      by_cases c2 : (p.backtrack (p.level - 1)).value lit ≠ 0
      · rw [if_pos c2] at he; cases he
      · rw [if_neg c2] at he
        have c2 : (p.backtrack (p.level - 1)).value lit = 0 := by simpa using c2
        have hb := h.backtrack (p.level - 1)
        have hbn : NotReason cand (p.backtrack (p.level - 1)).trail := fun e he => hn e (List.mem_filter.1 he).1
        have hbd : ∀ e ∈ (p.backtrack (p.level - 1)).trail, e.reason = .decision → Spec.neg e.lit ∈ sorted :=
          fun e he hd => hdec e (List.mem_filter.1 he).1 hd
        have hbs : (p.backtrack (p.level - 1)).s = p.s := rfl
        generalize p.backtrack (p.level - 1) = q at c2 hb hbn hbd hbs he
        obtain ⟨v1, v2⟩ := value_unassigned c2
        have ha := hb.assume (l := lit) c2 (by rw [hbs]; exact hc.range lit hlit) (by rw [hbs]; exact hc.removed lit (hc.mem lit hlit))
        have han : NotReason cand (q.assume lit).trail := fun e he => by
          rcases List.mem_cons.1 he with rfl | he
          · simp
          · exact hbn e he
        cases hp : (q.assume lit).propagate jump cand order with
        | mk w con =>
          rw [hp] at he
          obtain ⟨m1, m2⟩ := Moved.propagate _ ha han hp
          have hk : Keeps p.s w.s := by
            have : Keeps q.s w.s := m1.keeps
            rw [hbs] at this
            exact this
          have hdone : VDone orig p.s w := ⟨m1.inv, hk.pres⟩
          cases con with
          | none =>
            cases he
            exact hdone.backtrack _
          | some r =>
            dsimp only at he
            by_cases c3 : (sorted.any fun l => decide (w.s.values l ≠ 0)) = true
            · rw [if_pos c3] at he; cases he
            · rw [if_neg c3] at he
              have c3 : ∀ x ∈ sorted, w.s.values x = 0 := by simpa using c3
              have hcl : ∀ k, w.s.clause k = p.s.clause k := fun k => by unfold State.clause; rw [hk.arena]
              have hmem : ∀ m, m ∈ (w.s.clause cand).lits.filter (fun m => decide (m ≠ lit) && decide (w.s.values m = 0)) ↔
                  m ∈ (w.s.clause cand).lits ∧ m ≠ lit ∧ w.s.values m = 0 := by
                intro m; rw [List.mem_filter]; simp
              have hwg : (w.s.clause cand).garbage = false := by rw [hcl]; exact hc.live
              have hnd := (m1.inv.inv.struct.nodup cand hwg).filter (fun m => decide (m ≠ lit) && decide (w.s.values m = 0))
              have hsz : 2 ≤ ((w.s.clause cand).lits.filter (fun m => decide (m ≠ lit) && decide (w.s.values m = 0))).length := by
                have e1 : (w.s.clause cand).lits.filter (fun m => decide (m ≠ lit) && decide (w.s.values m = 0)) =
                    ((p.s.clause cand).lits.filter (fun m => decide (p.s.values m = 0))).filter fun m => decide (m ≠ lit) := by
                  rw [hcl, List.filter_filter]
                  refine List.filter_congr fun m hm => ?_
                  rcases hc.rest m hm with h1 | h1
                  · rw [c3 m h1, hc.free m h1]
                  · have := hk.neg m h1
                    have e1 : ¬ p.s.values m = 0 := by omega
                    have e2 : ¬ w.s.values m = 0 := by omega
                    simp [e1, e2]
                rw [e1]
                have := filter_ne_length lit ((h.inv.struct.nodup cand hc.live).filter fun m => decide (p.s.values m = 0))
                have := hc.size
                omega
              have hrup : RUP w.s.formula ((w.s.clause cand).lits.filter (fun m => decide (m ≠ lit) && decide (w.s.values m = 0))) := by
                have hws := m1.inv.inv.struct
                have hroot : ∀ {A : Nat → Prop} m, w.s.values m < 0 → UP w.s.formula A (Spec.neg m) := fun m hv =>
                  .unit (units_formula (Spec.neg m) (by rw [hws.trail, hws.neg]; omega)) (by simp)
                    fun k hk hne => absurd (List.mem_singleton.1 hk) hne
                obtain ⟨r1, r2, r3⟩ := m2 r rfl
                refine Or.inl ?_
                have hsorted : ∀ m ∈ sorted, m ≠ lit → UP w.s.formula (fun l => Spec.neg l ∈ (w.s.clause cand).lits.filter
                    (fun m => decide (m ≠ lit) && decide (w.s.values m = 0))) (Spec.neg m) := fun m hm hne =>
                  .assumed ((hmem _).2 (by rw [neg_neg]; exact ⟨by rw [hcl]; exact hc.mem m hm, hne, c3 m hm⟩))
                have hup := all_up m1.inv (A := fun l => Spec.neg l ∈ (w.s.clause cand).lits.filter
                    (fun m => decide (m ≠ lit) && decide (w.s.values m = 0))) fun e he hd => by
                  rcases List.mem_cons.1 (m1.dec e he hd) with rfl | he
                  · refine .unit (Struct.clause_formula hwg) (by rw [hcl]; exact hc.mem lit hlit) fun m hm hne => ?_
                    rw [hcl] at hm
                    rcases hc.rest m hm with h1 | h1
                    · exact hsorted m h1 hne
                    · exact hroot m (hk.neg m h1)
                  · have := hsorted _ (hbd e he hd) fun e' => v2 e he (by rw [← e', neg_div])
                    rw [neg_neg] at this
                    exact this
                refine ⟨_, Struct.clause_formula r1, fun m hm => ?_⟩
                rcases value_false (r3 m hm) with h1 | ⟨e, e1, e2⟩
                · exact hroot m h1
                · rw [← e2]; exact hup e e1
              obtain ⟨i1, i2⟩ := m1.inv.inv.replace hwg (fun x hx => ((hmem x).1 hx).1) hnd hsz
                (fun x hx => by rw [hk.removed]; exact hc.removed x (by rw [← hcl]; exact ((hmem x).1 hx).1)) hrup
              have hfin : VDone orig p.s { w with s := (w.s.newClause ((w.s.clause cand).lits.filter
                  (fun m => decide (m ≠ lit) && decide (w.s.values m = 0))) (w.s.clause cand).redundant).markGarbage cand } :=
                ⟨m1.inv.change i1 (compat_replace m1.inv.trail hwg (by rw [hcl]; exact hc.large) m1.not _ _), hk.pres.trans i2⟩
              split at he
              · cases he; exact hfin.backtrack _
              · cases he; exact hfin.backtrack _

/-! ## Decisions -/

theorem VDone.decided {orig : List (List Nat)} {p : VState} {o : VivifyOptions} {cand : Nat} {sorted : List Nat} {conflict implied : Option Nat}
    (h : VInv orig p) (hn : NotReason cand p.trail) (hc : Cand p cand sorted)
    (hdec : (∀ e ∈ p.trail, e.reason = .decision → Spec.neg e.lit ∈ sorted) ∨
      (conflict = none ∧ implied = none ∧ sorted.length < p.level ∧
        ∀ x ∈ sorted, ∃ e ∈ p.trail, e.reason = .decision ∧ e.lit = Spec.neg x))
    (hconf : ∀ r, conflict = some r → Conflicting p cand r)
    (himp : ∀ i, implied = some i → i ∈ sorted ∧ ∃ e ∈ p.trail, e.lit = i)
    {p' : VState} (he : p.decide o cand sorted conflict implied = some p') : VDone orig p.s p' := by
  have hS := h.inv.struct
  have hU : ∀ l ∈ p.s.trail, (p.s.markGarbage cand).irr [l] := fun l hl => Or.inl ⟨l, hl, rfl⟩
  unfold VState.decide at he
  cases hd : p.deduce cand sorted conflict implied with
  | none => rw [hd] at he; cases he
  | some d =>
    rw [hd] at he
    have hspec := deduce_spec h hn hc (hdec.imp_right fun h => ⟨h.1, h.2.1, h.2.2.2⟩) hconf himp hd
    cases d with
    | subsumed r =>
      cases r with
      | none =>
        cases he
        refine .garbage h hn hc (Or.inr fun σ hσ => ?_)
        obtain ⟨e, e1, o', e2, e3, e4⟩ := hspec.binary rfl
        have hv := h.trail.valid e e1
        unfold Valid at hv
        rw [e2] at hv
        rcases litTrue_or_neg σ o' with ht | ht
        · exact ⟨o', hc.mem _ e4, ht⟩
        · refine ⟨e.lit, hc.mem _ e3, ?_⟩
          have hup : UP (p.s.markGarbage cand).irr (fun l => l = Spec.neg o') e.lit :=
            hv.1.up (binaries_garbage hc.live hc.large) (.assumed rfl)
          exact hup.sound hσ (by rintro l rfl; exact ht)
      | some r =>
        obtain ⟨r1, r2, r3⟩ := hspec.clause r rfl
        -- the subsuming clause implies the candidate
        have himpl : ∀ {F : Formula}, (∀ l ∈ p.s.trail, F [l]) → F (p.s.clause r).lits → Entails F (p.s.clause cand).lits := by
          intro F hFU hF σ hσ
          obtain ⟨m, m1, m2⟩ := hσ _ hF
          rcases r3 m m1 with h1 | h1
          · exact ⟨m, hc.mem m h1, m2⟩
          · exact absurd m2 (root_false hS hFU h1 hσ)
        dsimp only at he
        by_cases c1 : ((p.s.clause cand).redundant || !(p.s.clause r).redundant) = true
        · rw [if_pos c1] at he
          cases he
          refine .garbage h hn hc ?_
          cases hr : (p.s.clause cand).redundant with
          | true => exact Or.inl rfl
          | false =>
            rw [hr] at c1
            have c1 : (p.s.clause r).redundant = false := by simpa using c1
            exact Or.inr (himpl hU ((irr_garbage (clause_lt hc.live)).2 (Or.inr ⟨r, r1, r2, c1, rfl⟩)))
        · rw [if_neg c1] at he
          cases he
          have hrem : ∀ l ∈ (p.s.clause r).lits, p.s.removed (l / 2) = false := fun l hl => by
            rcases r3 l hl with h1 | h1
            · exact hc.removed l (hc.mem l h1)
            · have := (hS.unit (Spec.neg l) (by rw [hS.trail, hS.neg]; omega)).2
              rw [neg_div] at this
              exact this
          have h1 := h.inv.promote r2 hrem
          have hcand : (p.s.promote r).clause cand = p.s.clause cand := by
            rw [clause_promote (clause_lt r2), if_neg (Ne.symm r1)]
          have hg : ((p.s.promote r).clause cand).garbage = false := by rw [hcand]; exact hc.live
          have hi : ((p.s.promote r).clause cand).redundant = true ∨
              Entails ((p.s.promote r).markGarbage cand).irr ((p.s.promote r).clause cand).lits := by
            rw [hcand]
            refine Or.inr (himpl (fun l hl => Or.inl ⟨l, hl, rfl⟩) ((irr_garbage (clause_lt hg)).2 (Or.inr ⟨r, r1, ?_⟩)))
            rw [clause_promote (clause_lt r2), if_pos rfl]
            exact ⟨r2, rfl, rfl⟩
          have hcp := compat_promote h.trail r2
          exact ⟨h.change (h1.markGarbage hg hi) (hcp.trans (compat_garbage (h.trail.compat hcp) hg (by rw [hcand]; exact hc.large) hn)),
            (preserves_promote r2).trans (preserves_garbage hg hi)⟩
    | learned c S red =>
      obtain ⟨l1, l2, l3⟩ := hspec.learned c S red rfl
      dsimp only at he
      by_cases c1 : p.shrinkable sorted c S conflict.isSome = true
      · rw [if_pos c1] at he
        exact .learn h hn hc l1 l2 (Or.inl (l3 _ (binaries_formula _) units_formula fun r hg _ _ => Struct.clause_formula hg)) he
      · rw [if_neg c1] at he
        by_cases c2 : (implied.isSome && (p.s.clause cand).redundant) = true
        · rw [if_pos c2] at he
          cases he
          simp only [Bool.and_eq_true] at c2
          exact .garbage h hn hc (Or.inl c2.2)
        · rw [if_neg c2] at he
          by_cases c3 : ((conflict.isSome || implied.isSome) && !(p.s.clause cand).redundant && !red) = true
          · rw [if_pos c3] at he
            cases he
            simp only [Bool.and_eq_true, Bool.or_eq_true, Bool.not_eq_true'] at c3
            obtain ⟨⟨c3, _⟩, c4⟩ := c3
            refine .garbage h hn hc (Or.inr fun σ hσ => ?_)
            have hcon := l3 (p.s.markGarbage cand).irr (binaries_garbage hc.live hc.large) hU fun r hg hr hred => by
              refine (irr_garbage (clause_lt hc.live)).2 (Or.inr ⟨r, ?_, hg, ?_, rfl⟩)
              · rcases hr with hr | ⟨h1, h2⟩
                · exact hr
                · rw [h1, h2] at c3
                  simp at c3
              · cases hrr : (p.s.clause r).redundant with
                | false => rfl
                | true => rw [hred hrr] at c4; cases c4
            exact SatClause.mono (fun x hx => hc.mem x (l1 x hx)) (RUP.entails (Or.inl hcon) σ hσ)
          · rw [if_neg c3] at he
            by_cases c4 : implied.isSome = true
            · rw [if_pos c4] at he
              cases he
              exact ⟨h, .refl _⟩
            · rw [if_neg c4] at he
              refine .instantiate h hn hc (fun hl => hdec.resolve_right ?_) he
              rintro ⟨_, _, h3, _⟩
              omega

/-! ## One candidate -/

theorem mem_insertByCounts (counts : Nat → Nat) (a x : Nat) : ∀ l : List Nat, x ∈ insertByCounts counts a l ↔ x = a ∨ x ∈ l
  | [] => by unfold insertByCounts; simp
  | b :: l => by
    unfold insertByCounts
    split
    · simp
    · rw [List.mem_cons, mem_insertByCounts counts a x l, List.mem_cons]
      constructor
      · rintro (h | h | h)
        · exact Or.inr (Or.inl h)
        · exact Or.inl h
        · exact Or.inr (Or.inr h)
      · rintro (h | h | h)
        · exact Or.inr (Or.inl h)
        · exact Or.inl h
        · exact Or.inr (Or.inr h)

theorem mem_sortByCounts (counts : Nat → Nat) (x : Nat) : ∀ l : List Nat, x ∈ sortByCounts counts l ↔ x ∈ l
  | [] => Iff.rfl
  | b :: l => by
    show x ∈ insertByCounts counts b (sortByCounts counts l) ↔ _
    rw [mem_insertByCounts, mem_sortByCounts counts x l, List.mem_cons]

theorem value_pos_of {p : VState} {e : VEntry} (he : e ∈ p.trail) : p.value e.lit = 1 := by
  rw [value_eq, if_pos ⟨e, he, rfl⟩]

theorem value_neg_of {orig : List (List Nat)} {p : VState} (hS : Struct orig p.s) (hT : VT p.s p.trail) {m k : Nat}
    (h : p.s.values m < 0 ∨ On p.trail (Spec.neg m) k) : p.value m < 0 := by
  rcases h with h | ⟨e, e1, e2, _⟩
  · rw [value_root hS hT (by omega)]; exact h
  · rw [value_eq, if_neg, if_pos ⟨e, e1, e2⟩]
    · decide
    · rintro ⟨e', h1, h2⟩
      have := hT.inj e' h1 e e1 (by rw [h2, e2, neg_div])
      rw [this, e2] at h2
      exact neg_ne m h2

/-- Is the candidate a reason then that is found out. -/
theorem not_reason {orig : List (List Nat)} {p : VState} (h : VInv orig p) {cand : Nat} (hg : (p.s.clause cand).garbage = false) :
    NotReason cand (p.unreason cand).trail := by
  have hS := h.inv.struct
  have key : ∀ e ∈ p.trail, e.reason = .clause cand → p.reasonLevel cand = some e.level := by
    intro e he hr
    have hv := h.trail.valid e he
    unfold Valid at hv
    rw [hr] at hv
    obtain ⟨v1, v2, v3⟩ := hv
    have hf : (p.s.clause cand).lits.filter (fun l => !decide (p.value l < 0)) = [e.lit] := by
      have hmem : ∀ m, m ∈ (p.s.clause cand).lits.filter (fun l => !decide (p.value l < 0)) ↔ m = e.lit := by
        intro m
        rw [List.mem_filter]
        constructor
        · rintro ⟨m1, m2⟩
          by_cases e' : m = e.lit
          · exact e'
          · have := value_neg_of hS h.trail (v3 m m1 e')
            simp [this] at m2
        · rintro rfl
          refine ⟨v2, ?_⟩
          rw [value_pos_of he]; rfl
      have hnd := (hS.nodup cand hg).filter (fun l => !decide (p.value l < 0))
      generalize (p.s.clause cand).lits.filter (fun l => !decide (p.value l < 0)) = f at hmem hnd
      match f, hmem, hnd with
      | [], hmem, _ => have := (hmem e.lit).2 rfl; cases this
      | [a], hmem, _ => rw [(hmem a).1 (by simp)]
      | a :: b :: f, hmem, hnd =>
        have h1 := (hmem a).1 (by simp)
        have h2 := (hmem b).1 (by simp)
        rw [h1, h2] at hnd
        simp at hnd
    unfold VState.reasonLevel
    rw [hf]
    dsimp only
    rw [entry_mem h.trail he]
    obtain ⟨l, k, re⟩ := e
    dsimp only at hr
    subst hr
    dsimp only
    rw [if_pos rfl]
  intro e he hr
  unfold VState.unreason at he
  cases hl : p.reasonLevel cand with
  | none =>
    rw [hl] at he
    rw [key e he hr] at hl
    cases hl
  | some level =>
    rw [hl] at he
    obtain ⟨e1, e2⟩ := List.mem_filter.1 he
    have e2 : e.level ≤ level - 1 := by simpa using e2
    have h3 := (h.trail.free e e1).2.2.2
    rw [key e e1 hr] at hl
    injection hl with hl
    omega

theorem VDone.clause {orig : List (List Nat)} {p : VState} {o : VivifyOptions} {cand : Nat} (h : VInv orig p)
    (hlen : 3 ≤ (p.s.clause cand).lits.length) {p' : VState} (he : p.vivifyClause o cand = some p') : VDone orig p.s p' := by
  have hS := h.inv.struct
  unfold VState.vivifyClause at he
  dsimp only at he
  by_cases c1 : ((p.s.clause cand).garbage || (p.s.clause cand).lits.any fun l => p.s.removed (l / 2)) = true
  · rw [if_pos c1] at he
    cases he
    exact ⟨h, .refl _⟩
  · rw [if_neg c1] at he
    simp only [Bool.or_eq_true, not_or, List.any_eq_true, not_exists, not_and, Bool.not_eq_true] at c1
    obtain ⟨hg, hrem⟩ := c1
    by_cases c2 : ((p.s.clause cand).lits.any fun l => decide (p.s.values l > 0)) = true
    · rw [if_pos c2] at he
      cases he
      simp only [List.any_eq_true, decide_eq_true_eq] at c2
      obtain ⟨l, l1, l2⟩ := c2
      have hn : NotReason cand p.trail := fun e e1 hr => by
        have hv := h.trail.valid e e1
        unfold Valid at hv
        rw [hr] at hv
        by_cases e2 : l = e.lit
        · have := (h.trail.free e e1).1
          rw [e2] at l2; omega
        · have := value_neg_of hS h.trail (hv.2.2 l l1 e2)
          rw [value_root hS h.trail (by omega)] at this
          omega
      have hi : (p.s.clause cand).redundant = true ∨ Entails (p.s.markGarbage cand).irr (p.s.clause cand).lits :=
        Or.inr fun σ hσ => SatClause.mono (c := [l]) (fun x hx => by rw [List.mem_singleton.1 hx]; exact l1)
          (hσ [l] (Or.inl ⟨l, (hS.trail l).2 l2, rfl⟩))
      exact ⟨h.change (h.inv.markGarbage hg hi) (compat_garbage h.trail hg hlen hn), preserves_garbage hg hi⟩
    · rw [if_neg c2] at he
      have c2 : ∀ l ∈ (p.s.clause cand).lits, p.s.values l ≤ 0 := by simpa using c2
      by_cases c3 : ((p.s.clause cand).lits.filter fun l => decide (p.s.values l = 0)).length ≤ 2
      · rw [if_pos c3] at he
        cases he
        exact ⟨h, .refl _⟩
      · rw [if_neg c3] at he
        have hn := not_reason h hg
        have hq : (p.unreason cand).s = p.s ∧ VInv orig (p.unreason cand) := by
          unfold VState.unreason
          cases p.reasonLevel cand with
          | none => exact ⟨rfl, h⟩
          | some level => exact ⟨rfl, h.backtrack _⟩
        obtain ⟨hqs, hqi⟩ := hq
        generalize p.unreason cand = q at he hn hqs hqi
        have hmem : ∀ x, x ∈ sortByCounts o.counts ((p.s.clause cand).lits.filter fun l => decide (p.s.values l = 0)) ↔
            x ∈ (p.s.clause cand).lits ∧ p.s.values x = 0 := by
          intro x; rw [mem_sortByCounts, List.mem_filter]; simp
        generalize sortByCounts o.counts ((p.s.clause cand).lits.filter fun l => decide (p.s.values l = 0)) = sorted at he hmem
        have hrange : ∀ x ∈ sorted, p.s.InRange x ∧ p.s.removed (x / 2) = false := fun x hx =>
          ⟨hS.clause cand hg x ((hmem x).1 hx).1, hrem x ((hmem x).1 hx).1⟩
        have ha : AOut orig cand sorted q.s (q.assumeLoop o.jump cand sorted 0 o.orders sorted) :=
          assume_spec sorted [] 0 o.orders rfl rfl hqi hn (by rw [hqs]; exact hrange)
            (fun e he _ hl => by have := (hqi.trail.free e he).2.2.2; omega) (Or.inr fun x hx => (by cases hx))
        generalize q.assumeLoop o.jump cand sorted 0 o.orders sorted = a at he ha
        rw [hqs] at ha
        by_cases c4 : (sorted.any fun l => decide (a.p.s.values l ≠ 0)) = true
        · rw [if_pos c4] at he; cases he
        · rw [if_neg c4] at he
          have c4 : ∀ x ∈ sorted, a.p.s.values x = 0 := by simpa using c4
          have hk := ha.keeps
          have hcl : ∀ k, a.p.s.clause k = p.s.clause k := fun k => by unfold State.clause; rw [hk.arena]
          have hcand : Cand a.p cand sorted := by
            refine ⟨by rw [hcl]; exact hg, fun x hx => by rw [hcl]; exact ((hmem x).1 hx).1, fun m hm => ?_, c4, ?_, by rw [hcl]; exact hlen,
              fun x hx => ?_, fun l hl => ?_⟩
            · rw [hcl] at hm
              by_cases hv : p.s.values m = 0
              · exact Or.inl ((hmem m).2 ⟨hm, hv⟩)
              · have := c2 m hm
                exact Or.inr (hk.neg m (by omega))
            · have e1 : (a.p.s.clause cand).lits.filter (fun m => decide (a.p.s.values m = 0)) =
                  (p.s.clause cand).lits.filter (fun m => decide (p.s.values m = 0)) := by
                rw [hcl]
                refine List.filter_congr fun m hm => ?_
                by_cases hv : p.s.values m = 0
                · rw [hv, c4 m ((hmem m).2 ⟨hm, hv⟩)]
                · have := c2 m hm
                  have h2 := hk.neg m (by omega)
                  have e2 : ¬ a.p.s.values m = 0 := by omega
                  simp [hv, e2]
              rw [e1]
              omega
            · have := (hrange x hx).1
              unfold State.InRange at this ⊢
              rw [hk.exports]; exact this
            · rw [hcl] at hl
              rw [hk.removed]; exact hrem l hl
          cases hdd : a.p.decide o cand sorted a.conflict (if a.implied = true then a.p.betterImplied sorted else none) with
          | none => rw [hdd] at he; cases he
          | some w =>
            rw [hdd] at he
            cases he
            have hfin := VDone.decided ha.inv ha.not hcand (ha.dec.imp_right fun ⟨h1, h2, h3⟩ => ⟨h1, by rw [h2]; rfl, h3⟩) ha.conflict
              (fun i hi => by
                by_cases c5 : a.implied = true
                · rw [if_pos c5] at hi
                  unfold VState.betterImplied at hi
                  obtain ⟨e, e1, e2⟩ := Option.map_eq_some_iff.1 hi
                  have e3 := List.mem_of_find?_eq_some e1
                  have e4 := List.find?_some e1
                  rw [← e2]
                  exact ⟨by simpa using e4, e, by simpa using e3, rfl⟩
                · rw [if_neg c5] at hi; cases hi) hdd
            exact ⟨hfin.inv.backtrack _, hk.pres.trans hfin.pres⟩

/-! ## Rounds -/

theorem VDone.loop {orig : List (List Nat)} : ∀ (sched : List (Nat × VivifyOptions)) {p : VState}, VInv orig p →
    ∀ {p' : VState}, p.vivifyLoop sched = some p' → VDone orig p.s p'
  | [], p, h, p', he => by
    unfold VState.vivifyLoop at he
    cases he
    exact ⟨h, .refl _⟩
  | (cand, o) :: rest, p, h, p', he => by
    unfold VState.vivifyLoop at he
    by_cases c1 : p.s.inconsistent = true
    · rw [if_pos c1] at he
      cases he
      exact ⟨h, .refl _⟩
    · rw [if_neg c1] at he
      by_cases c2 : (p.s.clause cand).lits.length ≤ 2
      · rw [if_pos c2] at he
        exact VDone.loop rest h he
      · rw [if_neg c2] at he
        cases hc : p.vivifyClause o cand with
        | none => rw [hc] at he; cases he
        | some q =>
          rw [hc] at he
          have h1 := VDone.clause h (by omega) hc
          have h2 := VDone.loop rest h1.inv he
          exact ⟨h2.inv, h1.pres.trans h2.pres⟩

theorem Inv.vivifySimplify {orig : List (List Nat)} {s : State} (h : Inv orig none s) {r : Nat} {s' : State}
    (he : s.vivifySimplify r = some s') : Inv orig none s' ∧ Preserves s s' := by
  have hS := h.struct
  unfold State.vivifySimplify at he
  dsimp only at he
  by_cases c1 : ((s.clause r).garbage || decide ((s.clause r).lits.length ≤ 2) || (s.clause r).lits.any fun l => s.removed (l / 2)) = true
  · rw [if_pos c1] at he
    cases he
    exact ⟨h, .refl _⟩
  · rw [if_neg c1] at he
    simp only [Bool.or_eq_true, not_or, Bool.not_eq_true, decide_eq_true_eq, List.any_eq_true, not_exists, not_and] at c1
    obtain ⟨⟨hg, hlen⟩, hrem⟩ := c1
    by_cases c2 : ((s.clause r).lits.any fun l => decide (s.values l > 0)) = true
    · rw [if_pos c2] at he
      cases he
      simp only [List.any_eq_true, decide_eq_true_eq] at c2
      obtain ⟨l, l1, l2⟩ := c2
      have hi : (s.clause r).redundant = true ∨ Entails (s.markGarbage r).irr (s.clause r).lits :=
        Or.inr fun σ hσ => SatClause.mono (c := [l]) (fun x hx => by rw [List.mem_singleton.1 hx]; exact l1)
          (hσ [l] (Or.inl ⟨l, (hS.trail l).2 l2, rfl⟩))
      exact ⟨h.markGarbage hg hi, preserves_garbage hg hi⟩
    · rw [if_neg c2] at he
      have c2 : ∀ l ∈ (s.clause r).lits, s.values l ≤ 0 := by simpa using c2
      split at he
      · cases he
        exact ⟨h, .refl _⟩
      · split at he
        · rename_i c4
          cases he
          have hmem : ∀ m, m ∈ (s.clause r).lits.filter (fun m => decide (s.values m = 0)) ↔ m ∈ (s.clause r).lits ∧ s.values m = 0 := by
            intro m; rw [List.mem_filter]; simp
          refine h.replace hg (fun x hx => ((hmem x).1 hx).1) ((hS.nodup r hg).filter _) c4 (fun x hx => hrem x ((hmem x).1 hx).1) ?_
          · refine rup_of (Struct.clause_formula hg) fun l hl => ?_
            by_cases e : s.values l = 0
            · exact Or.inl ((hmem l).2 ⟨hl, e⟩)
            · have := c2 l hl
              exact Or.inr (hS.neg_unit (by omega))
        · cases he

theorem Inv.vivifySimplifyAll {orig : List (List Nat)} : ∀ (rs : List Nat) {s : State}, Inv orig none s → ∀ {s' : State},
    s.vivifySimplifyAll rs = some s' → Inv orig none s' ∧ Preserves s s'
  | [], s, h, s', he => by
    unfold State.vivifySimplifyAll at he
    cases he
    exact ⟨h, .refl _⟩
  | r :: rs, s, h, s', he => by
    unfold State.vivifySimplifyAll at he
    cases hv : s.vivifySimplify r with
    | none => rw [hv] at he; cases he
    | some t =>
      rw [hv] at he
      obtain ⟨h1, h2⟩ := h.vivifySimplify hv
      obtain ⟨h3, h4⟩ := Inv.vivifySimplifyAll rs h1 he
      exact ⟨h3, h2.trans h4⟩

theorem Inv.vivifyRound {orig : List (List Nat)} {s : State} (h : Inv orig none s) {simplified : List Nat}
    {sched : List (Nat × VivifyOptions)} {s' : State} (he : s.vivifyRound simplified sched = some s') :
    Inv orig none s' ∧ Preserves s s' := by
  unfold State.vivifyRound at he
  cases hv : s.vivifySimplifyAll simplified with
  | none => rw [hv] at he; cases he
  | some t =>
    rw [hv] at he
    obtain ⟨h1, h2⟩ := h.vivifySimplifyAll _ hv
    obtain ⟨p, hp, rfl⟩ := Option.map_eq_some_iff.1 he
    have h3 := VDone.loop sched (VInv.empty h1) hp
    exact ⟨h3.inv.inv, h2.trans h3.pres⟩

end Verif.Simp
