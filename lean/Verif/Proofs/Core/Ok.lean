import Verif.Proofs.Drat
import Verif.Proofs.Core.Assign

/-! # Relation between solver state, proof checker and original formula -/

namespace Verif.Core

open Verif.Spec

/-- Number of live large clauses with the same literals as `X`. -/
def Solver.copies (s : Solver) (X : List Nat) : Nat :=
  s.arena.countP fun c => !c.garbage && sameLits X c.lits

/-- The checker's clauses `db` cover the clauses of the solver. -/
structure Covers (s : Solver) (db : List (List Nat)) : Prop where
  large : ∀ X, s.copies X ≤ db.countP (sameLits X)
  bin : ∀ a b, (s.watches a).count (.binary b) ≤ db.countP (sameLits [a, b])
  unit : ∀ l, s.values l = 1 → s.lev l = 0 → ∃ d ∈ db, SameLits [l] d
  empty : s.inconsistent = true → [] ∈ db

/-- How proof lines are accepted: a relation between the number of variables, the
lines written and the clauses a proof checker holds, closed under adding clauses with
the RUP property. -/
structure Base where
  R : Nat → List Line → List (List Nat) → Prop
  add : ∀ {n lines db c}, R n lines db → RUP (ofList db) c → (∀ l ∈ c, l / 2 < n) →
    R n (lines ++ [.add c]) (c :: db)

/-- The checker also accepts the deletion of clauses it holds. -/
class Deletes (orig : Base) : Prop where
  delete : ∀ {n lines db c}, orig.R n lines db → (∀ l ∈ c, l / 2 < n) →
    (∃ d ∈ db, SameLits c d) → orig.R n (lines ++ [.delete c]) (deleteClause db c)

/-- The proof written so far is accepted and covers the solver's clauses. -/
def PInv (orig : Base) (s : Solver) : Prop :=
  ∃ db, orig.R s.vars s.proof db ∧ Covers s db

/-- Everything we know between steps.  `orig` is the proof checker, `G` is a property of all models of the irredundant clauses. -/
structure Ok (orig : Base) (G : Assignment → Prop) (s : Solver) : Prop where
  inv : Inv s
  proof : PInv orig s
  irr : ∀ σ, SatFormula σ s.irr → G σ

/-- The structural invariants where reasons are only known to be intact below level
`L` or before trail position `k`. -/
structure InvAt (s : Solver) (L k : Nat) : Prop where
  trail : TrailInv s
  reason : ReasonInv s L k
  clause : ClauseInv s
  watch : WatchInv s

theorem Inv.at {s : Solver} (h : Inv s) (L k : Nat) (hL : L ≤ s.level + 1) : InvAt s L k :=
  ⟨h.trail, ⟨h.reason.1, h.reason.2, h.reason.3, h.reason.4, fun l r hv hre _ =>
    h.reason.large l r hv hre (.inl (Nat.lt_succ_of_le (h.trail.levle l hv)))⟩,
    h.clause, h.watch⟩

/-- The analogue of `Ok`. -/
structure OkAt (orig : Base) (G : Assignment → Prop) (L k : Nat) (s : Solver) :
    Prop where
  inv : InvAt s L k
  proof : PInv orig s
  irr : ∀ σ, SatFormula σ s.irr → G σ

theorem Ok.at {orig : Base} {G : Assignment → Prop} {s : Solver} (h : Ok orig G s)
    (L k : Nat) (hL : L ≤ s.level + 1) : OkAt orig G L k s :=
  ⟨h.inv.at L k hL, h.proof, h.irr⟩

theorem OkAt.ok {orig : Base} {G : Assignment → Prop} {s : Solver} {k : Nat}
    (h : OkAt orig G (s.level + 1) k s) : Ok orig G s :=
  ⟨⟨h.inv.trail, ⟨h.inv.reason.1, h.inv.reason.2, h.inv.reason.3, h.inv.reason.4,
    fun l r hv hre _ => h.inv.reason.large l r hv hre
      (.inl (Nat.lt_succ_of_le (h.inv.trail.levle l hv)))⟩, h.inv.clause, h.inv.watch⟩,
    h.proof, h.irr⟩

/-- The watch invariant except for some pairs of clause and watched literal
(`exL`) and some binary clauses (`exB`). -/
structure WatchingX (s : Solver) (k : Nat) (exL exB : Nat → Nat → Prop) : Prop where
  large : ∀ r w, ¬ exL r w → s.Live r → (s.clause r).Watched w → s.values w = -1 →
    neg w ∉ s.trail.drop k → s.Satisfying (s.clause r).lits w ∨ s.Excused k (s.clause r) w
  binary : ∀ w o, ¬ exB w o → Watch.binary o ∈ s.watches w → s.values w = -1 →
    neg w ∉ s.trail.drop k → s.Satisfying [o] w

theorem Watching.x {s : Solver} {k : Nat} (h : Watching s k) (exL exB : Nat → Nat → Prop) :
    WatchingX s k exL exB := ⟨fun r w _ hl hw => h.large r hl w hw, fun w o _ => h.binary w o⟩

theorem WatchingX.weaken {s : Solver} {k : Nat} {exL exB exL' exB' : Nat → Nat → Prop}
    (h : WatchingX s k exL exB) (hl : ∀ r w, exL r w → exL' r w)
    (hb : ∀ w o, exB w o → exB' w o) : WatchingX s k exL' exB' :=
  ⟨fun r w he => h.large r w fun h' => he (hl r w h'),
   fun w o he => h.binary w o fun h' => he (hb w o h')⟩

theorem WatchingX.watching {s : Solver} {k : Nat} {exL exB : Nat → Nat → Prop}
    (h : WatchingX s k exL exB)
    (he : ∀ r w, exL r w → s.Live r → (s.clause r).Watched w → s.values w = -1 →
      neg w ∉ s.trail.drop k → s.Satisfying (s.clause r).lits w)
    (hb : ∀ w o, exB w o → Watch.binary o ∈ s.watches w → s.values w = -1 →
      neg w ∉ s.trail.drop k → s.Satisfying [o] w) : Watching s k :=
  ⟨fun r hl w => by
    by_cases hr : exL r w
    · exact fun a b c => .inl (he r w hr hl a b c)
    · exact h.large r w hr hl, fun w o => by
    by_cases hr : exB w o
    · exact hb w o hr
    · exact h.binary w o hr⟩

theorem clause_lt {s : Solver} {r : Nat} (h : s.Live r) : r < s.arena.length := by
  by_cases hr : r < s.arena.length
  · exact hr
  · unfold Solver.Live Solver.clause at h
    rw [List.getD_eq_getElem?_getD, List.getElem?_eq_none (by omega)] at h
    cases h

theorem clause_get {s : Solver} {r : Nat} (h : r < s.arena.length) :
    s.arena[r]? = some (s.clause r) := by
  unfold Solver.clause
  rw [List.getD_eq_getElem?_getD, List.getElem?_eq_getElem h]; rfl

theorem clause_mem {s : Solver} {r : Nat} (h : r < s.arena.length) : s.clause r ∈ s.arena :=
  List.mem_iff_getElem?.2 ⟨r, clause_get h⟩

theorem count_same {db : List (List Nat)} {c : List Nat} :
    0 < db.countP (sameLits c) ↔ ∃ d ∈ db, SameLits c d := by
  rw [List.countP_pos_iff]
  exact ⟨fun ⟨d, hd, hs⟩ => ⟨d, hd, sameLits_iff.1 hs⟩, fun ⟨d, hd, hs⟩ => ⟨d, hd, sameLits_iff.2 hs⟩⟩

theorem Covers.binary {s : Solver} {db : List (List Nat)} (h : Covers s db) {a b : Nat}
    (hab : Watch.binary b ∈ s.watches a) : ∃ d ∈ db, SameLits [a, b] d :=
  count_same.1 (Nat.lt_of_lt_of_le (List.count_pos_iff.2 hab) (h.bin a b))

/-- The same binary clauses, as often. -/
def SameBin (W W' : Nat → List Watch) : Prop :=
  ∀ a b, (W a).count (.binary b) = (W' a).count (.binary b)

theorem SameBin.iff {W W' : Nat → List Watch} (h : SameBin W W') (a b : Nat) :
    Watch.binary b ∈ W a ↔ Watch.binary b ∈ W' a := by
  rw [← List.count_pos_iff, ← List.count_pos_iff, h a b]

theorem SameBin.refl (W : Nat → List Watch) : SameBin W W := fun _ _ => rfl

theorem SameBin.trans {W W' W'' : Nat → List Watch} (h : SameBin W W') (h' : SameBin W' W'') :
    SameBin W W'' := fun a b => (h a b).trans (h' a b)

theorem Covers.mem {s : Solver} {db : List (List Nat)} (h : Covers s db) {c : List Nat}
    (hc : s.formula c) : ∃ d, ofList db d ∧ SameLits c d := by
  rcases hc with ⟨r, hr, rfl⟩ | ⟨a, b, hab, rfl⟩ | ⟨l, hv, h0, rfl⟩
  · have h1 : 0 < s.copies (s.clause r).lits := by
      unfold Solver.copies
      rw [List.countP_pos_iff]
      refine ⟨_, clause_mem (clause_lt hr), ?_⟩
      have : (s.clause r).garbage = false := hr
      simp [this, sameLits_iff.2 (SameLits.refl _)]
    have h2 := Nat.lt_of_lt_of_le h1 (h.large _)
    rw [List.countP_pos_iff] at h2
    obtain ⟨d, hd, hs⟩ := h2
    exact ⟨d, hd, sameLits_iff.1 hs⟩
  · exact h.binary hab
  · exact h.unit l hv h0

theorem Covers.rup {s : Solver} {db : List (List Nat)} (h : Covers s db) {c : List Nat}
    (hc : RUP s.formula c) : RUP (ofList db) c := hc.mono (fun _ hd => h.mem hd) fun _ h => h

/-- Adding a line that is RUP. -/
theorem PInv.emit_add {orig : Base} {s : Solver} (h : PInv orig s) {c : List Nat}
    (hc : RUP s.formula c) (hv : ∀ l ∈ c, l / 2 < s.vars) :
    ∃ db, orig.R s.vars (s.emit (.add c)).proof (c :: db) ∧ Covers s db := by
  obtain ⟨db, h1, h2⟩ := h
  exact ⟨db, orig.add h1 (h2.rup hc) hv, h2⟩

theorem Covers.cons {s : Solver} {db : List (List Nat)} (h : Covers s db) (c : List Nat) :
    Covers s (c :: db) :=
  ⟨fun X => by
    rw [List.countP_cons]; exact Nat.le_trans (h.large X) (Nat.le_add_right _ _),
   fun a b => by
    rw [List.countP_cons]; exact Nat.le_trans (h.bin a b) (Nat.le_add_right _ _),
   fun l hv h0 => by obtain ⟨d, hd, hs⟩ := h.unit l hv h0; exact ⟨d, .tail _ hd, hs⟩,
   fun hi => .tail _ (h.empty hi)⟩

theorem PInv.emit {orig : Base} {s : Solver} (h : PInv orig s) {c : List Nat}
    (hc : RUP s.formula c) (hv : ∀ l ∈ c, l / 2 < s.vars) : PInv orig (s.emit (.add c)) := by
  obtain ⟨db, h1, h2⟩ := h.emit_add hc hv
  have h2 := h2.cons c
  exact ⟨c :: db, h1, ⟨h2.1, h2.2, h2.3, h2.4⟩⟩

/-- Copies after replacing a live clause. -/
theorem copies_set {s : Solver} {r : Nat} (hr : r < s.arena.length) (c : Clause) (X : List Nat) :
    (s.setClause r c).copies X +
      (if !(s.clause r).garbage && sameLits X (s.clause r).lits then 1 else 0) =
    s.copies X + (if !c.garbage && sameLits X c.lits then 1 else 0) := by
  have key : ∀ (l : List Clause) (r : Nat) (d : Clause) (p : Clause → Bool), l[r]? = some d →
      (l.set r c).countP p + (if p d then 1 else 0) = l.countP p + (if p c then 1 else 0) := by
    intro l
    induction l with
    | nil => intro r d p h; simp at h
    | cons a l ih =>
      intro r d p h
      cases r with
      | zero =>
        simp at h; subst h
        simp [List.countP_cons]; omega
      | succ r =>
        simp at h
        have := ih r d p h
        simp [List.countP_cons]; omega
  exact key s.arena r (s.clause r) _ (clause_get hr)

theorem setClause_clause {s : Solver} {r : Nat} {c : Clause} (r' : Nat) (hr : r < s.arena.length) :
    (s.setClause r c).clause r' = if r' = r then c else s.clause r' := by
  unfold Solver.clause Solver.setClause
  rw [List.getD_eq_getElem?_getD, List.getD_eq_getElem?_getD, List.getElem?_set]
  by_cases h : r = r'
  · subst h; simp [hr]
  · rw [if_neg h, if_neg (fun e => h e.symm)]

theorem setClause_same {s : Solver} {r : Nat} {c : Clause} (hr : r < s.arena.length) :
    (s.setClause r c).clause r = c := by rw [setClause_clause r hr, if_pos rfl]

theorem setClause_other {s : Solver} {r r' : Nat} {c : Clause} (h : r' ≠ r) :
    (s.setClause r c).clause r' = s.clause r' := by
  unfold Solver.clause Solver.setClause
  rw [List.getD_eq_getElem?_getD, List.getD_eq_getElem?_getD, List.getElem?_set_ne (Ne.symm h)]

/-- Root level assignment: derivable by unit propagation. -/
theorem ReasonOk.up {s : Solver} (ht : TrailInv s) {lit : Nat} {reason : Reason}
    (h : ReasonOk s 0 lit reason) (hu : reason ≠ .unit) :
    UP s.formula (fun _ => False) lit := by
  have units : ∀ m, s.values m = -1 → s.lev m = 0 → UP s.formula (fun _ => False) (neg m) :=
    fun m hv h0 => UP.of_unit (formula_unit (ht.neg_pos.2 hv) (by rw [lev_neg]; exact h0))
  cases reason with
  | unit => exact absurd rfl hu
  | decision => exact h.elim
  | binary o =>
    obtain ⟨h1, h2, h3⟩ := h
    exact (UP.bins h3).mono (fun c hc => ⟨c, hc, .refl c⟩) (by rintro x rfl; exact units o h1 h2)
  | large r =>
    obtain ⟨h1, h2, h3, _⟩ := h
    refine .unit (formula_large h1) ?_ fun m hm hne =>
      units m (h3 m hm hne).1 (by have := (h3 m hm hne).2; omega)
    rcases h2 with h | h <;> exact List.mem_iff_getElem?.2 ⟨_, h⟩

theorem irr_assignCore {s : Solver} (ht : TrailInv s) {level lit : Nat} {reason : Reason}
    (h0 : s.values lit = 0) {σ : Assignment}
    (h : SatFormula σ (s.assignCore level lit reason).irr) : SatFormula σ s.irr := by
  intro c hc
  refine h c ?_
  rcases hc with hc | hc | ⟨l, hv, hl, e⟩
  · exact .inl hc
  · exact .inr (.inl hc)
  · have := assignCore_old (level := level) (reason := reason) ht h0 (x := l) (by omega)
    exact .inr (.inr ⟨l, by rw [this.1]; exact hv, by rw [this.2.1]; exact hl, e⟩)

theorem Covers.assignCore {s : Solver} (ht : TrailInv s) {level lit : Nat} {reason : Reason}
    (h0 : s.values lit = 0) {db : List (List Nat)} (h : Covers s db)
    (hl : level = 0 → [lit] ∈ db) : Covers (s.assignCore level lit reason) db := by
  refine ⟨h.large, h.bin, fun l hv hlev => ?_, h.empty⟩
  rw [assignCore_values] at hv
  split at hv
  · cases hv
  · split at hv
    · rename_i e; subst e
      rw [assignCore_lev, if_pos rfl] at hlev
      exact ⟨_, hl hlev, .refl _⟩
    · have o := assignCore_old (level := level) (reason := reason) ht h0 (x := l) (by omega)
      exact h.unit l hv (by rw [← o.2.1]; exact hlev)

theorem Ok.assign {orig : Base} {G : Assignment → Prop} {s : Solver} (h : Ok orig G s)
    {level lit : Nat} {reason : Reason} (ha : AssignOk s level lit reason)
    (hu : reason ≠ .unit) : Ok orig G (s.assign level lit reason) := by
  have hi := h.inv.assign ha
  obtain ⟨db, h1, h2⟩ := h.proof
  by_cases h0 : level = 0
  · subst h0
    have e : s.assign 0 lit reason = (s.assignCore 0 lit .unit).emit (.add [lit]) := by
      unfold Solver.assign; rw [if_pos rfl, if_neg hu]
    have hr : RUP s.formula [lit] := .of_UP (ha.ok.up h.inv.trail hu)
    rw [e] at hi ⊢
    refine ⟨hi, ⟨[lit] :: db, orig.add h1 (h2.rup hr) (fun l hl => by rw [List.mem_singleton.1 hl]; exact ha.valid.1), ?_⟩, fun σ hσ => ?_⟩
    · have := (h2.cons [lit]).assignCore (level := 0) (reason := .unit) h.inv.trail ha.zero
        (fun _ => by simp)
      exact ⟨this.1, this.2, this.3, this.4⟩
    · exact h.irr σ (irr_assignCore (level := 0) (reason := .unit) h.inv.trail ha.zero hσ)
  · have e : s.assign level lit reason = s.assignCore level lit reason := by
      unfold Solver.assign; rw [if_neg h0]
    rw [e] at hi ⊢
    exact ⟨hi, ⟨db, h1, h2.assignCore h.inv.trail ha.zero fun h => absurd h h0⟩,
      fun σ hσ => h.irr σ (irr_assignCore h.inv.trail ha.zero hσ)⟩

/-- `kissat_learned_unit`. -/
theorem Ok.learnedUnit {orig : Base} {G : Assignment → Prop} {s : Solver}
    (h : Ok orig G s) {lit : Nat} (h0 : s.values lit = 0) (hv : s.Valid lit)
    (hr : RUP s.formula [lit]) : Ok orig G (s.learnedUnit lit) := by
  have ha : AssignOk s 0 lit .unit := ⟨h0, hv, Nat.zero_le _, rfl⟩
  have hi := (h.inv.assign ha).emit (.add [lit])
  obtain ⟨db, h1, h2⟩ := h.proof
  have e : s.learnedUnit lit = (s.assignCore 0 lit .unit).emit (.add [lit]) := by
    unfold Solver.learnedUnit Solver.assignUnit Solver.assign; rw [if_pos rfl, if_pos rfl]
  rw [e]
  have e' : s.assign 0 lit .unit = s.assignCore 0 lit .unit := by
    unfold Solver.assign; rw [if_pos rfl, if_pos rfl]
  rw [e'] at hi
  refine ⟨hi, ⟨[lit] :: db, orig.add h1 (h2.rup hr) (fun l hl => by rw [List.mem_singleton.1 hl]; exact hv.1), ?_⟩, fun σ hσ => ?_⟩
  · have := (h2.cons [lit]).assignCore (level := 0) (reason := .unit) h.inv.trail h0
      (fun _ => by simp)
    exact ⟨this.1, this.2, this.3, this.4⟩
  · exact h.irr σ (irr_assignCore (level := 0) (reason := .unit) h.inv.trail h0 hσ)

end Verif.Core
