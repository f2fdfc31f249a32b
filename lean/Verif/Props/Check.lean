import Verif.Proofs.Check.Check
import Verif.Spec.External

/-! # C57: the internal proof checker -/

namespace Verif.Props

open Verif.Spec Verif.Check

/-- External literals in the coding of `Spec.Cnf`: variables are counted from zero. -/
def lit (e : Int) : Nat := 2 * (e.natAbs - 1) + if e < 0 then 1 else 0

/-- All clauses the checker was given, checked or not. -/
def addedClauses (ops : List Op) : List (List Nat) :=
  ops.filterMap fun
    | .original es | .check es => some (es.map lit)
    | .remove _ => none

/-- The clauses which were added more often than removed. -/
def presentClauses (ops : List Op) : List (List Nat) :=
  ops.foldl (fun db o => match o with
    | .original es | .check es => es.map lit :: db
    | .remove es => deleteClause db (es.map lit)) []

/-- The operation is about a clause with different non zero literals. -/
def Op.Proper (o : Op) : Prop := o.clause.Nodup ∧ ∀ e ∈ o.clause, e ≠ 0

theorem coded_nodup {o : Op} (h : Op.Proper o) : (coded o.clause).Nodup := by
  obtain ⟨h, h0⟩ := h
  refine List.pairwise_map.2 (h.imp_of_mem fun {a b} ha hb hne e => hne ?_)
  have ha := h0 a ha
  have hb := h0 b hb
  unfold importLit at e
  split at e <;> split at e <;> omega

theorem added_mem (ops : List Op) : ∀ (S : List (List Nat)) (d : List Nat),
    d ∈ ops.foldl addStep S ↔ d ∈ addedClauses ops ∨ d ∈ S := by
  induction ops with
  | nil => simp [addedClauses]
  | cons o ops ih =>
    intro S d
    rw [List.foldl_cons, ih]
    cases o with
    | original es | check es =>
      simp only [addStep, addedClauses, List.filterMap_cons, List.mem_cons, coded]
      constructor
      · rintro (h | h | h)
        · exact .inl (.inr h)
        · exact .inl (.inl h)
        · exact .inr h
      · rintro ((h | h) | h)
        · exact .inr (.inl h)
        · exact .inl h
        · exact .inr (.inr h)
    | remove es => simp only [addStep, addedClauses, List.filterMap_cons]

theorem added_eq (ops : List Op) : ofList (ops.foldl addStep []) = ofList (addedClauses ops) :=
  funext fun d => propext (by unfold ofList; rw [added_mem]; simp)

theorem present_eq (ops : List Op) : ops.foldl dbStep [] = presentClauses ops := by
  unfold presentClauses
  congr 1

theorem present_nodup {ops : List Op} (h : ∀ o ∈ ops, Op.Proper o) :
    ∀ d ∈ presentClauses ops, d.Nodup := by
  rw [← present_eq]
  have : ∀ (ops : List Op) (db : List (List Nat)), (∀ o ∈ ops, Op.Proper o) →
      (∀ d ∈ db, d.Nodup) → ∀ d ∈ ops.foldl dbStep db, d.Nodup := by
    intro ops
    induction ops with
    | nil => intro db _ h; exact h
    | cons o ops ih =>
      intro db ho hdb
      refine ih _ (fun p hp => ho p (List.mem_cons_of_mem _ hp)) fun d hd => ?_
      have hn := coded_nodup (ho o (List.mem_cons_self ..))
      cases o with
      | original es | check es =>
        rcases List.mem_cons.1 hd with rfl | hd
        · exact hn
        · exact hdb d hd
      | remove es => exact hdb d (mem_deleteClause hd)
  exact this ops [] h (by simp)

theorem run_invariant {nonces : Nat → Nat} {ops : List Op} {c : Checker}
    (h : ∀ o ∈ ops, Op.Proper o) (hr : Checker.init.execAll nonces ops = .ok c) :
    Inv nonces True (ops.foldl addStep []) (presentClauses ops) c := by
  rw [← present_eq]
  exact execAll_inv (inv_init nonces True) (fun _ o ho => coded_nodup (h o ho)) hr

/-- **C57, part.** Whenever a clause passes the check, then either it follows by unit
propagation (RUP) from the clauses added before, or it has a literal such that resolving the
clause on this literal with any clause present gives only clauses which follow by unit
propagation (as for RAT in DRAT proofs), or one of its literals is falsified by unit propagation
alone.

Missing: the claim is false in the third case (see `C57_unsound`) and in the second the clause is
not implied, but adding it preserves satisfiability (see `C57_refutation`).  Propagation here
may use clauses which have been removed. -/
theorem C57_accepted_partial {nonces : Nat → Nat} {ops : List Op} {c c' : Checker} {es : List Int}
    (h : ∀ o ∈ ops, Op.Proper o) (hr : Checker.init.execAll nonces ops = .ok c)
    (hc : c.exec nonces (.check es) = .ok c') :
    RUP (ofList (addedClauses ops)) (es.map lit) ∨
    ∃ e ∈ es,
      UP (ofList (addedClauses ops)) (fun _ => False) (neg (lit e)) ∨
      ∀ d ∈ presentClauses ops, neg (lit e) ∈ d → lit e ∉ d →
        RUP (ofList (addedClauses ops)) (es.map lit ++ d.filter (· ≠ neg (lit e))) := by
  have hi := run_invariant h hr
  simp only [Checker.exec] at hc
  rw [show es.map importLit = coded es from rfl] at hc
  rcases check_ok (hi.enlarge (coded es)) (enlarge_bound c _) with e | ⟨c1, _, _, _, hj, _⟩
  · rw [e] at hc; cases hc
  · have := hj trivial (present_nodup h)
    unfold Justified at this
    rw [added_eq] at this
    rcases this with h1 | ⟨l, hl, h1⟩
    · exact .inl h1
    · obtain ⟨e, he, rfl⟩ := List.mem_map.1 hl
      exact .inr ⟨e, he, h1⟩

theorem esat_lit {σ : Nat → Bool} {es : List Int} (h0 : ∀ e ∈ es, e ≠ 0) (h : ESat σ es) :
    SatClause (fun v => σ (v + 1)) (coded es) := by
  obtain ⟨e, he, ht⟩ := h
  refine ⟨importLit e, List.mem_map.2 ⟨e, he, rfl⟩, ?_⟩
  have := h0 e he
  unfold ElitTrue at ht
  unfold litTrue importLit
  have hd : (2 * (e.natAbs - 1) + if e < 0 then 1 else 0) / 2 + 1 = e.natAbs := by
    split <;> omega
  show σ (_ / 2 + 1) = _
  rw [hd, ht, decide_eq_decide]
  split <;> omega

/-- **C57.** If a sequence of checks and removals including a check of the empty clause passes
and no checked clause has a literal falsified by unit propagation of the clauses added before,
then the original clauses are unsatisfiable. -/
theorem C57_refutation {nonces : Nat → Nat} {original : List (List Int)} {ops : List Op}
    {c : Checker} (h0 : ∀ es ∈ original, ∀ e ∈ es, e ≠ 0)
    (hr : Checker.init.execAll nonces (original.map .original ++ ops) = .ok c)
    (hno : ∀ o ∈ ops, ∀ es, o ≠ .original es)
    (hf : ∀ pre es post, ops = pre ++ .check es :: post → ∀ e ∈ es,
      ¬ UP (ofList (addedClauses (original.map .original ++ pre))) (fun _ => False) (neg (lit e)))
    (hempty : .check [] ∈ ops) : ¬ ESatisfiable original := by
  rintro ⟨σ, hσ⟩
  obtain ⟨c1, h1, h2⟩ := execAll_append hr
  have hm : Model (fun v => σ (v + 1)) c1 :=
    originals_model (inv_init nonces False) ⟨rfl, fun _ h => (by cases h), fun _ h => (by cases h)⟩
      (fun es hes => esat_lit (h0 es hes) (hσ es hes)) h1
  have hnf : ∀ (pre post : List Op), ops = pre ++ post →
      NoneFalsified ((original.map Op.original ++ pre).foldl addStep []) post := by
    intro pre post
    induction post generalizing pre with
    | nil => intro _; exact trivial
    | cons o post ih =>
      intro e
      refine ⟨fun es he l hl => ?_, ?_⟩
      · rw [added_eq]
        subst he
        obtain ⟨x, hx, rfl⟩ := List.mem_map.1 hl
        exact hf pre es post e x hx
      · have := ih (pre ++ [o]) (by rw [e]; simp)
        rw [← List.append_assoc, List.foldl_append] at this
        exact this
  have := hnf [] ops (by simp)
  rw [List.append_nil] at this
  exact (checks_model (execAll_inv (inv_init nonces False) (fun n => n.elim) h1) ⟨_, hm⟩ this hno h2).2
    hempty

/-- **C57.** A removal passes only if the clause follows by unit propagation from the clauses
added or a clause with the same literals is present. -/
theorem C57_remove_only {nonces : Nat → Nat} {ops : List Op} {c c' : Checker} {es : List Int}
    (h : ∀ o ∈ ops, Op.Proper o) (hes : Op.Proper (.remove es))
    (hr : Checker.init.execAll nonces ops = .ok c)
    (hc : c.exec nonces (.remove es) = .ok c') :
    RUP (ofList (addedClauses ops)) (es.map lit) ∨
      ∃ d ∈ presentClauses ops, SameLits (es.map lit) d := by
  have hi := run_invariant h hr
  simp only [Checker.exec] at hc
  rw [show es.map importLit = coded es from rfl] at hc
  rcases remove_ok (hi.enlarge (coded es)) (coded es) (fun _ => coded_nodup hes) with
    ⟨e, _⟩ | ⟨c1, e, hi1, _, _, hrem, _⟩
  · rw [e] at hc; cases hc
  · rw [← added_eq]
    cases hrem with
    | inconsistent hin => exact .inl (rup_of_conflict (hi1.inc hin) _)
    | satisfied hu ht _ => exact .inl (rup_of_root (hi1.up.trail _ ht) hu)
    | trivial hu hn _ => exact .inl (.inr ⟨_, hu, hn⟩)
    | found hp _ _ _ _ => exact .inr (hp True.intro)

/-- **C57.** A clause which is present can be removed: the checker finds it. -/
theorem C57_remove_present {nonces : Nat → Nat} {ops : List Op} {c : Checker} {es : List Int}
    (h : ∀ o ∈ ops, Op.Proper o) (hes : Op.Proper (.remove es))
    (hr : Checker.init.execAll nonces ops = .ok c)
    (hd : ∃ d ∈ presentClauses ops, SameLits (es.map lit) d) :
    ∃ c', c.exec nonces (.remove es) = .ok c' := by
  have hi := run_invariant h hr
  simp only [Checker.exec]
  rw [show es.map importLit = coded es from rfl]
  rcases remove_ok (hi.enlarge (coded es)) (coded es) (fun _ => coded_nodup hes) with
    ⟨_, hno⟩ | ⟨c1, e, _⟩
  · obtain ⟨d, hd, hs⟩ := hd
    exact absurd ⟨d, hd, hs, present_nodup h d hd⟩ (hno trivial)
  · exact ⟨c1, e⟩

/-- **C57.** A removal takes at most one clause out of the hash table, one with exactly the same
literals, and changes no other. -/
theorem C57_remove_exact {nonces : Nat → Nat} {ops : List Op} {c c' : Checker} {es : List Int}
    (h : ∀ o ∈ ops, Op.Proper o) (hes : Op.Proper (.remove es))
    (hr : Checker.init.execAll nonces ops = .ok c)
    (hc : c.exec nonces (.remove es) = .ok c') (hcons : c'.inconsistent = false) :
    (∀ j, SameLits (c'.line j).lits (c.line j).lits) ∧
    ((∀ j, c'.Live j ↔ c.Live j) ∨
      ∃ i, c.Live i ∧ SameLits (c.line i).lits (es.map lit) ∧
        ∀ j, c'.Live j ↔ c.Live j ∧ j ≠ i) := by
  have hi := run_invariant h hr
  simp only [Checker.exec] at hc
  rw [show es.map importLit = coded es from rfl] at hc
  rcases remove_ok (hi.enlarge (coded es)) (coded es) (fun _ => coded_nodup hes) with
    ⟨e, _⟩ | ⟨c1, e, hi1, _, _, hrem, hperm⟩
  · rw [e] at hc; cases hc
  · rw [e] at hc
    injection hc with hc
    subst hc
    refine ⟨fun j l => (hperm j).mem_iff, ?_⟩
    cases hrem with
    | inconsistent hin => rw [hin] at hcons; cases hcons
    | satisfied hu ht hl => exact .inl hl
    | trivial hu hn hl => exact .inl hl
    | @found i _ hli hlen hsub hl =>
      exact .inr ⟨i, hli, same_of_subset (hi.idx.lnodup trivial i hli) hsub hlen, hl⟩

/-- **C57.** The checker never loops. -/
theorem C57_terminates (nonces : Nat → Nat) (ops : List Op) :
    Checker.init.execAll nonces ops ≠ .stuck :=
  execAll_not_stuck (inv_init nonces False) (fun n => n.elim)

/-- The checker is fine with all operations. -/
def passes (ops : List Op) : Bool :=
  match Checker.init.execAll initNonces ops with
  | .ok _ => true
  | _ => false

/-- **C57 fails.** The satisfiable clauses ¬1, ¬2 ∨ 3, ¬2 ∨ ¬3: the checker accepts 1 ∨ 2, which
is neither implied nor does it preserve satisfiability, and then the empty clause.  The unit ¬1 is
not among the lines watched by ¬1, hence the literal 1, although false, looks blocked. -/
theorem C57_unsound :
    ESatisfiable [[-1], [-2, 3], [-2, -3]] ∧
    passes [.original [-1], .original [-2, 3], .original [-2, -3], .check [1, 2], .check []] =
      true := by
  refine ⟨⟨fun _ => false, fun c hc => ?_⟩, by decide +kernel⟩
  simp only [List.mem_cons, List.not_mem_nil, or_false] at hc
  rcases hc with rfl | rfl | rfl
  · exact ⟨-1, by simp, by simp [ElitTrue]⟩
  · exact ⟨-2, by simp, by simp [ElitTrue]⟩
  · exact ⟨-2, by simp, by simp [ElitTrue]⟩

/-- **C57.** Without negated units the checker works as expected: a refutation passes, and checks of
clauses not implied and removals of absent clauses abort. -/
example : passes [.original [1, 2, 3], .original [-1, 2], .original [1, -2], .original [-1, -2],
    .original [-3, 1, 2], .check [1, 2], .remove [3, 1, 2], .check [2], .check []] = true := by
  decide +kernel
example : passes [.original [1, 2], .original [-1, 2], .original [1, -2], .original [-1, -2, 3],
    .original [-3, 2, 4], .check [-3, 1, -4]] = true := by decide +kernel
example : passes [.original [1, 2, 3], .original [-1, -2, 4], .original [-2, -3, 1],
    .original [-1, -3, 2], .original [2, 3, -4], .check [1, 4]] = false := by decide +kernel
example : passes [.original [1, 2, 3], .original [-1, -2, 3], .remove [1, 2, -3]] = false := by
  decide +kernel
example : passes [.original [1, 2, 3], .original [-1, -2, 3], .remove [3, 2, 1],
    .remove [1, 2, 3]] = false := by decide +kernel

/-- **C57.** The check of satisfying assignments passes exactly if each original clause has a
literal returned as true or two complementary literals. -/
theorem C57_satisfying (value : Int → Int) (original : List (List Int))
    (h0 : ∀ es ∈ original, ∀ e ∈ es, e ≠ 0) :
    checkAssignment value original = true ↔
      ∀ es ∈ original, (∃ e ∈ es, value e = e) ∨ ∃ e ∈ es, -e ∈ es := by
  have hcomp : ∀ es : List Int, (∀ e ∈ es, e ≠ 0) →
      (hasComplement es = true ↔ ∃ e ∈ es, -e ∈ es) := by
    intro es
    induction es with
    | nil => intro _; simp [hasComplement]
    | cons x es ih =>
      intro h0
      have ih := ih fun e he => h0 e (List.mem_cons_of_mem _ he)
      have hx := h0 x (List.mem_cons_self ..)
      unfold hasComplement
      rw [Bool.or_eq_true, ih, List.any_eq_true]
      constructor
      · rintro (⟨o, ho, e⟩ | ⟨e, he, hn⟩)
        · have e : x = -o := by simpa using e
          exact ⟨o, List.mem_cons_of_mem _ ho, by rw [← e]; exact List.mem_cons_self ..⟩
        · exact ⟨e, List.mem_cons_of_mem _ he, List.mem_cons_of_mem _ hn⟩
      · rintro ⟨e, he, hn⟩
        rcases List.mem_cons.1 he with rfl | he
        · rcases List.mem_cons.1 hn with h | hn
          · omega
          · exact .inl ⟨-e, hn, by simp⟩
        · rcases List.mem_cons.1 hn with h | hn
          · exact .inl ⟨e, he, by simp [← h]⟩
          · exact .inr ⟨e, he, hn⟩
  unfold checkAssignment
  rw [List.all_eq_true]
  refine forall_congr' fun es => forall_congr' fun hes => ?_
  rw [Bool.or_eq_true, hcomp es (h0 es hes), List.any_eq_true]
  simp

example : checkAssignment (fun e => if e = 1 ∨ e = -2 then e else -e) [[1, 2], [-2, 3], [3, -3]] =
    true := by decide
example : checkAssignment (fun e => if e = 1 ∨ e = -2 then e else -e) [[-1, 2]] = false := by decide

end Verif.Props
