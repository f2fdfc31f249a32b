import Verif.Proofs.Sweep.Substitute
import Verif.Proofs.Simp.Substitute
import Verif.Proofs.Simp.Probe

/-!
# Sweeping
-/

namespace Verif.Simp

open Verif.Spec Verif.Model Verif.Congruence

variable {orig : List (List Nat)} {s0 : State}

/-! ## Copying clauses -/

/-- The literals of the clauses copied are known and not eliminated. -/
def EnvOk (s0 : State) (env : List (List Nat)) : Prop := ∀ c ∈ env, ∀ l ∈ c, s0.InRange l ∧ s0.removed (l / 2) = false

theorem sweepClauses_ok : ∀ (rs : List Nat) {s : State}, Swept orig s0 [] s → s.inconsistent = false →
    Swept orig s0 [] (s.sweepClauses rs).1 ∧ (s.sweepClauses rs).1.inconsistent = false ∧ Sub s.irr (s.sweepClauses rs).1.irr ∧
      Sub (· ∈ (s.sweepClauses rs).2) (s.sweepClauses rs).1.irr ∧ EnvOk s0 (s.sweepClauses rs).2
  | [], s, h, hi => ⟨h, hi, .refl _, fun _ hc => (List.not_mem_nil hc).elim, fun _ hc => (List.not_mem_nil hc).elim⟩
  | r :: rs, s, h, hi => by
    have hS := h.inv.inv.struct
    unfold State.sweepClauses State.sweepClause
    by_cases c1 : ((s.clause r).garbage || (s.clause r).redundant) = true
    · rw [if_pos c1]; exact sweepClauses_ok rs h hi
    · rw [if_neg c1]
      simp only [Bool.or_eq_true, not_or, Bool.not_eq_true] at c1
      obtain ⟨hg, hred⟩ := c1
      by_cases c2 : ((s.clause r).lits.any fun l => s.values l > 0) = true
      · rw [if_pos c2]
        by_cases c3 : (s.clause r).lits.length = 2
        · rw [if_pos c3]; exact sweepClauses_ok rs h hi
        · rw [if_neg c3]
          obtain ⟨o, ho, hv⟩ := List.any_eq_true.1 c2
          have habs : Absorbed (s.markGarbage r).irr (s.clause r).lits :=
            absorbed_unit ho (Or.inl ⟨o, (hS.trail o).2 (by simpa using hv), rfl⟩)
          obtain ⟨k1, k2, k3, k4, k5⟩ := sweepClauses_ok rs (h.garbage hi hg habs.entails) hi
          refine ⟨k1, k2, Sub.trans (fun c hc => ?_) k3, k4, k5⟩
          rcases irr_or_garbage (clause_lt hg) hc with h | rfl
          · exact absorbed_clause h fun _ h => h
          · exact habs
      · rw [if_neg c2]
        obtain ⟨k1, k2, k3, k4, k5⟩ := sweepClauses_ok rs h hi
        dsimp only
        refine ⟨k1, k2, k3, fun c hc => ?_, fun c hc => ?_⟩
        · rcases List.mem_cons.1 (hc : c ∈ _ :: _) with rfl | hc
          · refine Absorbed.sub (F := s.irr) ?_ k3
            refine Absorbed.filter (clause_irr hg hred) fun m hm hv => hS.neg_irr ?_
            simp only [List.any_eq_true, decide_eq_true_eq, not_exists, not_and] at c2
            have := c2 m hm
            simp only [decide_eq_true_eq] at hv
            omega
          · exact k4 c hc
        · rcases List.mem_cons.1 (hc : c ∈ _ :: _) with rfl | hc
          · intro l hl
            have hl := (List.mem_filter.1 hl).1
            refine ⟨?_, ?_⟩
            · unfold State.InRange; rw [← h.exports]; exact hS.clause r hg l hl
            · rw [← h.removed]; exact hS.removed r hg hred l hl
          · exact k5 c hc
where
  Absorbed.filter {F : Formula} {c : List Nat} {p : Nat → Bool} (hc : F c) (hf : ∀ m ∈ c, ¬ p m = true → F [neg m]) :
      Absorbed F (c.filter p) := by
    have hA : ∀ (l : Nat) m, m ∈ c → m ≠ l → Imp F (((c.filter p).filter (· ≠ l)).map neg) (neg m) := fun l m hm hne => by
      by_cases hp : p m = true
      · exact Imp.mem (List.mem_map_of_mem (List.mem_filter.2 ⟨List.mem_filter.2 ⟨hm, hp⟩, by simpa using hne⟩))
      · exact Imp.unit (hf m hm hp)
    refine ⟨fun l hl => Imp.clause hc (List.mem_filter.1 hl).1 (hA l), fun e => Bot.clause hc fun m hm => Imp.unit (hf m hm fun hp => ?_)⟩
    have : m ∈ c.filter p := List.mem_filter.2 ⟨hm, hp⟩
    rw [e] at this; cases this

theorem known_range {env calls : List (List Nat)} {as : List Nat} {core : SweepCore} (hs : core.Sound env calls as) (he : EnvOk s0 env)
    (hc : EnvOk s0 calls) (ha : ∀ a ∈ as, s0.InRange a ∧ s0.removed (a / 2) = false) :
    ∀ b c, (b, c) ∈ core → ∀ l ∈ c, s0.InRange l ∧ s0.removed (l / 2) = false := by
  intro b c hm l hl
  unfold State.InRange
  rcases hs.known b c hm l hl with ⟨d, hd, m, hm, e⟩ | ⟨a, h1, e⟩ | ⟨d, hd, m, hm, e⟩
  · rw [← e]; exact he d hd m hm
  · rw [← e]; exact ha a h1
  · rw [← e]; exact hc d hd m hm

theorem EnvOk.append {env env' : List (List Nat)} (h : EnvOk s0 env) (h' : EnvOk s0 env') : EnvOk s0 (env ++ env') := fun c hc => by
  rcases List.mem_append.1 hc with hc | hc
  · exact h c hc
  · exact h' c hc

/-! ## Substitution -/

/-- What holds between the candidates. -/
def Sweeping (orig : List (List Nat)) (s0 : State) (env : List (List Nat)) (s : State) : Prop :=
  ∃ E, Swept orig s0 E s ∧ (s.inconsistent = false → E = []) ∧ Sub (· ∈ env) s.irr

theorem sweepSubstitute_ok {s : State} {E : List (List Nat)} {lit repr : Nat} (watches : Nat → List Nat) (h : Swept orig s0 E s)
    (hE : s.inconsistent = false → E = []) (hM : Merged s lit repr) (hlr : lit / 2 ≠ repr / 2)
    (hrr : s0.InRange repr) (hrm : s0.removed (repr / 2) = false) :
    ∃ E', Swept orig s0 E' (s.sweepSubstitute watches lit repr) ∧ ((s.sweepSubstitute watches lit repr).inconsistent = false → E' = []) ∧
      Sub s.irr (s.sweepSubstitute watches lit repr).irr ∧ Merged (s.sweepSubstitute watches lit repr) lit repr := by
  unfold State.sweepSubstitute
  by_cases c1 : s.inconsistent = true
  · rw [if_pos c1]; exact ⟨E, h, hE, .refl _, hM⟩
  · rw [if_neg c1]
    have hi : s.inconsistent = false := by simpa using c1
    by_cases c2 : s.values lit ≠ 0
    · rw [if_pos c2]; exact ⟨E, h, hE, .refl _, hM⟩
    · rw [if_neg c2]
      by_cases c3 : s.values repr ≠ 0
      · rw [if_pos c3]; exact ⟨E, h, hE, .refl _, hM⟩
      · rw [if_neg c3]
        have e := hE hi
        subst e
        have := sweepWatches_ok hlr ((watches lit).filter fun r => (s.occurrences lit).contains r) h hi hM (by simpa using c2)
          (by simpa using c3) (by unfold State.InRange; rw [h.exports]; exact hrr) (by rw [h.removed]; exact hrm) fun r hr => by
            have hr := (List.mem_filter.1 hr).2
            rw [List.contains_iff_mem, mem_occurrences] at hr
            exact ⟨clause_lt hr.1, fun _ => hr.2⟩
        exact ⟨[], this.swept, fun _ => rfl, this.sub, this.merged⟩

/-! ## Candidates -/

theorem sweepBackbone_ok {s : State} {env calls : List (List Nat)} {kitten : SweepKitten} {lit : Nat} (hk : kitten.Sound)
    (he : EnvOk s0 env) (hl : EnvOk s0 calls) (h : Sweeping orig s0 env s) :
    Sweeping orig s0 env (s.sweepBackbone kitten env calls lit).1 ∧ EnvOk s0 (s.sweepBackbone kitten env calls lit).2 := by
  unfold State.sweepBackbone
  by_cases c1 : (!s.active (lit / 2)) = true
  · rw [if_pos c1]; exact ⟨h, hl⟩
  · rw [if_neg c1]
    obtain ⟨E, h1, h2, h3⟩ := h
    have ha := active_iff.1 (by simpa using c1 : s.active (lit / 2) = true)
    have ha' : ∀ a ∈ [neg lit], s0.InRange a ∧ s0.removed (a / 2) = false := fun a ha' => by
      rw [List.mem_singleton.1 ha']
      unfold State.InRange
      rw [neg_div, ← h1.exports, ← h1.removed]
      exact ⟨ha.1, ha.2.1⟩
    have hl' : EnvOk s0 (calls ++ [[neg lit]]) := hl.append fun c hc => by rw [List.mem_singleton.1 hc]; exact ha'
    cases hc : kitten env calls [neg lit] with
    | none => exact ⟨⟨E, h1, h2, h3⟩, hl'⟩
    | some core =>
      have hs := hk env calls [neg lit] core (by simp; exact neg_ne _) hc
      obtain ⟨E', k1, k2, k3⟩ := saveAddClear_ok hs (known_range hs he hl ha') h1 h3
      refine ⟨⟨E', k1, fun hi => ?_, k2.sub h3⟩, hl'⟩
      rw [k3 hi]
      refine h2 ?_
      cases hb : s.inconsistent with
      | false => rfl
      | true =>
        have : (s.saveAddClearCore core).inconsistent = true := by
          unfold State.saveAddClearCore State.addCore
          rw [if_pos hb]
          dsimp only
          unfold State.clearCore
          rw [if_pos hb]; exact hb
        exact absurd (hi.symm.trans this) (by simp)

theorem addCore_inconsistent {s : State} {saved : List (List Nat)} (h : (s.addCore saved).1.inconsistent = false) :
    s.inconsistent = false := by
  cases hb : s.inconsistent with
  | false => rfl
  | true =>
    unfold State.addCore at h
    rw [if_pos hb] at h
    exact hb.symm.trans h

/-- Adding one of the two clauses of an equivalence. -/
theorem sweepHalf_ok {s sv : State} {env calls : List (List Nat)} {core : SweepCore} {a b : Nat} {E : List (List Nat)}
    (hs : core.Sound env calls [neg a, neg b])
    (hr : ∀ b c, (b, c) ∈ core → ∀ l ∈ c, s0.InRange l ∧ s0.removed (l / 2) = false) (h : Swept orig s0 E s)
    (hE : s.inconsistent = false → E = []) (he : Sub (· ∈ env) s.irr) (hv : ∀ l, 0 < sv.values l → 0 < s.values l) (hab : a / 2 ≠ b / 2)
    (ha : s0.InRange a ∧ s0.removed (a / 2) = false) (hb : s0.InRange b ∧ s0.removed (b / 2) = false) :
    ∃ E', Swept orig s0 E' (((s.addCore (sv.saveCore core)).1.newClause [a, b] false).clearCore (s.addCore (sv.saveCore core)).2) ∧
      ((((s.addCore (sv.saveCore core)).1.newClause [a, b] false).clearCore (s.addCore (sv.saveCore core)).2).inconsistent = false → E' = []) ∧
      (∀ c, s.irr c → (((s.addCore (sv.saveCore core)).1.newClause [a, b] false).clearCore (s.addCore (sv.saveCore core)).2).irr c) ∧
      Pair (((s.addCore (sv.saveCore core)).1.newClause [a, b] false).clearCore (s.addCore (sv.saveCore core)).2) a b ∧
      (∀ l, 0 < s.values l → 0 < (((s.addCore (sv.saveCore core)).1.newClause [a, b] false).clearCore (s.addCore (sv.saveCore core)).2).values l) := by
  obtain ⟨E1, h1, h2, h3, h4⟩ := addCore_ok hs hr sv h hv he
  have hcons := addCore_inconsistent (s := s) (saved := sv.saveCore core)
  generalize s.addCore (sv.saveCore core) = p at h1 h2 h3 h4 hcons
  obtain ⟨s1, lemmas⟩ := p
  dsimp only at *
  have h5 := h1.new (c := [a, b])
    (fun l hl => by
      unfold State.InRange
      rw [h1.exports]
      simp only [List.mem_cons, List.not_mem_nil, or_false] at hl
      rcases hl with rfl | rfl
      · exact ha.1
      · exact hb.1)
    (by simp; exact fun e => hab (by rw [e]))
    (fun l hl hl' => by
      simp only [List.mem_cons, List.not_mem_nil, or_false] at hl hl'
      rcases hl with rfl | rfl <;> rcases hl' with e | e
      · exact neg_ne _ e
      · exact hab (by rw [← e, neg_div])
      · exact hab (by rw [← e, neg_div])
      · exact neg_ne _ e)
    (by simp)
    (fun l hl => by
      rw [h1.removed]
      simp only [List.mem_cons, List.not_mem_nil, or_false] at hl
      rcases hl with rfl | rfl
      · exact ha.2
      · exact hb.2) h4
  obtain ⟨E2, k1, k2, k3, k4⟩ := clearCore_ok (E := E) h5 h3
  refine ⟨E2, k1, fun hi => ?_, fun c hc => k3.irr c (irr_new.2 (Or.inr (h2.irr c hc))), ?_, fun l hl => k3.pos l (h2.pos l hl)⟩
  · have hi1 : s1.inconsistent = false := k4.symm.trans hi
    rw [k2 hi1]
    exact hE (hcons hi1)
  · refine ⟨[a, b], k3.irr _ (irr_new.2 (Or.inl ⟨rfl, Or.inl rfl⟩)), fun m => by simp⟩

theorem sweepMerge_ok {s : State} {env calls calls' : List (List Nat)} {core0 core1 : SweepCore} {lit other : Nat} (watches : Nat → List Nat)
    (hs0 : core0.Sound env calls [neg lit, other]) (hs1 : core1.Sound env calls' [lit, neg other])
    (he : EnvOk s0 env) (hc : EnvOk s0 calls) (hc' : EnvOk s0 calls') (h : Sweeping orig s0 env s) (hlo : lit / 2 ≠ other / 2)
    (hl : s0.InRange lit ∧ s0.removed (lit / 2) = false) (ho : s0.InRange other ∧ s0.removed (other / 2) = false) :
    Sweeping orig s0 env (s.sweepMerge watches lit other (s.saveCore core0) (s.saveCore core1)) := by
  obtain ⟨E, h1, h2, h3⟩ := h
  have hN : ∀ {l : Nat}, s0.InRange l ∧ s0.removed (l / 2) = false → s0.InRange (neg l) ∧ s0.removed (neg l / 2) = false := by
    intro l h
    unfold State.InRange at h ⊢
    rw [neg_div]; exact h
  have hr0 := known_range hs0 he hc (fun a ha => by
    simp only [List.mem_cons, List.not_mem_nil, or_false] at ha
    rcases ha with rfl | rfl
    · exact hN hl
    · exact ho)
  have hr1 := known_range hs1 he hc' (fun a ha => by
    simp only [List.mem_cons, List.not_mem_nil, or_false] at ha
    rcases ha with rfl | rfl
    · exact hl
    · exact hN ho)
  unfold State.sweepMerge
  obtain ⟨E1, a1, a2, a3, a4, a5⟩ := sweepHalf_ok (a := lit) (b := neg other) (sv := s) (by rw [neg_neg]; exact hs0) hr0 h1 h2 h3
    (fun _ h => h) (by rw [neg_div]; exact hlo) hl (hN ho)
  generalize s.addCore (s.saveCore core0) = p at a1 a2 a3 a4 a5
  obtain ⟨s1, lemmas0⟩ := p
  dsimp only at *
  generalize (s1.newClause [lit, neg other] false).clearCore lemmas0 = s2 at a1 a2 a3 a4 a5
  obtain ⟨E2, b1, b2, b3, b4, b5⟩ := sweepHalf_ok (a := neg lit) (b := other) (sv := s) (by rw [neg_neg]; exact hs1) hr1 a1 a2
    (h3.trans (.of_le (.of_sub a3))) a5 (by rw [neg_div]; exact hlo) (hN hl) ho
  generalize s2.addCore (s.saveCore core1) = p at b1 b2 b3 b4 b5
  obtain ⟨s3, lemmas1⟩ := p
  dsimp only at *
  generalize (s3.newClause [neg lit, other] false).clearCore lemmas1 = s4 at b1 b2 b3 b4 b5
  have hM : Merged s4 lit other := ⟨a4.mono b3, b4⟩
  have h4 : Sub (· ∈ env) s4.irr := h3.trans (.of_le (.of_sub fun c hc => b3 c (a3 c hc)))
  by_cases c1 : lit < other
  · rw [if_pos c1]
    obtain ⟨E3, c1, c2, c3, c4⟩ := sweepSubstitute_ok watches b1 b2 hM.symm (Ne.symm hlo) hl.1 hl.2
    obtain ⟨E4, d1, d2, d3, d4⟩ := sweepSubstitute_ok watches c1 c2 c4.neg (by rw [neg_div, neg_div]; exact Ne.symm hlo) (hN hl).1 (hN hl).2
    exact ⟨E4, d1, d2, (h4.trans c3).trans d3⟩
  · rw [if_neg c1]
    obtain ⟨E3, c1, c2, c3, c4⟩ := sweepSubstitute_ok watches b1 b2 hM hlo ho.1 ho.2
    obtain ⟨E4, d1, d2, d3, d4⟩ := sweepSubstitute_ok watches c1 c2 c4.neg (by rw [neg_div, neg_div]; exact hlo) (hN ho).1 (hN ho).2
    exact ⟨E4, d1, d2, (h4.trans c3).trans d3⟩

theorem sweepEquivalence_ok {s : State} {env calls : List (List Nat)} {kitten : SweepKitten} {lit other : Nat} (watches : Nat → List Nat)
    (hk : kitten.Sound) (he : EnvOk s0 env) (hcl : EnvOk s0 calls) (h : Sweeping orig s0 env s) :
    Sweeping orig s0 env (s.sweepEquivalence kitten watches env calls lit other).1 ∧
      EnvOk s0 (s.sweepEquivalence kitten watches env calls lit other).2 := by
  unfold State.sweepEquivalence
  split
  · exact ⟨h, hcl⟩
  · rename_i c1
    simp only [Bool.or_eq_true, decide_eq_true_eq, not_or, Bool.not_eq_true, Nat.not_le] at c1
    obtain ⟨⟨⟨⟨c1, c2⟩, c3⟩, c4⟩, c5⟩ := c1
    obtain ⟨E, g1, g2, g3⟩ := h
    have hl : s0.InRange lit ∧ s0.removed (lit / 2) = false := by
      unfold State.InRange; rw [← g1.exports, ← g1.removed]; exact ⟨c4, c2⟩
    have ho : s0.InRange other ∧ s0.removed (other / 2) = false := by
      unfold State.InRange; rw [← g1.exports, ← g1.removed]; exact ⟨c5, c3⟩
    have hN : ∀ {l : Nat}, s0.InRange l ∧ s0.removed (l / 2) = false → s0.InRange (neg l) ∧ s0.removed (neg l / 2) = false := by
      intro l h
      unfold State.InRange at h ⊢
      rw [neg_div]; exact h
    have e0 : ∀ a ∈ [neg lit, other], s0.InRange a ∧ s0.removed (a / 2) = false := fun a ha => by
      simp only [List.mem_cons, List.not_mem_nil, or_false] at ha
      rcases ha with rfl | rfl
      · exact hN hl
      · exact ho
    have e1 : ∀ a ∈ [lit, neg other], s0.InRange a ∧ s0.removed (a / 2) = false := fun a ha => by
      simp only [List.mem_cons, List.not_mem_nil, or_false] at ha
      rcases ha with rfl | rfl
      · exact hl
      · exact hN ho
    have hc1 : EnvOk s0 (calls ++ [[neg lit, other]]) := hcl.append fun c hc => by rw [List.mem_singleton.1 hc]; exact e0
    have hc2 : EnvOk s0 (calls ++ [[neg lit, other], [lit, neg other]]) := hcl.append fun c hc => by
      simp only [List.mem_cons, List.not_mem_nil, or_false] at hc
      rcases hc with rfl | rfl
      · exact e0
      · exact e1
    cases h0 : kitten env calls [neg lit, other] with
    | none => exact ⟨⟨E, g1, g2, g3⟩, hc1⟩
    | some core0 =>
      dsimp only
      cases h1 : kitten env (calls ++ [[neg lit, other]]) [lit, neg other] with
      | none => exact ⟨⟨E, g1, g2, g3⟩, hc2⟩
      | some core1 =>
        dsimp only
        have hd : neg lit ≠ lit ∧ neg other ≠ other ∧ lit ≠ other ∧ neg lit ≠ neg other :=
          ⟨neg_ne _, neg_ne _, fun e => c1 (by rw [e]), fun e => c1 (by rw [← neg_div lit, e, neg_div])⟩
        refine ⟨sweepMerge_ok watches (hk _ _ _ _ ?_ h0) (hk _ _ _ _ ?_ h1) he hcl hc1 ⟨E, g1, g2, g3⟩ c1 hl ho, hc2⟩
        · intro a ha
          simp only [List.mem_cons, List.not_mem_nil, or_false] at ha
          rcases ha with rfl | rfl
          · rw [neg_neg]; simp [Ne.symm hd.1, hd.2.2.1]
          · simp [Ne.symm hd.2.2.2, hd.2.1]
        · intro a ha
          simp only [List.mem_cons, List.not_mem_nil, or_false] at ha
          rcases ha with rfl | rfl
          · simp [hd.1, hd.2.2.2]
          · rw [neg_neg]; simp [Ne.symm hd.2.2.1, Ne.symm hd.2.1]

theorem sweepActions_ok {env : List (List Nat)} {kitten : SweepKitten} (watches : State → Nat → List Nat) (hk : kitten.Sound)
    (he : EnvOk s0 env) : ∀ (as : List SweepAction) {calls : List (List Nat)} {s : State}, EnvOk s0 calls → Sweeping orig s0 env s →
    Sweeping orig s0 env (s.sweepActions kitten watches env calls as)
  | [], _, _, _, h => h
  | a :: as, calls, s, hc, h => by
    unfold State.sweepActions
    split
    · exact h
    · have key : ∀ {p : State × List (List Nat)}, Sweeping orig s0 env p.1 ∧ EnvOk s0 p.2 →
          Sweeping orig s0 env (match p with | (s, calls) => s.sweepActions kitten watches env calls as) :=
        fun h => sweepActions_ok watches hk he as h.2 h.1
      cases a with
      | backbone lit => exact key (sweepBackbone_ok hk he hc h)
      | equivalence lit other => exact key (sweepEquivalence_ok (watches s) hk he hc h)

/-! ## All variables -/

/-- What sweeping keeps. -/
structure SweepOk (orig : List (List Nat)) (s s' : State) : Prop where
  inv : Inv orig none s'
  same : Same s s'
  exports : s'.exports = s.exports
  removed : s'.removed = s.removed

theorem Swept.ok {E : List (List Nat)} {s : State} (h : Swept orig s0 E s) : SweepOk orig s0 s := ⟨h.inv.inv, h.same, h.exports, h.removed⟩

theorem SweepOk.trans {a b c : State} (h : SweepOk orig a b) (h' : SweepOk orig b c) : SweepOk orig a c :=
  ⟨h'.inv, h.same.trans h'.same, h'.exports.trans h.exports, h'.removed.trans h.removed⟩

theorem same_densePropagate {s : State} (h : Inv orig none s) (conn : Nat → Nat → Bool) : Same s (s.densePropagate conn).1 := by
  have := same_densePropagateLoop (conn := conn) (s.trail.length + s.exports.length) h
  unfold State.densePropagate
  cases hp : s.densePropagateLoop conn (s.trail.length + s.exports.length) with
  | mk s' b =>
    rw [hp] at this
    cases b with
    | true => exact this
    | false => exact this

theorem sweepVariable_ok {s : State} {o : SweepOptions} (hk : o.kitten.Sound) (h : Inv orig none s) (hi : s.inconsistent = false) :
    SweepOk orig s (s.sweepVariable o) := by
  unfold State.sweepVariable
  obtain ⟨k1, k2, k3, k4, k5⟩ := sweepClauses_ok o.visited (Swept.start h hi) hi
  generalize s.sweepClauses o.visited = p at k1 k2 k3 k4 k5
  obtain ⟨s1, env⟩ := p
  dsimp only at *
  have key : ∀ {s2 : State}, SweepOk orig s s2 →
      SweepOk orig s (if (s2.inconsistent || decide (s2.propagate = s2.trail.length)) = true then s2 else (s2.densePropagate o.connected).1) := by
    intro s2 h2
    split
    · exact h2
    · obtain ⟨d1, d2⟩ := h2.inv.densePropagate o.connected
      exact h2.trans ⟨d1, same_densePropagate h2.inv _, d2.exports, d2.removed⟩
  apply key
  cases hc : o.kitten env [] [] with
  | some core =>
    have hs := hk env [] [] core (by simp) hc
    obtain ⟨E', r1, _, _⟩ := saveAddClear_ok hs (known_range hs k5 (fun _ h => (List.not_mem_nil h).elim) (by simp)) k1 k4
    exact r1.ok
  | none =>
    obtain ⟨E', r1, _⟩ := sweepActions_ok o.watches hk k5 o.actions (calls := [[]])
      (fun c hc => by rw [List.mem_singleton.1 hc]; intro l hl; cases hl) ⟨[], k1, fun _ => rfl, k4⟩
    exact r1.ok

theorem sweepLoop_ok : ∀ (os : List SweepOptions) {s : State}, (∀ o ∈ os, o.kitten.Sound) → Inv orig none s →
    SweepOk orig s (s.sweepLoop os)
  | [], _, _, h => ⟨h, .refl _, rfl, rfl⟩
  | o :: os, s, hk, h => by
    unfold State.sweepLoop
    split
    · exact ⟨h, .refl _, rfl, rfl⟩
    · rename_i hi
      have h1 := sweepVariable_ok (hk o (by simp)) h (by simpa using hi)
      exact h1.trans (sweepLoop_ok os (fun o ho => hk o (List.mem_cons_of_mem _ ho)) h1.inv)

theorem sweep_inv {os : List SweepOptions} {s : State} (hk : ∀ o ∈ os, o.kitten.Sound) (h : Inv orig none s) (order : List Nat) :
    Inv orig none (s.sweep os order) := by
  have h1 := (sweepLoop_ok os hk h).inv
  unfold State.sweep
  split
  · exact h
  · dsimp only
    split
    · exact h1
    · exact Inv.propagateAll (s := { s.sweepLoop os with propagate := 0 }) (Inv.setPropagate h1 0) order

end Verif.Simp
