import Verif.Proofs.Sweep.Base

/-!
# Lemmas of cores
-/

namespace Verif.Simp

open Verif.Spec Verif.Model Verif.Congruence

variable {orig : List (List Nat)} {s0 : State}

/-- Units are added. -/
structure Grows (s s' : State) : Prop where
  irr : ∀ c, s.irr c → s'.irr c
  pos : ∀ l, 0 < s.values l → 0 < s'.values l
  same : ∀ r, s'.clause r = s.clause r
  arena : s'.arena = s.arena
  zero : ∀ l, s'.values l = 0 → s.values l = 0

theorem Grows.refl (s : State) : Grows s s := ⟨fun _ h => h, fun _ h => h, fun _ => rfl, rfl, fun _ h => h⟩

theorem Grows.trans {a b c : State} (h : Grows a b) (h' : Grows b c) : Grows a c :=
  ⟨fun d hd => h'.irr d (h.irr d hd), fun l hl => h'.pos l (h.pos l hl), fun r => (h'.same r).trans (h.same r),
    h'.arena.trans h.arena, fun l hl => h.zero l (h'.zero l hl)⟩

theorem grows_proof {s : State} {p : List Spec.Line} : Grows s { s with proof := p } :=
  ⟨fun _ h => h, fun _ h => h, fun _ => rfl, rfl, fun _ h => h⟩

theorem grows_unit {s : State} {l : Nat} (hv : s.values l = 0) (h : ∀ l, s.values (neg l) = - s.values l) : Grows s (s.learnedUnit l) := by
  refine ⟨fun c hc => irr_learnedUnit.2 (Or.inr hc), fun k hk => ?_, fun _ => rfl, rfl, fun k hk => ?_⟩
  · show 0 < (if k = l then (1 : Int) else if k = neg l then -1 else s.values k)
    by_cases e : k = l
    · rw [if_pos e]; omega
    · rw [if_neg e]
      by_cases e' : k = neg l
      · rw [e', h l] at hk; omega
      · rw [if_neg e']; exact hk
  · have hk : (if k = l then (1 : Int) else if k = neg l then -1 else s.values k) = 0 := hk
    by_cases e : k = l
    · rw [if_pos e] at hk; omega
    · rw [if_neg e] at hk
      by_cases e' : k = neg l
      · rw [if_pos e'] at hk; omega
      · rw [if_neg e'] at hk; exact hk

theorem grows_empty {s : State} : Grows s s.learnedEmpty := ⟨fun _ h => h, fun _ h => h, fun _ => rfl, rfl, fun _ h => h⟩

theorem Grows.sub {s s' : State} (h : Grows s s') {G : Formula} (hG : Sub G s.irr) : Sub G s'.irr :=
  hG.trans (.of_le (.of_sub h.irr))

theorem learned_mem {s : State} {l : Nat} {E : List (List Nat)} : base (s.learnedUnit l) E [l] := base_learned.2 (Or.inl rfl)

theorem saveCore_none {s : State} {b : Bool} {c : List Nat} {core : SweepCore} (h : s.saveCoreClause b c = none) :
    s.saveCore ((b, c) :: core) = s.saveCore core := by
  unfold State.saveCore
  rw [List.filterMap_cons, h]

theorem saveCore_some {s : State} {b : Bool} {c d : List Nat} {core : SweepCore} (h : s.saveCoreClause b c = some d) :
    s.saveCore ((b, c) :: core) = d :: s.saveCore core := by
  unfold State.saveCore
  rw [List.filterMap_cons, h]

theorem addCoreLoop_ok {env calls : List (List Nat)} {as : List Nat} {core : SweepCore} (hs : core.Sound env calls as)
    (hr : ∀ b c, (b, c) ∈ core → ∀ l ∈ c, s0.InRange l ∧ s0.removed (l / 2) = false) (sv : State) :
    ∀ (post pre : SweepCore) {s : State} {E : List (List Nat)}, core = pre ++ post → Swept orig s0 E s → s.inconsistent = false →
    (∀ l, 0 < sv.values l → 0 < s.values l) → Sub (· ∈ env) s.irr → Sub (fun d => ∃ b, (b, d) ∈ pre) (base s E) →
    ∃ E', Swept orig s0 E' (s.addCoreLoop (sv.saveCore post)).1 ∧ Grows s (s.addCoreLoop (sv.saveCore post)).1 ∧
      ((s.addCoreLoop (sv.saveCore post)).1.inconsistent = false →
        E'.Perm ((s.addCoreLoop (sv.saveCore post)).2 ++ E) ∧
        Sub (fun d => ∃ b, (b, d) ∈ core) (base (s.addCoreLoop (sv.saveCore post)).1 E'))
  | [], pre, s, E, hc, h, hi, hv, he, hp => by
    rw [List.append_nil] at hc
    subst hc
    exact ⟨E, h, .refl _, fun _ => ⟨.refl _, hp⟩⟩
  | (b, c) :: post, pre, s, E, hc, h, hi, hv, he, hp => by
    have hmem : (b, c) ∈ core := by rw [hc]; simp
    have hbot : Bot (base s E) (c.map neg) := by
      cases b with
      | true =>
        have h1 := hs.learned pre.length c (by rw [hc]; simp)
        have e : core.take pre.length = pre := by rw [hc]; simp
        rw [e] at h1
        exact (rup_iff.1 h1).sub hp
      | false =>
        obtain ⟨d, d1, d2⟩ := hs.original c hmem
        have : Absorbed (base s E) c := Absorbed.perm (Absorbed.sub (F := s.irr) (he d d1) sub_base) fun m => d2.symm.mem_iff
        exact this.bot fun m hm => Imp.mem (List.mem_map_of_mem hm)
    have hrange : ∀ l ∈ c, s.InRange l ∧ s.removed (l / 2) = false := fun l hl => by
      unfold State.InRange
      rw [h.exports, h.removed]
      exact hr b c hmem l hl
    have next : ∀ {s' : State} {E' : List (List Nat)}, Sub (base s E) (base s' E') → Absorbed (base s' E') c →
        Sub (fun d => ∃ b', (b', d) ∈ pre ++ [(b, c)]) (base s' E') := by
      rintro s' E' h1 h2 d ⟨b', hd⟩
      rcases List.mem_append.1 hd with hd | hd
      · exact Absorbed.sub (F := base s E) (hp d ⟨b', hd⟩) h1
      · have := List.mem_singleton.1 hd
        injection this with _ e
        rw [e]; exact h2
    have hc' : core = (pre ++ [(b, c)]) ++ post := by rw [hc]; simp
    have skip : Absorbed (base s E) c → ∃ E', Swept orig s0 E' (s.addCoreLoop (sv.saveCore post)).1 ∧
        Grows s (s.addCoreLoop (sv.saveCore post)).1 ∧ ((s.addCoreLoop (sv.saveCore post)).1.inconsistent = false →
        E'.Perm ((s.addCoreLoop (sv.saveCore post)).2 ++ E) ∧
        Sub (fun d => ∃ b, (b, d) ∈ core) (base (s.addCoreLoop (sv.saveCore post)).1 E')) := fun ha =>
      addCoreLoop_ok hs hr sv post (pre ++ [(b, c)]) hc' h hi hv he (next (.refl _) ha)
    have hsat : ∀ o ∈ c, 0 < s.values o → Absorbed (base s E) c := fun o ho hpos =>
      absorbed_unit ho (base_pos h.inv.inv.struct hpos)
    cases hsv : sv.saveCoreClause b c with
    | none =>
      rw [saveCore_none hsv]
      refine skip ?_
      unfold State.saveCoreClause at hsv
      split at hsv
      · rename_i ha
        obtain ⟨o, ho, hpos⟩ := List.any_eq_true.1 ha
        exact hsat o ho (hv o (by simpa using hpos))
      · split at hsv
        · rename_i hb
          have hbf : b = false := by cases b <;> simp_all
          rw [hbf] at hmem
          obtain ⟨d, d1, d2⟩ := hs.original c hmem
          exact Absorbed.perm (Absorbed.sub (F := s.irr) (he d d1) sub_base) fun m => d2.symm.mem_iff
        · cases hsv
    | some d =>
      rw [saveCore_some hsv]
      have hd : d = c := by
        unfold State.saveCoreClause at hsv
        split at hsv
        · cases hsv
        · split at hsv
          · cases hsv
          · injection hsv with e; exact e.symm
      subst hd
      unfold State.addCoreLoop
      by_cases ha : (d.any fun l => decide (s.values l > 0)) = true
      · rw [if_pos ha]
        obtain ⟨o, ho, hpos⟩ := List.any_eq_true.1 ha
        exact skip (hsat o ho (by simpa using hpos))
      · rw [if_neg ha]
        have hneg : ∀ l ∈ d, s.values l ≠ 0 → s.values l < 0 := fun l hl hne => by
          have : ¬ s.values l > 0 := fun hpos => ha (List.any_eq_true.2 ⟨l, hl, by simpa using hpos⟩)
          omega
        have hmf : ∀ m : Nat, m ∈ d.filter (fun l => decide (s.values l = 0)) ↔ m ∈ d ∧ s.values m = 0 := fun m => by
          rw [List.mem_filter]; simp
        generalize d.filter (fun l => decide (s.values l = 0)) = f at hmf
        have hbf : Bot (base s E) (f.map neg) := hbot.cut fun x hx => by
          obtain ⟨m, hm, rfl⟩ := List.mem_map.1 hx
          by_cases e : s.values m = 0
          · exact Imp.mem (List.mem_map_of_mem ((hmf m).2 ⟨hm, e⟩))
          · exact Imp.unit (base_neg h.inv.inv.struct (hneg m hm e))
        match f, hmf, hbf with
        | [], _, hbf =>
          dsimp only
          exact ⟨E, h.empty hbf, grows_empty, fun hi' => absurd hi' (by simp [State.learnedEmpty])⟩
        | [u], hmf, hbf =>
          dsimp only
          obtain ⟨u1, u2⟩ := (hmf u).1 (by simp)
          have hu := h.unit u2 (hrange u u1).1 (hrange u u1).2 hbf
          have hg := grows_unit u2 h.inv.inv.struct.neg
          obtain ⟨E', r1, r2, r3⟩ := addCoreLoop_ok hs hr sv post (pre ++ [(b, d)]) hc' hu hi
            (fun l hl => hg.pos l (hv l hl)) (hg.sub he)
            (next (.of_le (.of_sub fun _ hc => base_learned.2 (Or.inr hc)))
              (absorbed_unit u1 learned_mem))
          exact ⟨E', r1, hg.trans r2, r3⟩
        | x :: y :: f, hmf, hbf =>
          dsimp only
          have hA := h.add (fun l hl => (hrange l ((hmf l).1 hl).1).1) hbf
          have hg : Grows s (s.emitAdd (x :: y :: f)) := grows_proof
          obtain ⟨E', r1, r2, r3⟩ := addCoreLoop_ok hs hr sv post (pre ++ [(b, d)]) hc' hA hi
            (fun l hl => hg.pos l (hv l hl)) (hg.sub he)
            (next (.of_le (.of_sub fun _ hc => hc.imp id (List.mem_cons_of_mem _)))
              (absorbed_clause (d := x :: y :: f) (Or.inr (by simp)) (fun m hm => ((hmf m).1 hm).1)))
          refine ⟨E', r1, hg.trans r2, fun hi' => ⟨(r3 hi').1.trans ?_, (r3 hi').2⟩⟩
          exact List.perm_middle

theorem addCore_ok {env calls : List (List Nat)} {as : List Nat} {core : SweepCore} (hs : core.Sound env calls as)
    (hr : ∀ b c, (b, c) ∈ core → ∀ l ∈ c, s0.InRange l ∧ s0.removed (l / 2) = false) (sv : State)
    {s : State} {E : List (List Nat)} (h : Swept orig s0 E s) (hv : ∀ l, 0 < sv.values l → 0 < s.values l) (he : Sub (· ∈ env) s.irr) :
    ∃ E', Swept orig s0 E' (s.addCore (sv.saveCore core)).1 ∧ Grows s (s.addCore (sv.saveCore core)).1 ∧
      ((s.addCore (sv.saveCore core)).1.inconsistent = false → E'.Perm ((s.addCore (sv.saveCore core)).2 ++ E)) ∧
      Bot (base (s.addCore (sv.saveCore core)).1 E') as := by
  unfold State.addCore
  split
  · rename_i hi
    refine ⟨E, h, .refl _, fun hi' => absurd (hi'.symm.trans hi) (by simp), (h.bot hi).weaken (by simp)⟩
  · rename_i hi
    obtain ⟨E', r1, r2, r3⟩ := addCoreLoop_ok hs hr sv core [] rfl h (by simpa using hi) hv he
      (fun d hd => by obtain ⟨_, hd⟩ := hd; cases hd)
    refine ⟨E', r1, r2, fun hi' => (r3 hi').1, ?_⟩
    cases hc : (s.addCoreLoop (sv.saveCore core)).1.inconsistent with
    | true => exact (r1.bot hc).weaken (by simp)
    | false =>
      obtain ⟨b, c, h1, h2⟩ := hs.failed
      have : Absorbed (base (s.addCoreLoop (sv.saveCore core)).1 E') c := (r3 hc).2 c ⟨b, h1⟩
      exact this.bot fun m hm => Imp.mem (h2 m hm)

theorem clearCore_ok {s : State} {E E' lemmas : List (List Nat)} (h : Swept orig s0 E' s)
    (hp : s.inconsistent = false → E'.Perm (lemmas ++ E)) :
    ∃ E'', Swept orig s0 E'' (s.clearCore lemmas) ∧ (s.inconsistent = false → E'' = E) ∧ Grows s (s.clearCore lemmas) ∧
      (s.clearCore lemmas).inconsistent = s.inconsistent := by
  unfold State.clearCore
  cases hi : s.inconsistent with
  | true => exact ⟨E', h, by simp, .refl _, hi⟩
  | false =>
    obtain ⟨p, e⟩ := foldl_emitDelete_eq lemmas s
    refine ⟨E, (h.perm (hp hi)).deletes lemmas hi, fun _ => rfl, ?_, ?_⟩
    · simp only [Bool.false_eq_true, if_false]
      rw [e]; exact grows_proof
    · simp only [Bool.false_eq_true, if_false]
      rw [e]; exact hi

theorem saveAddClear_ok {env calls : List (List Nat)} {as : List Nat} {core : SweepCore} (hs : core.Sound env calls as)
    (hr : ∀ b c, (b, c) ∈ core → ∀ l ∈ c, s0.InRange l ∧ s0.removed (l / 2) = false)
    {s : State} {E : List (List Nat)} (h : Swept orig s0 E s) (he : Sub (· ∈ env) s.irr) :
    ∃ E', Swept orig s0 E' (s.saveAddClearCore core) ∧ Grows s (s.saveAddClearCore core) ∧
      ((s.saveAddClearCore core).inconsistent = false → E' = E) := by
  obtain ⟨E1, h1, h2, h3, _⟩ := addCore_ok hs hr s h (fun _ h => h) he
  unfold State.saveAddClearCore
  generalize s.addCore (s.saveCore core) = p at h1 h2 h3
  obtain ⟨s1, lemmas⟩ := p
  obtain ⟨E2, k1, k2, k3, k4⟩ := clearCore_ok h1 h3
  exact ⟨E2, k1, h2.trans k3, fun hi => k2 (k4.symm.trans hi)⟩

end Verif.Simp
