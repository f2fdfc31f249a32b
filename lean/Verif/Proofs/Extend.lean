import Verif.Model.Extend

/-!
# Extension of models is correct
-/

namespace Verif.Spec

theorem code_div (e : Int) : code e / 2 = e.natAbs := by unfold code; split <;> omega

theorem code_mod (e : Int) : decide (code e % 2 = 0) = decide (0 ≤ e) := by
  unfold code
  rw [decide_eq_decide]
  split <;> omega

theorem litTrue_code_iff {σ : Assignment} {e : Int} :
    litTrue σ (code e) ↔ σ e.natAbs = decide (0 ≤ e) := by
  unfold litTrue
  rw [code_div, code_mod]

theorem assign_code (σ : Assignment) (e : Int) (v : Nat) :
    assign σ (code e) v = if v = e.natAbs then decide (0 ≤ e) else σ v := by
  unfold assign
  rw [code_div, code_mod]

end Verif.Spec

namespace Verif.Model.Extend

open Verif.Spec

/-- The value of an external variable (zero if it has none). -/
def State.val (s : State) (v : Nat) : Int :=
  match s.imports[v]? with
  | none => 0
  | some i => if i.imported then (s.lookup i).getD 0 else 0

/-- The value of an external literal. -/
def State.litVal (s : State) (e : Int) : Int := if e < 0 then - s.val e.natAbs else s.val e.natAbs

/-- A total assignment compatible with the values. -/
def Agrees (s : State) (σ : Assignment) : Prop :=
  ∀ v, s.val v ≠ 0 → σ v = decide (0 < s.val v)

/-- Import table and eliminated values fit. -/
structure WF (s : State) : Prop where
  bound : ∀ (v : Nat) (i : Import), s.imports[v]? = some i → i.eliminated = true → i.lit < s.eliminated.length
  inj : ∀ (v : Nat) (i : Import) (v' : Nat) (i' : Import), s.imports[v]? = some i → s.imports[v']? = some i' → i.eliminated = true →
    i'.eliminated = true → i.lit = i'.lit → v = v'

/-- An entry of the extension stack can be read. -/
def Good (s : State) (e : Int) : Prop :=
  e ≠ 0 ∧ ∃ i, s.imports[e.natAbs]? = some i ∧ i.imported = true ∧
    (i.eliminated = false → s.values i.lit ≠ 0)

/-- A witness can be assigned. -/
def GoodWitness (s : State) (e : Int) : Prop :=
  e ≠ 0 ∧ ∃ i, s.imports[e.natAbs]? = some i ∧ i.imported = true ∧ i.eliminated = true

theorem GoodWitness.good {s : State} {e : Int} (h : GoodWitness s e) : Good s e := by
  obtain ⟨h0, i, h1, h2, h3⟩ := h
  exact ⟨h0, i, h1, h2, by simp [h3]⟩

/-- Entries of the stack that have no value are eliminated. -/
theorem Good.eliminated {s : State} {e : Int} (h : Good s e) (hv : s.litVal e = 0) :
    GoodWitness s e := by
  obtain ⟨h0, i, h1, h2, h3⟩ := h
  refine ⟨h0, i, h1, h2, ?_⟩
  cases he : i.eliminated with
  | true => rfl
  | false =>
    exfalso
    have : s.val e.natAbs = s.values i.lit := by
      simp [State.val, h1, h2, State.lookup, he]
    unfold State.litVal at hv
    have := h3 he
    split at hv <;> omega

/-- Positive literal values mean truth in compatible assignments. -/
theorem Agrees.true_of_pos {s : State} {σ : Assignment} (h : Agrees s σ) {e : Int} (he : e ≠ 0)
    (hv : 0 < s.litVal e) : litTrue σ (code e) := by
  rw [litTrue_code_iff]
  unfold State.litVal at hv
  split at hv
  · rw [h _ (by omega), decide_eq_decide]; omega
  · rw [h _ (by omega), decide_eq_decide]; omega

theorem Agrees.false_of_neg {s : State} {σ : Assignment} (h : Agrees s σ) {e : Int} (he : e ≠ 0)
    (hv : s.litVal e < 0) : ¬ litTrue σ (code e) := by
  rw [litTrue_code_iff]
  unfold State.litVal at hv
  split at hv
  · rw [h _ (by omega), decide_eq_decide]; omega
  · rw [h _ (by omega), decide_eq_decide]; omega

/-! ## Reading one clause -/

/-- What is known after visiting some literals. -/
structure Visited (s : State) (es : List Int) (l : Local) : Prop where
  size : l.size = es.length
  sat : l.satisfied = true → ∃ e ∈ es, 0 < s.litVal e
  notSat : l.satisfied = false → ∀ e ∈ es, s.litVal e ≤ 0
  none : l.satisfied = false → l.eliminated = 0 → ∀ e ∈ es, s.litVal e ≠ 0
  some : l.eliminated ≠ 0 → l.eliminated ∈ es ∧ (s.litVal l.eliminated = 0)

theorem visited_init (s : State) : Visited s [] .init :=
  ⟨rfl, by simp [Local.init], by simp, by simp, by simp [Local.init]⟩

theorem Visited.skip {s : State} {es : List Int} {l : Local} (h : Visited s es l) {e : Int}
    (hl : l.satisfied = true) : Visited s (es ++ [e]) { l with size := l.size + 1 } where
  size := by simp [h.size]
  sat := fun _ => by
    obtain ⟨x, hx, hv⟩ := h.sat hl
    exact ⟨x, by simp [hx], hv⟩
  notSat := fun h => by simp only at h; rw [hl] at h; cases h
  none := fun h => by simp only at h; rw [hl] at h; cases h
  some := fun hn => ⟨by simp [(h.some hn).1], (h.some hn).2⟩

theorem Visited.found {s : State} {es : List Int} {l : Local} (h : Visited s es l) {e : Int}
    (he : 0 < s.litVal e) :
    Visited s (es ++ [e]) { l with size := l.size + 1, satisfied := true } where
  size := by simp [h.size]
  sat := fun _ => ⟨e, by simp, he⟩
  notSat := fun h => by cases h
  none := fun h => by cases h
  some := fun hn => ⟨by simp [(h.some hn).1], (h.some hn).2⟩

theorem Visited.falsified {s : State} {es : List Int} {l : Local} (h : Visited s es l) {e : Int}
    (hl : l.satisfied = false) (he : s.litVal e < 0) :
    Visited s (es ++ [e]) { l with size := l.size + 1 } where
  size := by simp [h.size]
  sat := fun h => by simp only at h; rw [hl] at h; cases h
  notSat := fun _ x hx => by
    rcases List.mem_append.mp hx with hx | hx
    · exact h.notSat hl x hx
    · rw [List.mem_singleton.mp hx]; omega
  none := fun _ h0 x hx => by
    rcases List.mem_append.mp hx with hx | hx
    · exact h.none hl h0 x hx
    · rw [List.mem_singleton.mp hx]; omega
  some := fun hn => ⟨by simp [(h.some hn).1], (h.some hn).2⟩

theorem Visited.keep {s : State} {es : List Int} {l : Local} (h : Visited s es l) {e : Int}
    (hl : l.satisfied = false) (he : s.litVal e ≤ 0) (h0 : l.eliminated ≠ 0) :
    Visited s (es ++ [e]) { l with size := l.size + 1 } where
  size := by simp [h.size]
  sat := fun h => by simp only at h; rw [hl] at h; cases h
  notSat := fun _ x hx => by
    rcases List.mem_append.mp hx with hx | hx
    · exact h.notSat hl x hx
    · rw [List.mem_singleton.mp hx]; exact he
  none := fun _ hz => absurd hz h0
  some := fun hn => ⟨by simp [(h.some hn).1], (h.some hn).2⟩

theorem Visited.unassigned {s : State} {es : List Int} {l : Local} (h : Visited s es l) {e : Int}
    (hl : l.satisfied = false) (h0 : e ≠ 0) (he : s.litVal e = 0) (p : Nat) :
    Visited s (es ++ [e]) { l with size := l.size + 1, eliminated := e, pos := p } where
  size := by simp [h.size]
  sat := fun h => by simp only at h; rw [hl] at h; cases h
  notSat := fun _ x hx => by
    rcases List.mem_append.mp hx with hx | hx
    · exact h.notSat hl x hx
    · rw [List.mem_singleton.mp hx]; omega
  none := fun _ hz => absurd hz h0
  some := fun _ => ⟨by simp, he⟩

theorem visit_spec {s : State} (hs : WF s) {es : List Int} {l : Local} (h : Visited s es l)
    {e : Int} (he : Good s e) : ∃ l', s.visit l e = some l' ∧ Visited s (es ++ [e]) l' := by
  obtain ⟨h0, i, h1, h2, h3⟩ := he
  unfold State.visit
  simp only
  cases hl : l.satisfied with
  | true => exact ⟨_, rfl, hl ▸ h.skip hl⟩
  | false =>
    simp only [Bool.false_eq_true, if_false, h1]
    cases hel : i.eliminated with
    | true =>
      have hb := hs.bound _ _ h1 hel
      have hv : s.val e.natAbs = s.eliminated[i.lit] := by
        simp [State.val, h1, h2, State.lookup, hel, List.getElem?_eq_getElem hb]
      simp only [if_true, List.getElem?_eq_getElem hb]
      rw [← hv]
      have hlv : s.litVal e = if e < 0 then - s.val e.natAbs else s.val e.natAbs := rfl
      rw [← hlv]
      by_cases hp : 0 < s.litVal e
      · rw [if_pos hp]; exact ⟨_, rfl, h.found hp⟩
      · rw [if_neg hp]
        split
        · rename_i hz
          exact ⟨_, rfl, hl ▸ h.unassigned hl h0 hz.1 _⟩
        · rename_i hz
          refine ⟨_, rfl, ?_⟩
          by_cases hz' : s.litVal e = 0
          · have : l.eliminated ≠ 0 := fun hh => hz ⟨hz', Or.inl hh⟩
            exact hl ▸ h.keep hl (by omega) this
          · exact hl ▸ h.falsified hl (by omega)
    | false =>
      have hv : s.val e.natAbs = s.values i.lit := by
        simp [State.val, h1, h2, State.lookup, hel]
      simp only [Bool.false_eq_true, if_false]
      rw [← hv]
      have hlv : s.litVal e = if e < 0 then - s.val e.natAbs else s.val e.natAbs := rfl
      rw [← hlv]
      by_cases hp : 0 < s.litVal e
      · rw [if_pos hp]; exact ⟨_, rfl, h.found hp⟩
      · rw [if_neg hp]
        refine ⟨_, rfl, hl ▸ h.falsified hl ?_⟩
        have := h3 hel
        rw [hlv] at hp ⊢
        split at hp <;> simp only [*, if_true, if_false] <;> omega

/-! ## Assigning -/

/-- Only values of eliminated variables may differ. -/
structure Same (s s' : State) : Prop where
  imports : s'.imports = s.imports
  values : s'.values = s.values
  extend : s'.extend = s.extend
  extended : s'.extended = s.extended
  exports : s'.exports = s.exports
  length : s'.eliminated.length = s.eliminated.length

theorem Same.refl (s : State) : Same s s := ⟨rfl, rfl, rfl, rfl, rfl, rfl⟩

theorem Same.trans {a b c : State} (h : Same a b) (h' : Same b c) : Same a c :=
  ⟨h'.1.trans h.1, h'.2.trans h.2, h'.3.trans h.3, h'.4.trans h.4, h'.5.trans h.5,
    h'.6.trans h.6⟩

theorem Same.wf {s s' : State} (h : Same s s') (hs : WF s) : WF s' :=
  ⟨by rw [h.imports, h.length]; exact hs.bound, by rw [h.imports]; exact hs.inj⟩

theorem Same.good {s s' : State} (h : Same s s') {e : Int} (he : Good s e) : Good s' e := by
  unfold Good; rw [h.imports, h.values]; exact he

theorem Same.goodWitness {s s' : State} (h : Same s s') {e : Int} (he : GoodWitness s e) :
    GoodWitness s' e := by
  unfold GoodWitness; rw [h.imports]; exact he

theorem assign_spec {s : State} (hs : WF s) {e : Int} (he : GoodWitness s e) :
    ∃ s', s.assign e = some s' ∧ Same s s' ∧ 
      ∀ v, s'.val v = if v = e.natAbs then (if e < 0 then -1 else 1) else s.val v := by
  obtain ⟨h0, i, h1, h2, h3⟩ := he
  have hb := hs.bound _ _ h1 h3
  unfold State.assign
  simp only [h1, hb, if_true]
  refine ⟨_, rfl, ⟨rfl, rfl, rfl, rfl, rfl, by simp⟩, ?_⟩
  intro v
  by_cases hv : v = e.natAbs
  · rw [if_pos hv, hv]
    simp [State.val, h1, h2, State.lookup, h3, hb]
  · rw [if_neg hv]
    unfold State.val
    simp only
    cases hi : s.imports[v]? with
    | none => rfl
    | some j =>
      simp only
      cases j.imported with
      | false => rfl
      | true =>
        simp only [if_true]
        unfold State.lookup
        cases hje : j.eliminated with
        | false => simp
        | true =>
          have : i.lit ≠ j.lit := fun hh => hv (hs.inj _ _ _ _ hi h1 hje h3 hh.symm)
          simp [List.getElem?_set_ne this]

theorem litVal_assign {s s' : State} {e : Int} (he : e ≠ 0)
    (h : ∀ v, s'.val v = if v = e.natAbs then (if e < 0 then -1 else 1) else s.val v) :
    s'.litVal e = 1 := by
  unfold State.litVal
  rw [h, if_pos rfl]
  by_cases h0 : e < 0
  · simp [h0]
  · simp [h0]

/-- Assigning an unassigned variable only removes compatible assignments. -/
theorem agrees_of_unassigned {s s' : State} {e : Int} (hz : s.litVal e = 0)
    (h : ∀ v, s'.val v = if v = e.natAbs then (if e < 0 then -1 else 1) else s.val v)
    {σ : Assignment} (hσ : Agrees s' σ) : Agrees s σ := by
  intro v hv
  have : v ≠ e.natAbs := by
    rintro rfl
    unfold State.litVal at hz
    split at hz <;> omega
  have hval : s'.val v = s.val v := by rw [h, if_neg this]
  rw [← hval] at hv ⊢
  exact hσ v hv

/-- Flipping a literal. -/
theorem agrees_flip {s s' : State} {e : Int} (he : e ≠ 0) (hz : s.litVal e < 0)
    (h : ∀ v, s'.val v = if v = e.natAbs then (if e < 0 then -1 else 1) else s.val v)
    {σ : Assignment} (hσ : Agrees s' σ) :
    ∃ τ, Agrees s τ ∧ σ = Spec.assign τ (code e) := by
  refine ⟨fun v => if v = e.natAbs then decide (e < 0) else σ v, ?_, ?_⟩
  · intro v hv
    by_cases hv' : v = e.natAbs
    · simp only [hv', if_true]
      unfold State.litVal at hz
      rw [decide_eq_decide]
      split at hz <;> omega
    · simp only [hv', if_false]
      have hval : s'.val v = s.val v := by rw [h, if_neg hv']
      rw [← hval] at hv ⊢
      exact hσ v hv
  · funext v
    rw [assign_code]
    by_cases hv' : v = e.natAbs
    · simp only [hv', if_true]
      have := hσ e.natAbs (by rw [h, if_pos rfl]; split <;> omega)
      rw [this, h, if_pos rfl, decide_eq_decide]
      split <;> omega
    · simp only [hv', if_false]

/-- One witness labelled clause. -/
theorem finish_spec {s : State} (hs : WF s) {w : Int} {es : List Int} {l : Local}
    (hv : Visited s (es ++ [w]) l) (hw : GoodWitness s w) (hes : ∀ e ∈ es, Good s e) :
    ∃ s', s.finish l w = some s' ∧ Same s s' ∧
      ∀ σ, Agrees s' σ → SatClause σ ((w :: es).map code) ∧
        (Agrees s σ ∨ ∃ τ, Agrees s τ ∧ ¬ SatClause τ ((w :: es).map code) ∧
          σ = Spec.assign τ (code w)) := by
  have mem : ∀ {e : Int}, e ∈ es ++ [w] → code e ∈ (w :: es).map code := by
    intro e he
    refine List.mem_map.mpr ⟨e, ?_, rfl⟩
    rcases List.mem_append.mp he with h | h
    · exact List.mem_cons_of_mem _ h
    · rw [List.mem_singleton.mp h]; exact List.mem_cons_self
  have good : ∀ e ∈ es ++ [w], Good s e := by
    intro e he
    rcases List.mem_append.mp he with h | h
    · exact hes e h
    · rw [List.mem_singleton.mp h]; exact hw.good
  unfold State.finish
  cases hl : l.satisfied with
  | true =>
    obtain ⟨e, he, hpos⟩ := hv.sat hl
    refine ⟨s, by simp, .refl s, fun σ hσ => ⟨⟨code e, mem he, ?_⟩, Or.inl hσ⟩⟩
    exact hσ.true_of_pos (good e he).1 hpos
  | false =>
    simp only [Bool.false_eq_true, if_false]
    -- assigning an unassigned literal of the clause
    have assign : ∀ e ∈ es ++ [w], s.litVal e = 0 → ∃ s', s.assign e = some s' ∧ Same s s' ∧
        ∀ σ, Agrees s' σ → SatClause σ ((w :: es).map code) ∧ Agrees s σ := by
      intro e he hz
      obtain ⟨s', h1, h2, h3⟩ := assign_spec hs ((good e he).eliminated hz)
      refine ⟨s', h1, h2, fun σ hσ => ⟨⟨code e, mem he, ?_⟩, agrees_of_unassigned hz h3 hσ⟩⟩
      exact hσ.true_of_pos (good e he).1 (by rw [litVal_assign (good e he).1 h3]; decide)
    by_cases hc : l.eliminated ≠ 0 ∧ l.eliminated ≠ w
    · rw [if_pos hc]
      obtain ⟨g1, g2⟩ := hv.some hc.1
      obtain ⟨s', h1, h2, h3⟩ := assign _ g1 g2
      exact ⟨s', h1, h2, fun σ hσ => ⟨(h3 σ hσ).1, Or.inl (h3 σ hσ).2⟩⟩
    · rw [if_neg hc]
      by_cases h0 : l.eliminated = 0
      · -- all literals are false
        have hall : ∀ e ∈ es ++ [w], s.litVal e < 0 := by
          intro e he
          have a := hv.notSat hl e he
          have b := hv.none hl h0 e he
          omega
        obtain ⟨s', h1, h2, h3⟩ := assign_spec hs hw
        refine ⟨s', h1, h2, fun σ hσ => ⟨⟨code w, mem (by simp), ?_⟩, Or.inr ?_⟩⟩
        · exact hσ.true_of_pos hw.1 (by rw [litVal_assign hw.1 h3]; decide)
        · obtain ⟨τ, t1, t2⟩ := agrees_flip hw.1 (hall w (by simp)) h3 hσ
          refine ⟨τ, t1, ?_, t2⟩
          rintro ⟨x, hx, ht⟩
          obtain ⟨e, he, rfl⟩ := List.mem_map.mp hx
          have he' : e ∈ es ++ [w] := by
            rcases List.mem_cons.mp he with h | h
            · rw [h]; simp
            · simp [h]
          exact t1.false_of_neg (good e he').1 (hall e he') ht
      · have : l.eliminated = w := Classical.byContradiction fun hh => hc ⟨h0, hh⟩
        obtain ⟨g1, g2⟩ := hv.some h0
        rw [this] at g1 g2
        obtain ⟨s', h1, h2, h3⟩ := assign _ g1 g2
        exact ⟨s', h1, h2, fun σ hσ => ⟨(h3 σ hσ).1, Or.inl (h3 σ hσ).2⟩⟩

/-! ## The whole stack -/

/-- A witness labelled clause on the stack. -/
def entry (p : Int × List Int) : List Extension := ⟨p.1, true⟩ :: p.2.map (⟨·, false⟩)

/-- A witness labelled clause with coded literals. -/
def coded (p : Int × List Int) : Nat × List Nat := (code p.1, (p.1 :: p.2).map code)

theorem loop_clause {s : State} (hs : WF s) (w : Int) (es : List Int) (hw : GoodWitness s w)
    (hes : ∀ e ∈ es, Good s e) (done : List Int) (hdone : ∀ e ∈ done, Good s e) (l : Local)
    (hv : Visited s done l) (rest : List Extension) :
    ∃ s', s.loop l (es.map (⟨·, false⟩) ++ ⟨w, true⟩ :: rest) = s'.loop .init rest ∧ Same s s' ∧
      ∀ σ, Agrees s' σ → SatClause σ ((w :: (done ++ es)).map code) ∧
        (Agrees s σ ∨ ∃ τ, Agrees s τ ∧ ¬ SatClause τ ((w :: (done ++ es)).map code) ∧
          σ = Spec.assign τ (code w)) := by
  induction es generalizing done l with
  | nil =>
    obtain ⟨l', h1, h2⟩ := visit_spec hs hv hw.good
    obtain ⟨s', h3, h4, h5⟩ := finish_spec hs h2 hw hdone
    refine ⟨s', ?_, h4, by simpa using h5⟩
    simp [State.loop, h1, h3]
  | cons e es ih =>
    obtain ⟨l', h1, h2⟩ := visit_spec hs hv (hes e (by simp))
    obtain ⟨s', h3, h4, h5⟩ := ih (fun x hx => hes x (List.mem_cons_of_mem _ hx)) (done ++ [e])
      (by
        intro x hx
        rcases List.mem_append.mp hx with h | h
        · exact hdone x h
        · rw [List.mem_singleton.mp h]; exact hes e (by simp)) l' h2
    refine ⟨s', ?_, h4, by simpa using h5⟩
    rw [← h3]
    simp [State.loop, h1]

/-- Clauses are read backwards. -/
theorem satClause_reverse {σ : Assignment} {w : Int} {es : List Int} :
    SatClause σ ((w :: es.reverse).map code) ↔ SatClause σ ((w :: es).map code) := by
  unfold SatClause
  simp

theorem loop_spec {F₀ F : Formula} {S : List (Nat × List Nat)} (h : Reduces F₀ S F) :
    ∀ {s : State} (T : List (Int × List Int)), T.map coded = S → WF s →
      (∀ p ∈ T, GoodWitness s p.1 ∧ ∀ e ∈ p.2, Good s e) →
      (∀ σ, Agrees s σ → SatFormula σ F) →
      ∃ s', s.loop .init (T.flatMap entry).reverse = some s' ∧ Same s s' ∧
        ∀ σ, Agrees s' σ → SatFormula σ F₀ := by
  induction h with
  | refl =>
    intro s T hT hs hgood hσ
    have : T = [] := by cases T with | nil => rfl | cons a b => cases hT
    subst this
    exact ⟨s, rfl, .refl s, hσ⟩
  | restrict _ himp ih =>
    intro s T hT hs hgood hσ
    exact ih T hT hs hgood fun σ h => himp σ (hσ σ h)
  | @weaken S F F' l C _ hl hred himp ih =>
    intro s T hT hs hgood hσ
    obtain ⟨T', ⟨w, es⟩, rfl⟩ | h := (List.eq_nil_or_concat T).symm
    · simp only [List.concat_eq_append] at hT hgood ⊢
      rw [List.map_append, List.map_singleton] at hT
      obtain ⟨hT', hlast⟩ := List.append_inj' hT (by simp)
      simp only [coded, List.cons.injEq, Prod.mk.injEq, and_true] at hlast
      obtain ⟨rfl, rfl⟩ := hlast
      have hg := hgood (w, es) (by simp)
      obtain ⟨s1, h1, h2, h3⟩ := loop_clause hs w es.reverse hg.1
        (fun e he => hg.2 e (List.mem_reverse.mp he)) [] (by simp) .init (visited_init s)
        (T'.flatMap entry).reverse
      obtain ⟨s2, h4, h5, h6⟩ := ih T' hT' (s := s1) (h2.wf hs)
        (fun p hp => by
          have := hgood p (by simp [hp])
          exact ⟨h2.goodWitness this.1, fun e he => h2.good (this.2 e he)⟩)
        (by
          intro σ hag
          obtain ⟨c1, c2⟩ := h3 σ hag
          rw [List.nil_append, satClause_reverse] at c1
          refine himp σ ?_ c1
          rcases c2 with c2 | ⟨τ, t1, t2, rfl⟩
          · exact hσ σ c2
          · rw [List.nil_append, satClause_reverse] at t2
            exact hred τ (hσ τ t1) t2)
      refine ⟨s2, ?_, h2.trans h5, h6⟩
      rw [← h4, ← h1]
      simp [entry]
    · rw [h] at hT; simp at hT

/-- Before extension no eliminated variable has a value, so nothing is undone. -/
theorem undo_zero {s : State} (h : s.etrail = []) : s.undo = s := by
  unfold State.undo
  rw [h]
  cases s
  simp_all

theorem extendModel_spec {F₀ F : Formula} {T : List (Int × List Int)}
    (h : Reduces F₀ (T.map coded) F) {s : State} (hs : WF s) (hstack : s.extend = T.flatMap entry)
    (htrail : s.etrail = [])
    (hgood : ∀ p ∈ T, GoodWitness s p.1 ∧ ∀ e ∈ p.2, Good s e)
    (hmodel : ∀ σ, Agrees s σ → SatFormula σ F) :
    ∃ s', s.extendModel = some s' ∧ Same { s with extended := true } s' ∧
      ∀ σ, Agrees s' σ → SatFormula σ F₀ := by
  unfold State.extendModel
  rw [undo_zero (by exact htrail)]
  have := loop_spec h (s := { s with extended := true }) T rfl ⟨hs.bound, hs.inj⟩ hgood hmodel
  rw [← hstack] at this
  exact this

end Verif.Model.Extend
