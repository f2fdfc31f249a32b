import Verif.Proofs.Whole.Run
import Verif.Proofs.Answers
import Verif.Proofs.Reach

/-!
# The beginning and the end of `kissat_solve`
-/

namespace Verif.Whole

open Verif.Spec Verif.Model Verif.Core
open Verif.Model.Extend (History)

theorem ofApi_export (a : Api) (l : Nat) : (State.ofApi a).tables.exportLiteral l = a.exportLiteral l := by
  unfold Extend.State.exportLiteral Api.exportLiteral State.ofApi
  dsimp only
  have : (a.exports.map fun (e : Nat) => (e : Int)).getD (l / 2) 0 = ((a.exports.getD (l / 2) 0 : Nat) : Int) := by
    rw [List.getD_eq_getElem?_getD, List.getD_eq_getElem?_getD, List.getElem?_map]
    cases a.exports[l / 2]? <;> rfl
  rw [this]
  by_cases h0 : ((a.exports.getD (l / 2) 0 : Nat) : Int) = 0
  · rw [if_pos h0, h0]; simp
  · rw [if_neg h0]

theorem ofApi_ext (a : Api) : (State.ofApi a).tables.ext = fun l => code (a.exportLiteral l) := by
  funext l
  show code _ = _
  rw [ofApi_export]

theorem ofApi_exports {a : Api} {v e : Nat} (h : a.exports[v]? = some e) :
    (State.ofApi a).tables.exports.getD v 0 = (e : Int) := by
  unfold State.ofApi
  dsimp only
  rw [List.getD_eq_getElem?_getD, List.getElem?_map, h]
  rfl

theorem ofApi_imports {a : Api} {u : Nat} {i : Extend.Import} (h : (State.ofApi a).tables.imports[u]? = some i) :
    ∃ j, a.imports[u]? = some j ∧ i = ⟨j.lit, j.imported, false⟩ := by
  unfold State.ofApi at h
  dsimp only at h
  rw [List.getElem?_map] at h
  cases h' : a.imports[u]? with
  | none => rw [h'] at h; cases h
  | some j => rw [h'] at h; exact ⟨j, rfl, by simpa using h.symm⟩

theorem ofApi_tables {orig : List (List Nat)} {a : Api} (h : ApiInv orig a) :
    Tables (orig.map (List.map (State.ofApi a).tables.ext)) (State.ofApi a).tables (State.ofApi a).t.s.removed := by
  have hI := h.imports
  have hlen : (State.ofApi a).tables.exports.length = a.exports.length := by simp [State.ofApi]
  have hx : ∀ v, v < (State.ofApi a).tables.exports.length → ∃ e : Nat, a.exports[v]? = some e ∧
      (State.ofApi a).tables.exports.getD v 0 = (e : Int) ∧ a.imports[e]? = some ⟨2 * v, true⟩ ∧ e ≠ 0 := by
    intro v hv
    rw [hlen] at hv
    have h1 := List.getElem?_eq_getElem hv
    exact ⟨_, h1, ofApi_exports h1, hI.bwd v _ h1⟩
  have hbound : ∀ v, v < (State.ofApi a).tables.exports.length →
      ((State.ofApi a).tables.exports.getD v 0).natAbs < (State.ofApi a).tables.imports.length := by
    intro v hv
    obtain ⟨e, h1, h2, h3, h4⟩ := hx v hv
    rw [h2]
    have := (List.getElem?_eq_some_iff.1 h3).1
    simp only [State.ofApi, List.length_map, Int.natAbs_natCast]
    exact this
  refine ⟨?_, ?_, ?_, ?_, hbound, ?_, ?_⟩
  · intro v hv
    obtain ⟨e, h1, h2, h3, h4⟩ := hx v hv
    rw [h2]; omega
  · intro v u hv hu he
    obtain ⟨e, h1, h2, h3, h4⟩ := hx v hv
    obtain ⟨e', h1', h2', h3', h4'⟩ := hx u hu
    rw [h2, h2'] at he
    simp only [Int.natAbs_natCast] at he
    subst he
    rw [h3] at h3'
    simp only [Option.some.injEq, Core.Import.mk.injEq, and_true] at h3'
    omega
  · intro v hv _
    obtain ⟨e, h1, h2, h3, h4⟩ := hx v hv
    refine ⟨⟨2 * v, true, false⟩, ?_, rfl, rfl⟩
    rw [h2]
    show (a.imports.map _)[e]? = _
    rw [List.getElem?_map, h3]
    rfl
  · intro u i hi him _
    obtain ⟨j, h1, rfl⟩ := ofApi_imports hi
    obtain ⟨v, h2, h3⟩ := hI.fwd u j h1 him
    have hv := (List.getElem?_eq_some_iff.1 h3).1
    refine ⟨by rw [hlen]; dsimp only; omega, ?_⟩
    rw [ofApi_export]
    dsimp only
    rw [h2]
    exact (hI.export h3).1
  · rintro c hc x hx'
    obtain ⟨d, hd, rfl⟩ := List.mem_map.1 hc
    obtain ⟨l, hl, rfl⟩ := List.mem_map.1 hx'
    obtain ⟨db, ⟨_, hb, _⟩, _⟩ := h.loaded.proof
    have hl := hb d hd l hl
    have := Simp.ext_div (bare (State.ofApi a).tables) l
    have h2 := hbound (l / 2) (by rw [hlen, hI.len]; exact hl)
    have h3 : (State.ofApi a).tables.ext l / 2 = ((State.ofApi a).tables.exports.getD (l / 2) 0).natAbs := this
    rw [h3]
    exact h2
  · intro e he
    cases he

theorem ofApi_frame {orig : List (List Nat)} {a : Api} (h : ApiInv orig a) :
    Frame (orig.map (List.map (State.ofApi a).tables.ext)) (.ofApi a) (ofList orig) := by
  have hT := ofApi_tables h
  obtain ⟨db, ⟨hl, hb, hR⟩, _⟩ := h.loaded.proof
  have hlen : (State.ofApi a).tables.exports.length = a.s.vars := by
    rw [← h.imports.len]; simp [State.ofApi]
  refine ⟨hT, hlen.symm, ?_, ?_, ?_⟩
  · intro ln hln x hx
    obtain ⟨y, hy, rfl⟩ := List.mem_map.1 hln
    rw [renameLine_eq] at hx
    have : ∃ l ∈ Line.lits y, x = (State.ofApi a).tables.ext l := by
      rw [ofApi_ext]
      cases y with
      | add c => obtain ⟨l, h1, h2⟩ := List.mem_map.1 hx; exact ⟨l, h1, h2.symm⟩
      | delete c => obtain ⟨l, h1, h2⟩ := List.mem_map.1 hx; exact ⟨l, h1, h2.symm⟩
    obtain ⟨l, h1, rfl⟩ := this
    have h2 := hl y hy l h1
    have h3 : (State.ofApi a).tables.ext l / 2 = _ := Simp.ext_div (bare (State.ofApi a).tables) l
    rw [h3]
    exact hT.bound (l / 2) (by rw [hlen]; exact h2)
  · have : Simp.mapF (State.ofApi a).tables.ext (ofList orig) = ofList (orig.map (List.map (State.ofApi a).tables.ext)) := by
      funext c
      apply propext
      constructor
      · rintro ⟨d, hd, rfl⟩; exact List.mem_map_of_mem hd
      · intro hc
        obtain ⟨d, hd, rfl⟩ := List.mem_map.1 hc
        exact ⟨d, hd, rfl⟩
    rw [this]
    refine .start _ rfl rfl rfl rfl ?_
    intro i hi
    obtain ⟨j, _, rfl⟩ := List.mem_map.1 hi
    rfl
  · intro c hc l hl'
    rw [hlen]
    exact hb c hc l hl'

theorem ofApi_phase {orig : List (List Nat)} {a : Api} (h : ApiInv orig a) {db : List (List Nat)}
    (hR : (apiBase orig).R a.s.vars a.s.proof db) : (ofApi_frame h).base.R a.s.vars [] db := by
  obtain ⟨hl, hb, hR⟩ := hR
  have hlen : (State.ofApi a).tables.exports.length = a.s.vars := by
    rw [← h.imports.len]; simp [State.ofApi]
  refine ⟨hlen.symm, fun x hx => (by cases hx), ?_, ⟨db.map (List.map (State.ofApi a).tables.ext), ?_, fun X => Nat.le_refl _⟩,
    fun σ hσ => RupReplay.implied hR hσ⟩
  · rw [hlen]
    exact hR.bounded hb hl
  · have := (hR.map (f := (State.ofApi a).tables.ext) (n := a.s.vars) (hlen ▸ (ofApi_tables h).renaming) hb hl).replay
    rw [List.map_nil, List.append_nil]
    show Replay _ (a.s.proof.map (renameLine _)) _
    rw [renameLine_eq, ← ofApi_ext]
    exact this

theorem ofApi_root {orig : List (List Nat)} {a : Api} (h : ApiInv orig a) (hi : a.s.inconsistent = false) :
    Root (orig.map (List.map (State.ofApi a).tables.ext)) (.ofApi a) := by
  obtain ⟨hP, hfull⟩ := h.loaded.state hi
  obtain ⟨db, hR, hcov⟩ := hP.ok.proof
  refine ⟨ofList orig, ofApi_frame h, ⟨?_, hi⟩, hfull, h.loaded.level⟩
  have hps := hP.pstate
  refine ⟨⟨?_, ⟨db, ofApi_phase h hR, ?_⟩, ?_⟩, ?_, hps.frames, hps.le⟩
  · obtain ⟨h1, h2, h3, h4⟩ := hP.ok.inv
    exact ⟨⟨h1.1, h1.2, h1.3, h1.4, h1.5, h1.6, h1.7, h1.8, h1.9, h1.10, h1.11, h1.12, h1.13⟩,
      ⟨h2.1, h2.2, h2.3, h2.4, h2.5⟩, ⟨h3.1, h3.2, h3.3, h3.4, h3.5, h3.6, h3.7⟩,
      ⟨h4.1, h4.2, h4.3, h4.4⟩⟩
  · exact ⟨hcov.large, hcov.bin, hcov.unit, hcov.empty⟩
  · exact hP.ok.irr
  · exact ⟨hps.watching.1, hps.watching.2⟩

theorem ofApi_refuted {orig : List (List Nat)} {a : Api} (h : ApiInv orig a) (hi : a.s.inconsistent = true) :
    Refuted (orig.map (List.map (State.ofApi a).tables.ext)) (.ofApi a) := by
  obtain ⟨db, hR, he⟩ := h.loaded.proof
  exact refuted_of (ofApi_frame h) (t := (State.ofApi a).t) (ofApi_phase h hR) (he hi)

/-! ## Before the search loop -/

theorem before_ok {orig : List (List Nat)} {a : Api} (h : ApiInv orig a) {o : LuckyOptions} {p : Bool} {w : State} {res : Nat}
    (hb : Before o p a w res) :
    Answered (orig.map (List.map (State.ofApi a).tables.ext)) w res ∧
      (res = 0 → Root (orig.map (List.map (State.ofApi a).tables.ext)) w ∧ w.t.s.loose = false) := by
  cases hb with
  | inconsistent hi => exact ⟨Or.inr (Or.inl ⟨rfl, ofApi_refuted h hi⟩), fun h => absurd h (by omega)⟩
  | early hi hl hne => exact lucky_phase (ofApi_root h hi) h.loaded.loose hl
  | preprocess hi hl _ hs hne =>
    rcases simplify_ok ((lucky_phase (ofApi_root h hi) h.loaded.loose hl).2 rfl).1 hs with ⟨rfl, h1⟩ | ⟨rfl, h1⟩
    · exact ⟨Or.inr (Or.inl ⟨rfl, h1⟩), fun h => absurd h (by omega)⟩
    · exact absurd rfl hne
  | late hi hl hs hl' =>
    have h1 := (lucky_phase (ofApi_root h hi) h.loaded.loose hl).2 rfl
    suffices H : Root (orig.map (List.map (State.ofApi a).tables.ext)) _ ∧ _ from lucky_phase H.1 H.2 hl'
    cases p with
    | false =>
      rw [if_neg (by simp)] at hs
      rw [hs]; exact h1
    | true =>
      rw [if_pos rfl] at hs
      rcases simplify_ok h1.1 hs with ⟨h2, _⟩ | ⟨_, h2⟩
      · cases h2
      · exact h2

/-- Everything `kissat_solve` can do. -/
theorem solve_answered {orig : List (List Nat)} {a : Api} (h : ApiInv orig a) {o : LuckyOptions} {p : Bool} {rs : List Bool}
    {w : State} {res : Nat} (hs : Solve o p a rs w res) :
    Answered (orig.map (List.map (State.ofApi a).tables.ext)) w res := by
  cases hs with
  | before _ _ hb _ => exact (before_ok h hb).1
  | limit _ _ hb _ => exact (before_ok h hb).1
  | search _ _ hb _ hl => exact (loop_ok hl ((before_ok h hb).2 rfl).1.running).stop

theorem searching_running {orig : List (List Nat)} {a : Api} (h : ApiInv orig a) {o : LuckyOptions} {p : Bool} {w : State}
    (hs : Searching o p a w) : Running (orig.map (List.map (State.ofApi a).tables.ext)) w := by
  induction hs with
  | start _ _ hb => exact ((before_ok h hb).2 rfl).1.running
  | next _ hs ih => exact step_ok ih hs

/-! ## Models -/

theorem Found.complete {orig : List (List Nat)} {w : State} (h : Found orig w) :
    ∃ F, History (ofList orig) { w.tables with values := w.t.s.values } F ∧
      Extend.State.Complete { w.tables with values := w.t.s.values } ∧
      (∀ i, w.tables.imports[0]? = some i → i.imported = false) ∧
      Props.Satisfies { w.tables with values := w.t.s.values } F := by
  obtain ⟨F, hF, hP, hfull, h0⟩ := h
  have hT := hF.tables
  have ht := hP.ok.inv.trail
  have hval : ∀ l, w.t.s.Valid l → w.t.s.values l ≠ 0 := by
    intro l hl e
    have hfree : w.t.s.free = [] := List.eq_nil_of_length_eq_zero (by rw [← ht.count, h0])
    have := (ht.free_iff (l := l)).2 ⟨hl, e⟩
    rw [hfree] at this
    cases this
  have hh : History (ofList orig) { w.tables with values := w.t.s.values } (Simp.mapF w.tables.ext F) :=
    .change hF.hist ⟨rfl, rfl, rfl, rfl, fun _ i h => ⟨i, h, id, fun _ => rfl⟩, fun _ _ h _ => h⟩ fun _ h => h
  have hz : ∀ i, w.tables.imports[0]? = some i → i.imported = false := by
    intro i hi
    cases him : i.imported with
    | false => rfl
    | true =>
      obtain ⟨h1, h3⟩ := hT.back 0 i hi him (Simp.history_zero hh i hi)
      exact absurd h3 (Simp.exportLiteral_ne (s := bare w.tables) hT.nonzero h1)
  refine ⟨_, hh, ?_, hz, ?_⟩
  · intro e he i hi
    rcases hT.witness e he i hi with h1 | ⟨h1, h2, h3⟩
    · exact Or.inl h1
    · cases hel : i.eliminated with
      | true => exact Or.inl rfl
      | false =>
        refine Or.inr ⟨h1, hval _ ⟨?_, h3⟩⟩
        rw [hF.vars]
        exact (hT.back _ i hi h2 hel).1
  · intro σ hσ
    refine (Simp.pull_formula (s := bare w.tables) hT.nonzero hF.range).1 (hP.model hfull h0 fun l hl => ?_)
    have hv := ht.valid l (by omega)
    have hr : l / 2 < w.tables.exports.length := by rw [← hF.vars]; exact hv.1
    rw [Simp.pull_true (s := bare w.tables) hT.nonzero hr]
    obtain ⟨i, i1, i2, i3⟩ := hT.imported _ hr hv.2
    obtain ⟨b1, b3⟩ := hT.back _ i i1 i2 i3
    have hdiv : i.lit / 2 = l / 2 := by
      apply hT.inj _ _ b1 hr
      have h6 : ((bare w.tables).exportLiteral i.lit).natAbs = _ := Simp.exportLiteral_abs (bare w.tables) i.lit
      have h5 : (bare w.tables).exportLiteral i.lit = _ := b3
      rw [h5] at h6
      exact h6.symm
    have hne : w.t.s.values i.lit ≠ 0 := by
      rcases eq_or_eq_neg hdiv with e | e
      · rw [e]; omega
      · rw [e, ht.anti]; omega
    have hv := hσ _ i i1 i2 i3 hne
    dsimp only at hv
    have key : litTrue σ ((bare w.tables).ext i.lit) ↔ 0 < w.t.s.values i.lit := by
      unfold litTrue
      rw [Simp.ext_div, hdiv]
      have h1 : (bare w.tables).ext i.lit % 2 = 0 := by
        show code (w.tables.exportLiteral i.lit) % 2 = 0
        rw [b3]
        unfold code
        rw [if_neg (by omega)]
        omega
      rw [h1]
      show (σ (w.tables.exports.getD (l / 2) 0).natAbs = _) ↔ _
      rw [hv]
      simp
    rcases eq_or_eq_neg hdiv with e | e
    · rw [← e]
      exact key.2 (by rw [e]; omega)
    · have e' : l = Spec.neg i.lit := by rw [e, neg_neg]
      rw [e', Simp.ext_neg (s := bare w.tables) hT.nonzero b1, litTrue_neg, key]
      rw [e, ht.anti]; omega

theorem Found.answers {orig : List (List Nat)} {w : State} (h : Found orig w) :
    ∃ f : Int → Int, (∀ queries, w.answers queries = some (queries.map f)) ∧
      (∀ e, (f e = e ∨ f e = - e ∨ f e = 0) ∧ f (- e) = f e) ∧
      ∀ σ : Assignment, (∀ v : Nat, f v ≠ 0 → σ v = decide (f v = v)) → SatFormula σ (ofList orig) := by
  obtain ⟨F, h1, h2, h3, h4⟩ := h.complete
  obtain ⟨f, f1, f2⟩ := Props.C43_reconstruction h1 h2 h3 h4
  obtain ⟨g, g1, g2⟩ := Props.C06_any_order h1 h2 h4
  have e : g = f := by
    funext e
    have h1 := f1 [e]
    rw [g1 [e]] at h1
    simpa using h1
  rw [e] at g2
  exact ⟨f, f1, g2, f2⟩

end Verif.Whole
