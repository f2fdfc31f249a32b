import Verif.Model.Simp.Factor
import Verif.Proofs.Simp.Probe

/-!
# Bounded variable addition
-/

namespace Verif.Simp

open Verif.Spec Verif.Model Verif.Model.Extend

/-! ## Fresh variables -/

theorem ext_append {s s' : State} {e : Int} (h : s'.exports = s.exports ++ [e]) {l : Nat} (hl : s.InRange l) :
    s'.ext l = s.ext l := by
  unfold State.ext Extend.State.exportLiteral
  rw [h]
  have : (s.exports ++ [e]).getD (l / 2) 0 = s.exports.getD (l / 2) 0 := by
    unfold State.InRange at hl
    rw [List.getD_eq_getElem?_getD, List.getD_eq_getElem?_getD, List.getElem?_append_left hl]
  rw [this]

theorem map_ext_append {s s' : State} {e : Int} (h : s'.exports = s.exports ++ [e]) {c : List Nat}
    (hc : ∀ l ∈ c, s.InRange l) : c.map s'.ext = c.map s.ext :=
  List.map_congr_left fun l hl => ext_append h (hc l hl)

theorem Struct.values_out {orig : List (List Nat)} {s : State} (h : Struct orig s) {l : Nat} (hl : ¬ s.InRange l) :
    s.values l = 0 := by
  have h1 : ¬ 0 < s.values l := fun hv => hl (h.unit l ((h.trail l).2 hv)).1
  have h2 : ¬ 0 < s.values (Spec.neg l) := fun hv =>
    hl (inRange_neg.1 (h.unit _ ((h.trail _).2 hv)).1)
  rw [h.neg] at h2
  omega

/-- What a fresh variable changes. -/
structure Fresh (s s' : State) : Prop where
  exports : s'.exports = s.exports ++ [(s.imports.length : Int)]
  imports : s'.imports = s.imports ++ [⟨2 * s.exports.length, true, false⟩]
  removed : ∀ v, s'.removed v = if v = s.exports.length then false else s.removed v
  arena : s'.arena = s.arena
  trail : s'.trail = s.trail
  values : s'.values = s.values
  inconsistent : s'.inconsistent = s.inconsistent
  proof : s'.proof = s.proof
  extend : s'.extend = s.extend
  eliminated : s'.eliminated = s.eliminated
  etrail : s'.etrail = s.etrail
  extended : s'.extended = s.extended

theorem freshLiteral_fresh {s s' : State} (h : s.freshLiteral = some s') : Fresh s s' := by
  unfold State.freshLiteral at h
  split at h
  · cases h
  · injection h with h
    subst h
    exact ⟨rfl, rfl, fun _ => rfl, rfl, rfl, rfl, rfl, rfl, rfl, rfl, rfl, rfl⟩

theorem Fresh.inRange {s s' : State} (h : Fresh s s') {l : Nat} (hl : s.InRange l) : s'.InRange l := by
  unfold State.InRange at hl ⊢
  rw [h.exports, List.length_append]; omega

theorem Fresh.clause {s s' : State} (h : Fresh s s') (r : Nat) : s'.clause r = s.clause r := by
  unfold State.clause; rw [h.arena]

theorem Fresh.irr {s s' : State} (h : Fresh s s') : s'.irr = s.irr := by
  funext c
  unfold State.irr
  simp only [h.clause, h.trail]

theorem Fresh.formula {s s' : State} (h : Fresh s s') : s'.formula = s.formula := by
  funext c
  unfold State.formula
  simp only [h.clause, h.trail]

theorem Fresh.getD {s s' : State} (h : Fresh s s') {v : Nat} (hv : v < s.exports.length) :
    s'.exports.getD v 0 = s.exports.getD v 0 := by
  rw [h.exports, List.getD_eq_getElem?_getD, List.getD_eq_getElem?_getD, List.getElem?_append_left hv]

theorem Fresh.getD_new {s s' : State} (h : Fresh s s') : s'.exports.getD s.exports.length 0 = s.imports.length := by
  rw [h.exports, List.getD_eq_getElem?_getD, List.getElem?_append_right (Nat.le_refl _)]
  simp

theorem Fresh.lt {s s' : State} (h : Fresh s s') {v : Nat} (hv : v < s'.exports.length) :
    v < s.exports.length ∨ v = s.exports.length := by
  rw [h.exports, List.length_append] at hv
  simp at hv
  omega

theorem Fresh.exportLiteral {s s' : State} (h : Fresh s s') {l : Nat} (hl : s.InRange l) :
    s'.exportLiteral l = s.exportLiteral l := by
  unfold Extend.State.exportLiteral
  rw [h.getD hl]

theorem Inv.fresh {orig : List (List Nat)} {s s' : State} (h : Inv orig none s) (hf : Fresh s s')
    (h0 : 0 < s.exports.length) : Inv orig none s' := by
  have hS := h.struct
  have hpos : 0 < s.imports.length := by have := hS.bound 0 h0; omega
  have hlen : s'.imports.length = s.imports.length + 1 := by rw [hf.imports, List.length_append]; rfl
  have hold : ∀ (u : Nat), u < s.imports.length → s'.imports[u]? = s.imports[u]? := fun u hu => by
    rw [hf.imports, List.getElem?_append_left hu]
  have hnew : s'.imports[s.imports.length]? = some ⟨2 * s.exports.length, true, false⟩ := by
    rw [hf.imports, List.getElem?_append_right (Nat.le_refl _)]; simp
  have hcov : ∀ db, Covers s db → Covers s' db := by
    intro db hdb
    refine ⟨fun X => ?_, fun hi => hdb.empty (by rw [← hf.inconsistent]; exact hi)⟩
    refine Nat.le_trans (Nat.le_of_eq ?_) (hdb.copies X)
    unfold State.copies
    rw [hf.arena, hf.trail]
    congr 1
    · refine List.countP_congr fun c hc => ?_
      cases hg : c.garbage with
      | true => simp
      | false =>
        obtain ⟨r, hr, rfl⟩ := List.mem_iff_getElem.1 hc
        have e : s.clause r = s.arena[r] := by
          unfold State.clause
          rw [List.getD_eq_getElem?_getD, List.getElem?_eq_getElem hr]; rfl
        rw [map_ext_append hf.exports fun l hl => hS.clause r (by rw [e]; exact hg) l (by rw [e]; exact hl)]
    · refine List.countP_congr fun l hl => ?_
      rw [ext_append hf.exports (hS.unit l hl).1]
  refine ⟨⟨?_, ?_, ?_, ?_, ?_, ?_, ?_, ?_, ?_, ?_, ?_, ?_, ?_, ?_, ?_, ?_, ?_⟩, ?_, ?_, ?_⟩
  · rw [hf.values]; exact hS.neg
  · rw [hf.values]; exact hS.range
  · rw [hf.values, hf.trail]; exact hS.trail
  · intro v hv
    rcases hf.lt hv with hv | rfl
    · rw [hf.getD hv]; exact hS.nonzero v hv
    · rw [hf.getD_new]; omega
  · intro v w hv hw e
    rcases hf.lt hv with hv | rfl <;> rcases hf.lt hw with hw | rfl
    · rw [hf.getD hv, hf.getD hw] at e
      exact hS.inj v w hv hw e
    · rw [hf.getD hv, hf.getD_new] at e
      have := hS.bound v hv
      omega
    · rw [hf.getD hw, hf.getD_new] at e
      have := hS.bound w hw
      omega
    · rfl
  · intro v hv hr
    rcases hf.lt hv with hv | rfl
    · rw [hf.removed, if_neg (by omega)] at hr
      rw [hf.getD hv, hold _ (hS.bound v hv)]
      exact hS.imported v hv hr
    · rw [hf.getD_new]
      exact ⟨_, hnew, rfl, rfl⟩
  · intro u i hi him he
    by_cases hu : u < s.imports.length
    · rw [hold u hu] at hi
      obtain ⟨b1, b3⟩ := hS.back u i hi him he
      exact ⟨hf.inRange b1, by rw [hf.exportLiteral b1]; exact b3⟩
    · have hu' : u < s'.imports.length := by
        rcases Nat.lt_or_ge u s'.imports.length with h | h
        · exact h
        · rw [List.getElem?_eq_none h] at hi; cases hi
      have : u = s.imports.length := by omega
      subst this
      rw [hnew] at hi
      injection hi with hi
      subst hi
      dsimp only
      have e : 2 * s.exports.length / 2 = s.exports.length := by omega
      refine ⟨?_, ?_⟩
      · unfold State.InRange
        rw [e, hf.exports, List.length_append]; simp
      · unfold Extend.State.exportLiteral
        rw [e, hf.getD_new]
        rw [if_neg (by omega)]
  · intro r hg l hl
    rw [hf.clause] at hg hl
    exact hf.inRange (hS.clause r hg l hl)
  · intro l hl
    rw [hf.trail] at hl
    obtain ⟨u1, u2⟩ := hS.unit l hl
    refine ⟨hf.inRange u1, ?_⟩
    rw [hf.removed]
    split
    · rfl
    · exact u2
  · intro r; rw [hf.clause]; exact hS.nodup r
  · intro r; rw [hf.clause]; exact hS.taut r
  · intro r; rw [hf.clause]; exact hS.size r
  · intro r hg hr l hl
    rw [hf.clause] at hg hr hl
    rw [hf.removed]
    split
    · rfl
    · exact hS.removed r hg hr l hl
  · intro v hv
    rcases hf.lt hv with hv | rfl
    · rw [hf.getD hv]
      have := hS.bound v hv
      omega
    · rw [hf.getD_new]; omega
  · intro c hc x hx
    have := hS.given c hc x hx
    omega
  · intro ln hl x hx
    rw [hf.proof] at hl
    have := hS.lines ln hl x hx
    omega
  · obtain ⟨db, p1, p2⟩ := hS.proof
    exact ⟨db, by rw [hf.proof]; exact p1, hcov db p2⟩
  · unfold State.Hist
    refine .change h.hist ⟨hf.extend, hf.eliminated, hf.etrail, hf.extended, ?_, ?_⟩ ?_
    · intro v i hi
      have hv : v < s.imports.length := by
        rcases Nat.lt_or_ge v s.imports.length with h | h
        · exact h
        · rw [List.getElem?_eq_none h] at hi; cases hi
      exact ⟨i, by rw [hold v hv]; exact hi, id, fun _ => rfl⟩
    · intro v i hi he
      by_cases hv : v < s.imports.length
      · rw [hold v hv] at hi; exact hi
      · have hu' : v < s'.imports.length := by
          rcases Nat.lt_or_ge v s'.imports.length with h | h
          · exact h
          · rw [List.getElem?_eq_none h] at hi; cases hi
        have : v = s.imports.length := by omega
        subst this
        rw [hnew] at hi
        injection hi with hi
        subst hi
        cases he
    · rintro σ hσ c ⟨d, hd, rfl⟩
      rw [hf.irr] at hσ
      exact hσ _ ⟨d, hd, (map_ext_append hf.exports (hS.irr_range d hd)).symm⟩
  · intro e he i hi
    rw [hf.extend] at he
    obtain ⟨T, hT⟩ := History.built h.hist
    have : ∃ j, s.imports[e.lit.natAbs]? = some j := by
      rw [hT.stack] at he
      obtain ⟨p, hp, he⟩ := List.mem_flatMap.1 he
      have hm : e.lit ∈ p.1 :: p.2 := by
        unfold entry at he
        rcases List.mem_cons.1 he with rfl | he
        · simp
        · obtain ⟨k, hk, rfl⟩ := List.mem_map.1 he
          exact List.mem_cons_of_mem _ hk
      obtain ⟨_, j, hj, _⟩ := hT.known p hp _ hm
      exact ⟨j, hj⟩
    obtain ⟨j, hj⟩ := this
    have hv : e.lit.natAbs < s.imports.length := by
      rcases Nat.lt_or_ge e.lit.natAbs s.imports.length with h | h
      · exact h
      · rw [List.getElem?_eq_none h] at hj; cases hj
    rw [hold _ hv] at hi
    rcases h.witness e he i hi with h1 | ⟨h1, h2, h3⟩ | ⟨v, h1, _⟩
    · exact Or.inl h1
    · refine Or.inr (Or.inl ⟨h1, h2, ?_⟩)
      rw [hf.removed]
      split
      · rfl
      · exact h3
    · cases h1
  · intro σ hσ
    rw [hf.irr] at hσ
    obtain ⟨τ, h1, h2⟩ := h.implied σ hσ
    refine ⟨fun v => if v = s.exports.length then σ v else τ v, ?_, fun v hv _ => ?_⟩
    · rw [hf.formula]
      intro c hc
      obtain ⟨l, hl, ht⟩ := h1 c hc
      refine ⟨l, hl, ?_⟩
      have hlt : l / 2 < s.exports.length := hS.formula_range c hc l hl
      unfold litTrue at ht ⊢
      dsimp only
      rw [if_neg (by omega)]
      exact ht
    · dsimp only
      split
      · rfl
      · rename_i hne
        rw [hf.removed, if_neg hne] at hv
        exact h2 v hv (by simp)

/-! ## Adding clauses -/

/-- The checker accepts these clauses in this order. -/
def Accepted : List (List Nat) → List (List Nat) → Prop
  | _, [] => True
  | db, c :: cs => (RUP (ofList db) c ∨ RAT (ofList db) c) ∧ Accepted (c :: db) cs

theorem accepted_append : ∀ {A B db : List (List Nat)}, Accepted db A → Accepted (A.reverse ++ db) B → Accepted db (A ++ B)
  | [], _, _, _, h => by simpa using h
  | c :: A, B, db, h1, h2 => ⟨h1.1, accepted_append h1.2 (by simpa using h2)⟩

/-- Adding irredundant clauses. -/
def State.adds (s : State) (L : List (List Nat)) : State := L.foldl (fun s c => s.newClause c false) s

theorem Inv.adds {orig : List (List Nat)} : ∀ (L : List (List Nat)) {s : State} {db : List (List Nat)}, Inv orig none s →
    Replay orig s.proof db → Covers s db → Accepted db (L.map fun c => c.map s.ext) →
    (∀ c ∈ L, (∀ l ∈ c, s.InRange l ∧ s.removed (l / 2) = false) ∧ c.Nodup ∧ (∀ l ∈ c, Spec.neg l ∉ c) ∧ 2 ≤ c.length) →
    Inv orig none (s.adds L)
  | [], s, db, h, _, _, _, _ => h
  | c :: L, s, db, h, hr, hc, ha, hL => by
    obtain ⟨c1, c2, c3, c4⟩ := hL c (by simp)
    have hS := h.struct
    have hr' : Replay orig (s.newClause c false).proof (c.map s.ext :: db) := .add hr ha.1
    have hc' : Covers (s.newClause c false) (c.map s.ext :: db) := by
      refine ⟨fun X => ?_, fun hi => List.mem_cons_of_mem _ (hc.empty hi)⟩
      rw [copies_new, List.countP_cons]
      have := hc.copies X
      omega
    have hs : Struct orig (s.newClause c false) := by
      refine ⟨hS.neg, hS.range, hS.trail, hS.nonzero, hS.inj, hS.imported, hS.back, ?_, hS.unit, ?_, ?_, ?_, ?_, hS.bound,
        hS.given, lines_snoc hS.lines (hS.line fun l hl => (c1 l hl).1), _, hr', hc'⟩
      · intro r; rw [clause_new]; split
        · exact fun _ l hl => (c1 l hl).1
        · exact hS.clause r
      · intro r; rw [clause_new]; split
        · exact fun _ => c2
        · exact hS.nodup r
      · intro r; rw [clause_new]; split
        · exact fun _ => c3
        · exact hS.taut r
      · intro r; rw [clause_new]; split
        · exact fun _ => c4
        · exact hS.size r
      · intro r; rw [clause_new]; split
        · exact fun _ _ l hl => (c1 l hl).2
        · exact hS.removed r
    have h' : Inv orig none (s.newClause c false) :=
      ⟨hs, State.Hist.restrict hs h.hist.newClause hS.irr_range hs.irr_range
        fun σ hσ d hd => hσ d (irr_new.2 (Or.inr hd)), h.witness,
        h.implied.step (fun _ hv => hv) (fun σ hσ d hd => hσ d (irr_new.2 (Or.inr hd))) fun σ τ hσ hτ hag => by
          refine sat_new hτ ?_
          obtain ⟨l, hl, ht⟩ := hσ c (irr_new.2 (Or.inl ⟨rfl, Or.inl rfl⟩))
          refine ⟨l, hl, ?_⟩
          unfold litTrue at ht ⊢
          rw [hag _ (c1 l hl).2 (by simp)]
          exact ht⟩
    exact Inv.adds L h' hr' hc' ha.2 fun d hd => hL d (List.mem_cons_of_mem _ hd)

theorem adds_clause : ∀ (L : List (List Nat)) (s : State) {r : Nat}, r < s.arena.length → (s.adds L).clause r = s.clause r
  | [], _, _, _ => rfl
  | c :: L, s, r, h => by
    have h1 := adds_clause L (s.newClause c false) (r := r)
      (by show r < (s.arena ++ [_]).length; rw [List.length_append]; omega)
    rw [show s.adds (c :: L) = (s.newClause c false).adds L from rfl, h1, clause_new, if_neg (by omega)]

theorem adds_irr : ∀ (L : List (List Nat)) {s : State} {d : List Nat}, (s.adds L).irr d ↔ d ∈ L ∨ s.irr d
  | [], _, _ => by simp [State.adds]
  | c :: L, s, d => by
    rw [show s.adds (c :: L) = (s.newClause c false).adds L from rfl, adds_irr L, irr_new, List.mem_cons]
    constructor
    · rintro (h | ⟨h, _⟩ | h)
      · exact Or.inl (Or.inr h)
      · exact Or.inl (Or.inl h)
      · exact Or.inr h
    · rintro ((h | h) | h)
      · exact Or.inr (Or.inl ⟨h, Or.inl rfl⟩)
      · exact Or.inl h
      · exact Or.inr (Or.inr h)

theorem adds_formula : ∀ (L : List (List Nat)) {s : State} {d : List Nat}, (s.adds L).formula d ↔ d ∈ L ∨ s.formula d
  | [], _, _ => by simp [State.adds]
  | c :: L, s, d => by
    rw [show s.adds (c :: L) = (s.newClause c false).adds L from rfl, adds_formula L, formula_new, List.mem_cons]
    constructor
    · rintro (h | h | h)
      · exact Or.inl (Or.inr h)
      · exact Or.inl (Or.inl h)
      · exact Or.inr h
    · rintro ((h | h) | h)
      · exact Or.inr (Or.inl h)
      · exact Or.inl h
      · exact Or.inr (Or.inr h)

/-- The new clauses are behind the old ones. -/
theorem adds_mem : ∀ (L : List (List Nat)) (s : State) {c : List Nat}, c ∈ L → ∃ k, s.arena.length ≤ k ∧
    (s.adds L).clause k = ⟨c, false, false⟩
  | [], _, _, h => by cases h
  | d :: L, s, c, h => by
    have hl : (s.newClause d false).arena.length = s.arena.length + 1 := by
      show (s.arena ++ [_]).length = _
      rw [List.length_append]; rfl
    rcases List.mem_cons.1 h with rfl | h
    · refine ⟨s.arena.length, Nat.le_refl _, ?_⟩
      rw [show s.adds (c :: L) = (s.newClause c false).adds L from rfl, adds_clause L _ (by omega), clause_new, if_pos rfl]
      rfl
    · obtain ⟨k, k1, k2⟩ := adds_mem L (s.newClause d false) h
      exact ⟨k, by omega, k2⟩

/-! ## Removing clauses -/

theorem Inv.deletes {orig : List (List Nat)} {G : Formula} : ∀ (R : List Nat) {s : State}, Inv orig none s → R.Nodup →
    (∀ r ∈ R, (s.clause r).garbage = false ∧ Entails G (s.clause r).lits) →
    (∀ d, G d → ∃ k, k ∉ R ∧ (s.clause k).garbage = false ∧ (s.clause k).redundant = false ∧ (s.clause k).lits = d) →
    Inv orig none (R.foldl State.markGarbage s) ∧
    (∀ σ, SatFormula σ (R.foldl State.markGarbage s).irr → SatFormula σ s.irr) ∧
    (∀ d, (R.foldl State.markGarbage s).formula d → s.formula d)
  | [], s, h, _, _, _ => ⟨h, fun _ h => h, fun _ h => h⟩
  | r :: R, s, h, hn, hR, hG => by
    rw [List.nodup_cons] at hn
    obtain ⟨g1, g2⟩ := hR r (by simp)
    have hlt := clause_lt g1
    have hent : Entails (s.markGarbage r).irr (s.clause r).lits := by
      intro σ hσ
      refine g2 σ fun d hd => ?_
      obtain ⟨k, k1, k2, k3, rfl⟩ := hG d hd
      exact hσ _ ((irr_garbage hlt).2 (Or.inr ⟨k, fun e => k1 (by simp [e]), k2, k3, rfl⟩))
    have h' := h.markGarbage g1 (Or.inr hent)
    have hne : ∀ k ∈ R, k ≠ r := fun k hk e => hn.1 (e ▸ hk)
    obtain ⟨i1, i2, i3⟩ := Inv.deletes (G := G) R h' hn.2
      (fun k hk => by
        rw [clause_garbage hlt, if_neg (hne k hk)]
        exact hR k (List.mem_cons_of_mem _ hk))
      (fun d hd => by
        obtain ⟨k, k1, k2, k3, k4⟩ := hG d hd
        refine ⟨k, fun hm => k1 (List.mem_cons_of_mem _ hm), ?_⟩
        rw [clause_garbage hlt, if_neg (fun e => k1 (by simp [e]))]
        exact ⟨k2, k3, k4⟩)
    refine ⟨i1, fun σ hσ d hd => ?_, fun d hd => formula_of_garbage hlt (i3 d hd)⟩
    have := i2 σ hσ
    rcases irr_or_garbage hlt hd with hd | rfl
    · exact this d hd
    · exact hent σ this

end Verif.Simp
