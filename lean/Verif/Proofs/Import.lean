import Verif.Model.Api
import Verif.Proofs.External

/-! # Importing and exporting literals -/

namespace Verif.Core

open Verif.Spec

/-- The two tables are inverse to each other. -/
structure ImportInv (a : Api) : Prop where
  len : a.exports.length = a.s.vars
  fwd : ∀ e i, a.imports[e]? = some i → i.imported = true →
    ∃ v, i.lit = 2 * v ∧ a.exports[v]? = some e
  bwd : ∀ v e, a.exports[v]? = some e → a.imports[e]? = some ⟨2 * v, true⟩ ∧ e ≠ 0

/-- `b` is `a` with more variables. -/
def Grown (a b : Api) : Prop :=
  ∃ n imps exps, a.s.vars ≤ n ∧
    b = { a with s := { a.s with vars := n }, imports := imps, exports := a.exports ++ exps }

theorem Grown.refl (a : Api) : Grown a a :=
  ⟨a.s.vars, a.imports, [], Nat.le_refl _, by simp⟩

theorem Grown.trans {a b c : Api} (h : Grown a b) (h' : Grown b c) : Grown a c := by
  obtain ⟨n, i, e, hn, rfl⟩ := h
  obtain ⟨n', i', e', hn', rfl⟩ := h'
  exact ⟨n', i', e ++ e', Nat.le_trans hn hn', by simp⟩

theorem Grown.export {a b : Api} (h : Grown a b) (ha : ImportInv a) {l : Nat}
    (hl : l / 2 < a.s.vars) : b.exportLiteral l = a.exportLiteral l := by
  obtain ⟨n, i, e, hn, rfl⟩ := h
  unfold Api.exportLiteral
  simp only
  rw [List.getD_eq_getElem?_getD, List.getD_eq_getElem?_getD,
    List.getElem?_append_left (by rw [ha.len]; exact hl)]

theorem replicate_getElem? {α : Type} (l : List α) (n : Nat) (d : α) (i : Nat) :
    (l ++ List.replicate n d)[i]? = if i < l.length then l[i]? else
      if i < l.length + n then some d else none := by
  split
  · rename_i h; rw [List.getElem?_append_left h]
  · rename_i h
    rw [List.getElem?_append_right (by omega), List.getElem?_replicate]
    by_cases h' : i < l.length + n
    · rw [if_pos h', if_pos (by omega)]
    · rw [if_neg h', if_neg (by omega)]

theorem ImportInv.adjustImports {a : Api} (h : ImportInv a) (e : Nat) :
    ImportInv (a.adjustImports e) ∧ Grown a (a.adjustImports e) ∧
      e < (a.adjustImports e).imports.length := by
  refine ⟨⟨h.len, fun e' i hi him => ?_, fun v e' hv => ⟨?_, (h.bwd v e' hv).2⟩⟩,
    ⟨a.s.vars, _, [], Nat.le_refl _, by simp [Api.adjustImports]; rfl⟩, ?_⟩
  · have hi : (a.imports ++ List.replicate (e + 1 - a.imports.length) ⟨0, false⟩)[e']? = some i := hi
    rw [replicate_getElem?] at hi
    split at hi
    · exact h.fwd e' i hi him
    · split at hi
      · cases hi; cases him
      · cases hi
  · have := (h.bwd v e' hv).1
    show (a.imports ++ List.replicate (e + 1 - a.imports.length) ⟨0, false⟩)[e']? = _
    rw [List.getElem?_append_left (List.getElem?_eq_some_iff.1 this).1]
    exact this
  · show e < (a.imports ++ List.replicate (e + 1 - a.imports.length) (⟨0, false⟩ : Import)).length
    simp; omega

theorem ImportInv.adjustExports {a : Api} (h : ImportInv a) {e : Nat} (he : e ≠ 0)
    (hlt : e < a.imports.length) (hn : ∀ i, a.imports[e]? = some i → i.imported = false) :
    ImportInv (a.adjustExports e) ∧ Grown a (a.adjustExports e) ∧
      (a.adjustExports e).imports[e]? = some ⟨2 * a.s.vars, true⟩ ∧
      (a.adjustExports e).imports.length = a.imports.length := by
  have hexp : (a.adjustExports e).exports = a.exports ++ [e] := by
    unfold Api.adjustExports
    simp only
    rw [← h.len, show a.exports.length + 1 - a.exports.length = 1 by omega]
    simp [List.set_append_right]
  have hnew : (a.imports.set e ⟨2 * a.s.vars, true⟩)[e]? = some ⟨2 * a.s.vars, true⟩ := by
    rw [List.getElem?_set_self hlt]
  refine ⟨⟨?_, fun e' i hi him => ?_, fun v e' hv => ?_⟩, ?_, hnew, ?_⟩
  · rw [hexp, List.length_append, h.len]; rfl
  · have hi : (a.imports.set e ⟨2 * a.s.vars, true⟩)[e']? = some i := hi
    rw [hexp]
    by_cases e1 : e = e'
    · subst e1
      rw [hnew] at hi; cases hi
      exact ⟨a.s.vars, rfl, by rw [← h.len]; simp⟩
    · rw [List.getElem?_set_ne e1] at hi
      obtain ⟨v, h1, h2⟩ := h.fwd e' i hi him
      exact ⟨v, h1, by rw [List.getElem?_append_left (List.getElem?_eq_some_iff.1 h2).1]; exact h2⟩
  · show (a.imports.set e ⟨2 * a.s.vars, true⟩)[e']? = some ⟨2 * v, true⟩ ∧ _
    rw [hexp] at hv
    rw [List.getElem?_append] at hv
    split at hv
    · obtain ⟨h1, h2⟩ := h.bwd v e' hv
      have e1 : e ≠ e' := by
        rintro rfl
        have := hn _ h1; cases this
      rw [List.getElem?_set_ne e1]
      exact ⟨h1, h2⟩
    · rename_i hge
      have hlt' := (List.getElem?_eq_some_iff.1 hv).1
      simp at hlt'
      have : v = a.exports.length := by omega
      subst this
      simp at hv; subst hv
      rw [hnew, h.len]
      exact ⟨rfl, he⟩
  · refine ⟨a.s.vars + 1, a.imports.set e ⟨2 * a.s.vars, true⟩, [e], Nat.le_succ _, ?_⟩
    rw [← hexp]; rfl
  · show (a.imports.set e _).length = _
    simp

/-- The external literal of an internal one. -/
theorem ImportInv.export {a : Api} (h : ImportInv a) {v e : Nat} (hv : a.exports[v]? = some e) :
    a.exportLiteral (2 * v) = e ∧ a.exportLiteral (neg (2 * v)) = -(e : Int) := by
  have he := (h.bwd v e hv).2
  have e1 : neg (2 * v) / 2 = v := by rw [neg_div]; omega
  have e2 : neg (2 * v) % 2 = 1 := by unfold neg; rw [if_pos (by omega)]; omega
  unfold Api.exportLiteral
  simp only
  rw [e1, e2, show 2 * v / 2 = v by omega, show 2 * v % 2 = 0 by omega,
    List.getD_eq_getElem?_getD, hv]
  simp [he]

theorem importLiteral1_ok {a : Api} (h : ImportInv a) {e : Int} (he : e ≠ 0) :
    ImportInv (a.importLiteral1 e).1 ∧ Grown a (a.importLiteral1 e).1 ∧
    (a.importLiteral1 e).2 / 2 < (a.importLiteral1 e).1.s.vars ∧
    (a.importLiteral1 e).1.exportLiteral (a.importLiteral1 e).2 = e ∧
    e.natAbs < (a.importLiteral1 e).1.imports.length ∧
    (a.importLiteral1 e).1.imports.length ≤ max a.imports.length (e.natAbs + 1) := by
  obtain ⟨h1, h2, h3⟩ := h.adjustImports e.natAbs
  have hlen : (a.adjustImports e.natAbs).imports.length ≤ max a.imports.length (e.natAbs + 1) := by
    show (a.imports ++ List.replicate (e.natAbs + 1 - a.imports.length) (⟨0, false⟩ : Import)).length ≤ _
    simp; omega
  unfold Api.importLiteral1
  simp only
  generalize a.adjustImports e.natAbs = b at *
  have hne : e.natAbs ≠ 0 := by omega
  have fin : ∀ c : Api, ImportInv c → Grown a c → (∃ i, c.imports[e.natAbs]? = some i ∧
      i.imported = true) →
      ImportInv c ∧ Grown a c ∧ (if e < 0 then neg (c.imports.getD e.natAbs ⟨0, false⟩).lit else
        (c.imports.getD e.natAbs ⟨0, false⟩).lit) / 2 < c.s.vars ∧
      c.exportLiteral (if e < 0 then neg (c.imports.getD e.natAbs ⟨0, false⟩).lit else
        (c.imports.getD e.natAbs ⟨0, false⟩).lit) = e := by
    rintro c hc hg ⟨i, hi, him⟩
    rw [List.getD_eq_getElem?_getD, hi]
    simp only [Option.getD_some]
    obtain ⟨v, hv, hx⟩ := hc.fwd _ _ hi him
    obtain ⟨x1, x2⟩ := hc.export hx
    have hlt := (List.getElem?_eq_some_iff.1 hx).1
    rw [hc.len] at hlt
    refine ⟨hc, hg, ?_, ?_⟩
    · split
      · rw [neg_div, hv]; omega
      · rw [hv]; omega
    · split
      · rw [hv, x2]; omega
      · rw [hv, x1]; omega
  split
  · rename_i him
    rw [List.getD_eq_getElem?_getD] at him
    cases hx : b.imports[e.natAbs]? with
    | none => rw [hx] at him; cases him
    | some i =>
      rw [hx] at him
      obtain ⟨y1, y2, y3, y4⟩ := fin b h1 h2 ⟨i, hx, him⟩
      exact ⟨y1, y2, y3, y4, h3, hlen⟩
  · rename_i him
    obtain ⟨g1, g2, g3, g4⟩ := h1.adjustExports hne h3 (fun i hi => by
      rw [List.getD_eq_getElem?_getD, hi] at him
      simpa using him)
    obtain ⟨y1, y2, y3, y4⟩ := fin _ g1 (h2.trans g2) ⟨_, g3, rfl⟩
    exact ⟨y1, y2, y3, y4, by rw [g4]; exact h3, by rw [g4]; exact hlen⟩

theorem importRange_ok : ∀ (n other : Nat) (p : Api × Nat), other ≠ 0 → ImportInv p.1 →
    ImportInv (importRange n other p).1 ∧ Grown p.1 (importRange n other p).1 ∧
    (n ≠ 0 → (importRange n other p).2 / 2 < (importRange n other p).1.s.vars ∧
      (importRange n other p).1.exportLiteral (importRange n other p).2 = ((other + n - 1 : Nat) : Int))
  | 0, _, p, _, h => ⟨h, .refl _, fun h => absurd rfl h⟩
  | n + 1, other, p, ho, h => by
    have he : (other : Int) ≠ 0 := by omega
    obtain ⟨h1, h2, h3, h4, _⟩ := importLiteral1_ok h he
    obtain ⟨g1, g2, g3⟩ := importRange_ok n (other + 1) (p.1.importLiteral1 (other : Int)) (by omega) h1
    refine ⟨g1, h2.trans g2, fun _ => ?_⟩
    by_cases hn : n = 0
    · subst hn
      exact ⟨h3, h4.trans (by simp)⟩
    · have := g3 hn
      rw [show other + (n + 1) - 1 = other + 1 + n - 1 by omega]
      exact this

theorem exportLiteral_neg {a : Api} {l : Nat} (h : ImportInv a) (hl : l / 2 < a.s.vars) :
    a.exportLiteral (neg l) = - a.exportLiteral l := by
  have hlt : l / 2 < a.exports.length := by rw [h.len]; exact hl
  have hx := List.getElem?_eq_getElem hlt
  obtain ⟨x1, x2⟩ := h.export hx
  rcases eq_or_eq_neg (show l / 2 = 2 * (l / 2) / 2 by omega) with e | e
  · rw [← e] at x1 x2; rw [x1, x2]
  · have : neg l = 2 * (l / 2) := by rw [e, Spec.neg_neg, neg_div]; omega
    rw [this, x1]
    rw [← e] at x2
    rw [x2]; simp

theorem importLiteral_ok {a : Api} (h : ImportInv a) {e : Int} (he : e ≠ 0) :
    ImportInv (a.importLiteral e).1 ∧ Grown a (a.importLiteral e).1 ∧
    (a.importLiteral e).2 / 2 < (a.importLiteral e).1.s.vars ∧
    (a.importLiteral e).1.exportLiteral (a.importLiteral e).2 = e := by
  have h1 := importLiteral1_ok h he
  unfold Api.importLiteral
  split
  · exact ⟨h1.1, h1.2.1, h1.2.2.1, h1.2.2.2.1⟩
  · simp only
    split
    · exact ⟨h1.1, h1.2.1, h1.2.2.1, h1.2.2.2.1⟩
    · rename_i hge
      generalize hb : (if a.imports.length = 0 then a.adjustImports 0 else a) = b
      have hb' : ImportInv b ∧ Grown a b ∧ b.imports.length ≠ 0 ∧
          b.imports.length ≤ max 1 a.imports.length := by
        subst hb
        split
        · rename_i h0
          obtain ⟨x1, x2, x3⟩ := h.adjustImports 0
          refine ⟨x1, x2, by omega, ?_⟩
          show (a.imports ++ List.replicate (0 + 1 - a.imports.length) (⟨0, false⟩ : Import)).length ≤ _
          simp; omega
        · exact ⟨h, .refl _, by assumption, by omega⟩
      obtain ⟨x1, x2, x3, x4⟩ := hb'
      have hle : b.imports.length ≤ e.natAbs := by omega
      obtain ⟨y1, y2, y3⟩ := importRange_ok (e.natAbs + 1 - b.imports.length) b.imports.length (b, 0) x3 x1
      have y3 := y3 (by omega)
      rw [show b.imports.length + (e.natAbs + 1 - b.imports.length) - 1 = e.natAbs by omega] at y3
      refine ⟨y1, x2.trans y2, ?_, ?_⟩
      · simp only
        split
        · rw [neg_div]; exact y3.1
        · exact y3.1
      · simp only
        split
        · rw [exportLiteral_neg y1 y3.1, y3.2]; omega
        · rw [y3.2]; omega

/-- The coded external literals are a renaming of the internal ones. -/
theorem ImportInv.renaming {a : Api} (h : ImportInv a) :
    Renaming a.s.vars fun l => code (a.exportLiteral l) := by
  have key : ∀ l, l / 2 < a.s.vars → ∃ e : Nat, e ≠ 0 ∧ a.exports[l / 2]? = some e ∧
      code (a.exportLiteral l) = 2 * e + l % 2 := by
    intro l hl
    have hlt : l / 2 < a.exports.length := by rw [h.len]; exact hl
    have hx := List.getElem?_eq_getElem hlt
    have hne := (h.bwd _ _ hx).2
    refine ⟨_, hne, hx, ?_⟩
    obtain ⟨x1, x2⟩ := h.export hx
    generalize a.exports[l / 2] = e at *
    rcases eq_or_eq_neg (show l / 2 = 2 * (l / 2) / 2 by omega) with e1 | e1
    · rw [← e1] at x1
      rw [x1]; unfold code; rw [if_neg (by omega)]; simp; omega
    · rw [← e1] at x2
      have : l % 2 = 1 := by rw [e1]; unfold neg; rw [if_pos (by omega)]; omega
      rw [x2, this]; unfold code; rw [if_pos (by omega)]; simp
  constructor
  · intro l hl
    obtain ⟨e, h1, h2, h3⟩ := key l hl
    obtain ⟨e', h1', h2', h3'⟩ := key (neg l) (by rw [neg_div]; exact hl)
    rw [neg_div, h2] at h2'
    cases h2'
    rw [h3, h3']
    unfold neg
    split <;> split <;> omega
  · intro l m hl hm he
    obtain ⟨e, h1, h2, h3⟩ := key l hl
    obtain ⟨e', h1', h2', h3'⟩ := key m hm
    rw [h3, h3'] at he
    have ee : e = e' := by omega
    subst ee
    have a1 := (h.bwd _ _ h2).1
    have a2 := (h.bwd _ _ h2').1
    rw [a1] at a2
    injection a2 with a2
    injection a2 with a2
    omega

end Verif.Core
