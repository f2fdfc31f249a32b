import Verif.Proofs.Core.Original
import Verif.Proofs.Import

/-! # Invariant of the library interface before the search -/

namespace Verif.Core

open Verif.Spec

/-- Accepted proofs for the original clauses `orig` (in internal literals). -/
def apiBase (orig : List (List Nat)) : Base where
  R n lines db := (∀ x ∈ lines, ∀ l ∈ Line.lits x, l / 2 < n) ∧
    (∀ c ∈ orig, ∀ l ∈ c, l / 2 < n) ∧ RupReplay orig lines db
  add := by
    rintro n lines db c ⟨h1, h2, h3⟩ hr hc
    refine ⟨fun x hx => ?_, h2, .add h3 hr⟩
    rcases List.mem_append.1 hx with hx | hx
    · exact h1 x hx
    · rw [List.mem_singleton.1 hx]; exact hc

instance (orig : List (List Nat)) : Deletes (apiBase orig) where
  delete := by
    rintro n lines db c ⟨h1, h2, h3⟩ hc hd
    refine ⟨fun x hx => ?_, h2, .delete h3 hd⟩
    rcases List.mem_append.1 hx with hx | hx
    · exact h1 x hx
    · rw [List.mem_singleton.1 hx]; exact hc

theorem apiBase_mono {orig : List (List Nat)} {n m : Nat} (hnm : n ≤ m) {lines : List Line}
    {db : List (List Nat)} (h : (apiBase orig).R n lines db) : (apiBase orig).R m lines db :=
  ⟨fun x hx l hl => Nat.lt_of_lt_of_le (h.1 x hx l hl) hnm,
   fun c hc l hl => Nat.lt_of_lt_of_le (h.2.1 c hc l hl) hnm, h.2.2⟩

theorem apiBase_extend {orig : List (List Nat)} {n : Nat} {lines : List Line}
    {db : List (List Nat)} (h : (apiBase orig).R n lines db) {C : List Nat}
    (hC : ∀ l ∈ C, l / 2 < n) : (apiBase (orig ++ [C])).R n lines (db ++ [C]) := by
  refine ⟨h.1, fun c hc => ?_, h.2.2.extend [C]⟩
  rcases List.mem_append.1 hc with hc | hc
  · exact h.2.1 c hc
  · rw [List.mem_singleton.1 hc]; exact hC

/-- All original clauses are satisfied. -/
def Models (orig : List (List Nat)) (σ : Assignment) : Prop := ∀ c ∈ orig, SatClause σ c

/-- The clause being added. -/
structure Pending (a : Api) : Prop where
  marks : ∀ l, a.marks l = if l ∈ a.clause then 1 else if neg l ∈ a.clause then -1 else 0
  nodup : a.clause.Nodup
  taut : ∀ l ∈ a.clause, neg l ∉ a.clause
  bound : ∀ l ∈ a.original, l / 2 < a.s.vars
  sub : ∀ l ∈ a.clause, l ∈ a.original
  values : a.s.inconsistent = false → ∀ l ∈ a.clause, a.s.values l = 0
  satisfied : a.s.inconsistent = false → a.satisfied = true → ∃ l ∈ a.original, a.s.values l = 1
  trivial : a.trivial = true → ∃ l ∈ a.original, neg l ∈ a.original
  rest : a.s.inconsistent = false → a.satisfied = false → a.trivial = false →
    ∀ l ∈ a.original, l ∈ a.clause ∨ a.s.values l = -1
  same : a.satisfied = false → a.trivial = false → a.shrink = false → a.original = a.clause

/-- The solver state after the clauses `orig` have been added. -/
structure Loaded (orig : List (List Nat)) (s : Solver) : Prop where
  level : s.level = 0
  state : s.inconsistent = false →
    PropInv (apiBase orig) (Models orig) s ∧ s.propagate = s.trail.length
  proof : ∃ db, (apiBase orig).R s.vars s.proof db ∧ (s.inconsistent = true → [] ∈ db)
  fresh : ∀ v, s.vars ≤ v → s.removed v = true
  active : ∀ l, s.values l ≠ 0 → s.Valid l
  loose : s.loose = false

/-- The invariant of the interface before a search. -/
structure ApiInv (orig : List (List Nat)) (a : Api) : Prop where
  loaded : Loaded orig a.s
  imports : ImportInv a
  pending : Pending a

theorem Loaded.grow {orig : List (List Nat)} {s : Solver} (h : Loaded orig s) {n : Nat}
    (hn : s.vars ≤ n) : Loaded orig { s with vars := n } := by
  obtain ⟨h1, h2, ⟨db, h3, h4⟩, h5, h6, h7⟩ := h
  refine ⟨h1, fun hi => ?_, ⟨db, apiBase_mono hn h3, h4⟩, fun v hv => h5 v (Nat.le_trans hn hv),
    fun l hl => ⟨Nat.lt_of_lt_of_le (h6 l hl).1 hn, (h6 l hl).2⟩, h7⟩
  obtain ⟨g1, g2⟩ := h2 hi
  obtain ⟨db', g3, g4⟩ := g1.ok.proof
  refine ⟨(g1.pstate.grow hn h5).prop ⟨db', apiBase_mono hn g3, ?_⟩ g1.ok.irr, g2⟩
  exact g4.resize n s.removed s.unassigned

theorem Pending.grow {a b : Api} (h : Pending a) (hg : Grown a b) : Pending b := by
  obtain ⟨n, i, e, hn, rfl⟩ := hg
  exact ⟨h.1, h.2, h.3, fun l hl => Nat.lt_of_lt_of_le (h.4 l hl) hn, h.5, h.6, h.7, h.8, h.9, h.10⟩

theorem ApiInv.grow {orig : List (List Nat)} {a b : Api} (h : ApiInv orig a) (hg : Grown a b)
    (hb : ImportInv b) : ApiInv orig b := by
  refine ⟨?_, hb, h.pending.grow hg⟩
  obtain ⟨n, i, e, hn, rfl⟩ := hg
  exact h.loaded.grow hn

theorem fixed_eq {s : Solver} {orig : List (List Nat)} (h : Loaded orig s)
    (hi : s.inconsistent = false) (l : Nat) : s.fixed l = s.values l := by
  unfold Solver.fixed
  have ht := (h.state hi).1.ok.inv.trail
  split
  · rename_i h0; exact h0.symm
  · rename_i h0
    have : s.lev l = 0 := by
      have hl := h.level
      rcases ht.dom l with h1 | h1 | h1
      · have := ht.levle l h1; omega
      · exact absurd h1 h0
      · have := ht.levle (neg l) (ht.neg_pos.2 h1); rw [lev_neg] at this; omega
    rw [if_neg (by simp [this])]

/-- Adding a literal. -/
theorem addLiteral_ok {orig : List (List Nat)} {a : Api} (h : ApiInv orig a) {e : Int}
    (he : e ≠ 0) : ∃ ilit, ApiInv orig (a.addLiteral e) ∧
      (a.addLiteral e).original = a.original ++ [ilit] ∧
      ilit / 2 < (a.addLiteral e).s.vars ∧ (a.addLiteral e).exportLiteral ilit = e ∧
      (∀ l, l / 2 < a.s.vars → (a.addLiteral e).exportLiteral l = a.exportLiteral l) ∧
      (a.addLiteral e).searches = a.searches ∧ a.s.vars ≤ (a.addLiteral e).s.vars := by
  obtain ⟨h1, h2, h3, h4⟩ := importLiteral_ok h.imports he
  have hb := h.grow h2 h1
  have hx := fun l (hl : l / 2 < a.s.vars) => h2.export h.imports hl
  have hsame : (a.importLiteral e).1.searches = a.searches ∧
      (a.importLiteral e).1.original = a.original ∧ a.s.vars ≤ (a.importLiteral e).1.s.vars := by
    obtain ⟨n, i, e, hn, h⟩ := h2; rw [h]; exact ⟨rfl, rfl, hn⟩
  unfold Api.addLiteral
  generalize a.importLiteral e = p at *
  obtain ⟨b, ilit⟩ := p
  simp only at h1 h3 h4 hb hx hsame ⊢
  obtain ⟨hs1, hs2, hs3⟩ := hsame
  have hp := hb.pending
  have hbound : ∀ l ∈ b.original ++ [ilit], l / 2 < b.s.vars := by
    intro l hl
    rcases List.mem_append.1 hl with hl | hl
    · exact hp.bound l hl
    · rw [List.mem_singleton.1 hl]; exact h3
  have hsub : ∀ l ∈ b.clause, l ∈ b.original ++ [ilit] :=
    fun l hl => List.mem_append.2 (.inl (hp.sub l hl))
  have hsat : b.s.inconsistent = false → b.satisfied = true →
      ∃ l ∈ b.original ++ [ilit], b.s.values l = 1 := fun hi hs => by
    obtain ⟨l, hl, hv⟩ := hp.satisfied hi hs
    exact ⟨l, List.mem_append.2 (.inl hl), hv⟩
  have htriv : b.trivial = true → ∃ l ∈ b.original ++ [ilit], neg l ∈ b.original ++ [ilit] :=
    fun hs => by
      obtain ⟨l, hl, hv⟩ := hp.trivial hs
      exact ⟨l, List.mem_append.2 (.inl hl), List.mem_append.2 (.inl hv)⟩
  have hnew : ilit ∈ b.original ++ [ilit] := by simp
  refine ⟨ilit, ?_⟩
  have hm := hp.marks ilit
  by_cases h0 : b.marks ilit = 0
  · rw [if_pos h0]
    by_cases hf : 0 < b.s.fixed ilit
    · rw [if_pos hf]
      refine ⟨⟨hb.loaded, ⟨h1.1, h1.2, h1.3⟩, ⟨hp.1, hp.2, hp.3, hbound, hsub, hp.6, fun hi _ => ?_,
        htriv, fun _ h => (by cases h), fun h => (by cases h)⟩⟩, by rw [hs2], h3, h4, hx, hs1, hs3⟩
      refine ⟨ilit, hnew, ?_⟩
      rw [fixed_eq hb.loaded hi] at hf
      have := (hb.loaded.state hi).1.ok.inv.trail.dom ilit
      show b.s.values ilit = 1
      omega
    · rw [if_neg hf]
      by_cases hf' : b.s.fixed ilit < 0
      · rw [if_pos hf']
        refine ⟨⟨hb.loaded, ⟨h1.1, h1.2, h1.3⟩, ⟨hp.1, hp.2, hp.3, hbound, hsub, hp.6, hsat,
          htriv, fun hi h h' l hl => ?_, fun _ _ h => (by cases h)⟩⟩, by rw [hs2], h3, h4, hx, hs1, hs3⟩
        rcases List.mem_append.1 hl with hl | hl
        · exact hp.rest hi h h' l hl
        · rw [List.mem_singleton.1 hl]
          rw [fixed_eq hb.loaded hi] at hf'
          have := (hb.loaded.state hi).1.ok.inv.trail.dom ilit
          right
          show b.s.values ilit = -1
          omega
      · rw [if_neg hf']
        have hn1 : ilit ∉ b.clause := fun hc => by rw [if_pos hc, h0] at hm; cases hm
        have hn2 : neg ilit ∉ b.clause := fun hc => by
          rw [if_neg hn1, if_pos hc, h0] at hm; cases hm
        refine ⟨⟨hb.loaded, ⟨h1.1, h1.2, h1.3⟩, ⟨fun l => ?_, ?_, fun l hl => ?_, hbound, fun l hl => ?_,
          fun hi l hl => ?_, hsat, htriv, fun hi h h' l hl => ?_, fun h h' h'' => ?_⟩⟩, by rw [hs2], h3, h4, hx, hs1, hs3⟩
        · show upd (upd b.marks ilit 1) (neg ilit) (-1) l = if l ∈ b.clause ++ [ilit] then 1 else
            if neg l ∈ b.clause ++ [ilit] then -1 else 0
          rw [upd_apply, upd_apply, hp.marks l]
          simp only [List.mem_append, List.mem_singleton]
          by_cases e1 : l = neg ilit
          · subst e1
            rw [if_pos rfl, if_neg (by simp [hn2, neg_ne]), if_pos (by simp)]
          · rw [if_neg e1]
            by_cases e2 : l = ilit
            · subst e2; rw [if_pos rfl, if_pos (by simp)]
            · rw [if_neg e2]
              have e3 : neg l ≠ ilit := fun e => e1 (by rw [← e, Spec.neg_neg])
              simp [e2, e3]
        · show (b.clause ++ [ilit]).Nodup
          rw [List.nodup_append]
          exact ⟨hp.nodup, by simp, fun x hx y hy exy => by
            rw [List.mem_singleton.1 hy] at exy; exact hn1 (exy ▸ hx)⟩
        · have hl : l ∈ b.clause ++ [ilit] := hl
          show neg l ∉ b.clause ++ [ilit]
          intro hm
          rcases List.mem_append.1 hl with hl | hl
          · rcases List.mem_append.1 hm with hm | hm
            · exact hp.taut l hl hm
            · have := List.mem_singleton.1 hm
              rw [← this, Spec.neg_neg] at hn2; exact hn2 hl
          · have := List.mem_singleton.1 hl; subst this
            rcases List.mem_append.1 hm with hm | hm
            · exact hn2 hm
            · exact neg_ne _ (List.mem_singleton.1 hm)
        · have hl : l ∈ b.clause ++ [ilit] := hl
          rcases List.mem_append.1 hl with hl | hl
          · exact hsub l hl
          · rw [List.mem_singleton.1 hl]; exact hnew
        · have hl : l ∈ b.clause ++ [ilit] := hl
          rcases List.mem_append.1 hl with hl | hl
          · exact hp.values hi l hl
          · rw [List.mem_singleton.1 hl]
            rw [fixed_eq hb.loaded hi] at hf hf'
            show b.s.values ilit = 0
            omega
        · show l ∈ b.clause ++ [ilit] ∨ _
          rcases List.mem_append.1 hl with hl | hl
          · rcases hp.rest hi h h' l hl with h | h
            · exact .inl (List.mem_append.2 (.inl h))
            · exact .inr h
          · exact .inl (List.mem_append.2 (.inr hl))
        · show b.original ++ [ilit] = b.clause ++ [ilit]
          rw [hp.same h h' h'']
  · rw [if_neg h0]
    by_cases hlt : b.marks ilit < 0
    · rw [if_pos hlt]
      have hn1 : ilit ∉ b.clause := fun hc => by rw [if_pos hc] at hm; omega
      have hn2 : neg ilit ∈ b.clause := by
        rw [if_neg hn1] at hm
        split at hm
        · assumption
        · omega
      refine ⟨⟨hb.loaded, ⟨h1.1, h1.2, h1.3⟩, ⟨hp.1, hp.2, hp.3, hbound, hsub, hp.6, hsat,
        fun _ => ⟨ilit, hnew, hsub _ hn2⟩, fun _ _ h => (by cases h), fun _ h => (by cases h)⟩⟩,
        by rw [hs2], h3, h4, hx, hs1, hs3⟩
    · rw [if_neg hlt]
      have hn1 : ilit ∈ b.clause := by
        by_cases hc : ilit ∈ b.clause
        · exact hc
        · rw [if_neg hc] at hm
          split at hm <;> omega
      refine ⟨⟨hb.loaded, ⟨h1.1, h1.2, h1.3⟩, ⟨hp.1, hp.2, hp.3, hbound, hsub, hp.6, hsat,
        htriv, fun hi h h' l hl => ?_, fun _ _ h => (by cases h)⟩⟩, by rw [hs2], h3, h4, hx, hs1, hs3⟩
      rcases List.mem_append.1 hl with hl | hl
      · exact hp.rest hi h h' l hl
      · rw [List.mem_singleton.1 hl]; exact .inl hn1

end Verif.Core
