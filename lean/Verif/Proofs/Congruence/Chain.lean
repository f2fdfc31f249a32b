import Verif.Proofs.Congruence.Merge

/-!
# Proof chains
-/

namespace Verif.Congruence

open Verif.Spec Verif.Model Verif.Simp

variable {orig : List (List Nat)} {F0 : Formula} {E : List (List Nat)} {c c' : Closure}

/-- The lines written for clauses: trivial clauses are skipped. -/
inductive Chain : List (List Nat) → List (List Nat) → Prop
  | nil : Chain [] []
  | skip {d : List Nat} {cs ds : List (List Nat)} {l : Nat} : l ∈ d → neg l ∈ d → Chain cs ds → Chain (d :: cs) ds
  | keep {d e : List Nat} {cs ds : List (List Nat)} : (∀ x, x ∈ e ↔ x ∈ d) → Chain cs ds → Chain (d :: cs) (e :: ds)

theorem Chain.append {a b a' b' : List (List Nat)} (h : Chain a b) (h' : Chain a' b') : Chain (a ++ a') (b ++ b') := by
  induction h with
  | nil => exact h'
  | skip h1 h2 _ ih => exact .skip h1 h2 ih
  | keep h1 _ ih => exact .keep h1 ih

theorem Chain.single (d : List Nat) : Chain [d] [d] := .keep (fun _ => Iff.rfl) .nil

theorem simplifyChain_some : ∀ {d marks e : List Nat}, simplifyChain d marks = some e → ∀ x, x ∈ e ↔ x ∈ d ∨ x ∈ marks
  | [], marks, e, h => by
    unfold simplifyChain at h
    cases h
    simp
  | l :: d, marks, e, h => by
    unfold simplifyChain at h
    intro x
    split at h
    · rename_i hm
      rw [simplifyChain_some h x]
      simp only [List.mem_cons]
      constructor
      · rintro (h | h)
        · exact Or.inl (Or.inr h)
        · exact Or.inr h
      · rintro ((rfl | h) | h)
        · exact Or.inr hm
        · exact Or.inl h
        · exact Or.inr h
    · split at h
      · cases h
      · rw [simplifyChain_some h x]
        simp only [List.mem_cons]
        constructor
        · rintro (h | h | h)
          · exact Or.inl (Or.inr h)
          · exact Or.inl (Or.inl h)
          · exact Or.inr h
        · rintro ((h | h) | h)
          · exact Or.inr (Or.inl h)
          · exact Or.inl h
          · exact Or.inr (Or.inr h)

theorem simplifyChain_none : ∀ {d marks : List Nat}, simplifyChain d marks = none → ∃ l, (l ∈ d ∨ l ∈ marks) ∧ (neg l ∈ d ∨ neg l ∈ marks)
  | [], marks, h => by unfold simplifyChain at h; cases h
  | l :: d, marks, h => by
    unfold simplifyChain at h
    split at h
    · obtain ⟨k, h1, h2⟩ := simplifyChain_none h
      exact ⟨k, h1.imp (by simp +contextual) id, h2.imp (by simp +contextual) id⟩
    · split at h
      · rename_i hm
        exact ⟨l, Or.inl (by simp), Or.inr hm⟩
      · obtain ⟨k, h1, h2⟩ := simplifyChain_none h
        refine ⟨k, ?_, ?_⟩
        · rcases h1 with h1 | h1
          · exact Or.inl (by simp [h1])
          · rcases List.mem_cons.1 h1 with e | h1
            · exact Or.inl (by simp [e])
            · exact Or.inr h1
        · rcases h2 with h1 | h1
          · exact Or.inl (by simp [h1])
          · rcases List.mem_cons.1 h1 with e | h1
            · exact Or.inl (by simp [e])
            · exact Or.inr h1

theorem chain_chain : ∀ cs : List (List Nat), Chain cs (chain cs)
  | [] => .nil
  | d :: cs => by
    unfold chain
    rw [List.filterMap_cons]
    cases h : simplifyChain d [] with
    | none =>
      obtain ⟨l, h1, h2⟩ := simplifyChain_none h
      exact .skip (by simpa using h1) (by simpa using h2) (chain_chain cs)
    | some e =>
      refine .keep (fun x => ?_) (chain_chain cs)
      rw [simplifyChain_some h]; simp

theorem base_reproof {s : State} {p : List Line} : base { s with proof := p } E = base s E := rfl

theorem emitAdds_base {s : State} (ds : List (List Nat)) : base (emitAdds s ds) E = base s E := by
  obtain ⟨p, hp⟩ := emitAdds_eq ds s
  rw [hp]; rfl

theorem Sub.skip {F G : Formula} (h : Sub F G) {d : List Nat} {l : Nat} (h1 : l ∈ d) (h2 : neg l ∈ d) : Sub (Plus F d) G := by
  rintro e (he | rfl)
  · exact h e he
  · refine ⟨fun k hk => ?_, fun e => by rw [e] at h1; cases h1⟩
    by_cases e1 : l = k
    · refine Imp.mem (List.mem_map.2 ⟨neg l, List.mem_filter.2 ⟨h2, ?_⟩, by rw [neg_neg]; exact e1⟩)
      rw [e1]; simp [neg_ne]
    · by_cases e2 : neg l = k
      · exact Imp.mem (List.mem_map.2 ⟨l, List.mem_filter.2 ⟨h1, by simpa using e1⟩, e2⟩)
      · refine (Bot.contra (l := l) (Imp.mem ?_) (Imp.mem ?_)).imp
        · exact List.mem_map.2 ⟨neg l, List.mem_filter.2 ⟨h2, by simpa using e2⟩, neg_neg l⟩
        · exact List.mem_map_of_mem (List.mem_filter.2 ⟨h1, by simpa using e1⟩)

theorem Sub.keep {F G H : Formula} (h : Sub F G) (hGH : Sub G H) {d e : List Nat} (he : ∀ x, x ∈ e ↔ x ∈ d) (hH : H e) : Sub (Plus F d) H := by
  rintro x (hx | rfl)
  · exact (h.trans hGH) x hx
  · refine ⟨fun k hk => Imp.clause hH ((he k).2 hk) fun m hm hne => Imp.mem (List.mem_map_of_mem ?_), fun e0 => ?_⟩
    · exact List.mem_filter.2 ⟨(he m).1 hm, by simpa using hne⟩
    · refine Bot.clause hH fun m hm => ?_
      have := (he m).1 hm
      rw [e0] at this; cases this

theorem InvE.emitAdds {cs ds : List (List Nat)} (hch : Chain cs ds) : ∀ {E : List (List Nat)} {s : State} {F : Formula}, InvE orig F0 E s →
    Sub F (base s E) → Steps F cs → (∀ d ∈ cs, ∀ l ∈ d, s.InRange l) →
    InvE orig F0 (ds.reverse ++ E) (emitAdds s ds) ∧ Sub (Pluses F cs) (base s (ds.reverse ++ E)) := by
  induction hch with
  | nil => intro E s F h hs _ _; exact ⟨h, hs⟩
  | @skip d cs ds l h1 h2 _ ih =>
    intro E s F h hs hst hr
    exact ih h (hs.skip h1 h2) hst.2 fun d hd => hr d (List.mem_cons_of_mem _ hd)
  | @keep d e cs ds he _ ih =>
    intro E s F h hs hst hr
    have hrup : RUP (full s E) e := by
      refine rup_full ?_
      refine (hst.1.sub hs).weaken fun b hb => ?_
      obtain ⟨m, hm, rfl⟩ := List.mem_map.1 hb
      exact List.mem_map_of_mem ((he m).2 hm)
    have i1 := h.emitAdd (c := e) (fun l hl => hr d (by simp) l ((he l).1 hl)) hrup
    obtain ⟨j1, j2⟩ := ih (s := s.emitAdd e) i1 (F := Plus F d)
      (hs.keep (H := base s (e :: E)) (.of_le (.of_sub fun _ h => h.imp id (List.mem_cons_of_mem _))) he (Or.inr (by simp)))
      hst.2 fun d hd => hr d (List.mem_cons_of_mem _ hd)
    rw [List.reverse_cons, List.append_assoc]
    exact ⟨j1, j2⟩

theorem Base.reproof {E' : List (List Nat)} (h : Base orig F0 E c) {p : List Line} (hi : InvE orig F0 E' { c.solver with proof := p }) :
    Base orig F0 E' { c with solver := { c.solver with proof := p } } :=
  ⟨hi, h.cons, h.neg, h.lt, h.ok, h.val, h.link, h.bins⟩

/-- Merging with the help of a proof chain. -/
theorem Base.mergeWith (h : Base orig F0 E c) (order : State → List Nat) {cs ds : List (List Nat)} (hch : Chain cs ds)
    (hst : Steps (base c.solver E) cs) (hr : ∀ d ∈ cs, ∀ l ∈ d, c.solver.InRange l) {a b : Nat} (ha : Ok c.solver a) (hb : Ok c.solver b)
    (b1 : Bot (Pluses (base c.solver E) cs) [a, Spec.neg b]) (b2 : Bot (Pluses (base c.solver E) cs) [Spec.neg a, b]) :
    Out orig F0 E c (c.mergeWith order ds a b) := by
  obtain ⟨i1, i2⟩ := h.inv.emitAdds hch (.refl _) hst hr
  obtain ⟨p, hp⟩ := emitAdds_eq ds c.solver
  unfold Closure.mergeWith
  rw [hp] at i1 ⊢
  have hbase := h.reproof i1
  have hm := hbase.merge order (a := a) (b := b) ha hb (b1.sub i2) (b2.sub i2)
  dsimp only
  have hrel : Rel c (Closure.merge { c with solver := { c.solver with proof := p } } order a b) :=
    ⟨hm.rel.le, hm.rel.exports, hm.rel.removed, hm.rel.keep, hm.rel.gates, hm.rel.occurrences, hm.rel.root, hm.rel.bins⟩
  have hinv := hm.inv
  have hbas := hm.base
  generalize Closure.merge { c with solver := { c.solver with proof := p } } order a b = d at hrel hinv hbas
  by_cases c1 : d.solver.inconsistent = true
  · rw [if_pos c1]
    exact ⟨hrel, hinv.drops _, by rw [c1]; intro h; cases h⟩
  · rw [if_neg c1]
    have c1 : d.solver.inconsistent = false := by simpa using c1
    have i3 := (hinv.perm ((List.reverse_perm ds).append_right E)).emitDeletes ds c1
    obtain ⟨q, hq⟩ := emitDeletes_eq ds d.solver
    rw [hq] at i3 ⊢
    exact ⟨⟨hrel.le, hrel.exports, hrel.removed, hrel.keep, hrel.gates, hrel.occurrences, hrel.root, hrel.bins⟩, i3, fun _ => (hbas c1).reproof i3⟩

end Verif.Congruence
