import Verif.Model.Simp.Sweep
import Verif.Proofs.Congruence.InvE
import Verif.Proofs.Simp.Same

/-!
# The invariant while sweeping
-/

namespace Verif.Simp

open Verif.Spec Verif.Model Verif.Congruence

variable {orig : List (List Nat)} {s0 s : State} {E : List (List Nat)}

/-- Started in `s0`, where `E` are lemmas only in the proof. -/
structure Swept (orig : List (List Nat)) (s0 : State) (E : List (List Nat)) (s : State) : Prop where
  inv : InvE orig s0.formula E s
  same : Same s0 s
  lemmas : ∀ σ, SatFormula σ s.irr → ∀ c ∈ E, SatClause σ c
  bot : s.inconsistent = true → Bot (base s E) []
  exports : s.exports = s0.exports
  removed : s.removed = s0.removed

theorem Swept.start (h : Inv orig none s) (hc : s.inconsistent = false) : Swept orig s [] s :=
  ⟨.start h hc, .refl _, by simp, by rw [hc]; simp, rfl, rfl⟩

theorem Swept.sat_base (h : Swept orig s0 E s) {σ : Assignment} (hσ : SatFormula σ s.irr) : SatFormula σ (base s E) := by
  rintro c (hc | hc)
  · exact hσ c hc
  · exact h.lemmas σ hσ c hc

theorem Swept.entails (h : Swept orig s0 E s) {c : List Nat} (hb : Bot (base s E) (c.map neg)) : Entails s.irr c :=
  fun σ hσ => (rup_iff.2 hb).entails σ (h.sat_base hσ)

theorem bot_unit {F : Formula} {l : Nat} (h : Bot F [neg l]) : Bot F ([l].map neg) := h

theorem base_learned {l : Nat} {c : List Nat} : base (s.learnedUnit l) E c ↔ c = [l] ∨ base s E c := by
  unfold Congruence.base
  rw [irr_learnedUnit, or_assoc]

theorem base_new {c d : List Nat} : base (s.newClause c false) E d ↔ d = c ∨ base s E d := by
  unfold Congruence.base
  rw [irr_new, or_assoc]
  simp

theorem Swept.unit (h : Swept orig s0 E s) {l : Nat} (hv : s.values l = 0) (hl : s.InRange l)
    (hrem : s.removed (l / 2) = false) (hb : Bot (base s E) [neg l]) : Swept orig s0 E (s.learnedUnit l) where
  inv := h.inv.learnedUnit hv hl hrem (rup_full (c := [l]) hb)
  same := h.same.trans (same_unit (h.entails (c := [l]) hb))
  lemmas := fun σ hσ => h.lemmas σ fun c hc => hσ c (irr_learnedUnit.2 (Or.inr hc))
  bot := fun hi => (h.bot hi).le (.of_sub fun _ hc => base_learned.2 (Or.inr hc))
  exports := h.exports
  removed := h.removed

theorem Swept.empty (h : Swept orig s0 E s) (hb : Bot (base s E) []) : Swept orig s0 E s.learnedEmpty where
  inv := h.inv.learnedEmpty (rup_full (c := []) hb)
  same := h.same
  lemmas := h.lemmas
  bot := fun _ => hb
  exports := h.exports
  removed := h.removed

theorem Swept.new (h : Swept orig s0 E s) {c : List Nat} (hc : ∀ l ∈ c, s.InRange l) (hn : c.Nodup)
    (ht : ∀ l ∈ c, neg l ∉ c) (hsz : 2 ≤ c.length) (hrem : ∀ l ∈ c, s.removed (l / 2) = false)
    (hb : Bot (base s E) (c.map neg)) : Swept orig s0 E (s.newClause c false) where
  inv := h.inv.newClause hc hn ht hsz (fun _ => hrem) (rup_full hb)
  same := h.same.trans (same_new (h.entails hb))
  lemmas := fun σ hσ => h.lemmas σ fun c hc => hσ c (irr_new.2 (Or.inr hc))
  bot := fun hi => (h.bot hi).le (.of_sub fun _ hc => base_new.2 (Or.inr hc))
  exports := h.exports
  removed := h.removed

theorem Swept.garbage (h : Swept orig s0 E s) (hi : s.inconsistent = false) {r : Nat} (hg : (s.clause r).garbage = false)
    (he : Entails (s.markGarbage r).irr (s.clause r).lits) : Swept orig s0 E (s.markGarbage r) where
  inv := h.inv.markGarbage hg (Or.inr he)
  same := h.same.trans (same_garbage hg (Or.inr he))
  lemmas := fun σ hσ => h.lemmas σ ((same_garbage hg (Or.inr he) σ).2 hσ)
  bot := fun hi' => absurd (hi.symm.trans hi') (by simp)
  exports := h.exports
  removed := h.removed

theorem Swept.add (h : Swept orig s0 E s) {c : List Nat} (hc : ∀ l ∈ c, s.InRange l) (hb : Bot (base s E) (c.map neg)) :
    Swept orig s0 (c :: E) (s.emitAdd c) where
  inv := h.inv.emitAdd hc (rup_full hb)
  same := h.same
  lemmas := fun σ hσ d hd => by
    rcases List.mem_cons.1 hd with rfl | hd
    · exact h.entails hb σ hσ
    · exact h.lemmas σ hσ d hd
  bot := fun hi => (h.bot hi).le (.of_sub fun _ hc => hc.imp id (List.mem_cons_of_mem _))
  exports := h.exports
  removed := h.removed

theorem Swept.perm {E' : List (List Nat)} (h : Swept orig s0 E s) (hp : E.Perm E') : Swept orig s0 E' s where
  inv := h.inv.perm hp
  same := h.same
  lemmas := fun σ hσ d hd => h.lemmas σ hσ d (hp.mem_iff.2 hd)
  bot := fun hi => (h.bot hi).le (.of_sub fun _ hc => hc.imp id hp.mem_iff.1)
  exports := h.exports
  removed := h.removed

theorem Swept.delete {c : List Nat} (h : Swept orig s0 (c :: E) s) (hi : s.inconsistent = false) :
    Swept orig s0 E (s.emitDelete c) where
  inv := h.inv.emitDelete hi
  same := h.same
  lemmas := fun σ hσ d hd => h.lemmas σ hσ d (List.mem_cons_of_mem _ hd)
  bot := fun hi' => absurd (hi.symm.trans hi') (by simp)
  exports := h.exports
  removed := h.removed

theorem Swept.deletes : ∀ (cs : List (List Nat)) {s : State}, Swept orig s0 (cs ++ E) s → s.inconsistent = false →
    Swept orig s0 E (cs.foldl (fun s c => s.emitDelete c) s)
  | [], _, h, _ => h
  | _ :: cs, _, h, hi => Swept.deletes cs (h.delete hi) hi

theorem foldl_emitDelete_eq : ∀ (cs : List (List Nat)) (s : State),
    ∃ p, cs.foldl (fun s c => s.emitDelete c) s = { s with proof := p }
  | [], s => ⟨s.proof, rfl⟩
  | c :: cs, s => by
    obtain ⟨p, hp⟩ := foldl_emitDelete_eq cs (s.emitDelete c)
    exact ⟨p, hp⟩

/-! ## Clauses unit propagation already takes care of -/

/-- Unit propagation behaves as if `c` were a clause. -/
def Absorbed (F : Formula) (c : List Nat) : Prop :=
  (∀ l ∈ c, Imp F ((c.filter (· ≠ l)).map neg) l) ∧ (c = [] → Bot F [])

theorem absorbed_clause {F : Formula} {c d : List Nat} (hd : F d) (hs : ∀ m ∈ d, m ∈ c) : Absorbed F c := by
  refine ⟨fun l hl => ?_, fun e => ?_⟩
  · have hm : ∀ m ∈ d, m ≠ l → Imp F ((c.filter (· ≠ l)).map neg) (neg m) := fun m hm hne =>
      Imp.mem (List.mem_map_of_mem (List.mem_filter.2 ⟨hs m hm, by simpa using hne⟩))
    by_cases h : l ∈ d
    · exact Imp.clause hd h hm
    · exact (Bot.clause hd fun m h1 => hm m h1 fun e => h (e ▸ h1)).imp
  · subst e
    exact Bot.clause hd fun m hm => absurd (hs m hm) (by simp)

theorem absorbed_unit {F : Formula} {c : List Nat} {o : Nat} (ho : o ∈ c) (hu : F [o]) : Absorbed F c := by
  refine ⟨fun l hl => ?_, fun e => by rw [e] at ho; cases ho⟩
  by_cases e : o = l
  · rw [← e]; exact Imp.unit hu
  · exact (Bot.contra (l := o) (Imp.unit hu) (Imp.mem (List.mem_map_of_mem
      (List.mem_filter.2 ⟨ho, by simpa using e⟩)))).imp

theorem Absorbed.perm {F : Formula} {c d : List Nat} (h : Absorbed F c) (hm : ∀ m, m ∈ c ↔ m ∈ d) : Absorbed F d := by
  refine ⟨fun l hl => ?_, fun e => ?_⟩
  · refine (h.1 l ((hm l).2 hl)).weaken fun b hb => ?_
    obtain ⟨m, h1, rfl⟩ := List.mem_map.1 hb
    obtain ⟨h2, h3⟩ := List.mem_filter.1 h1
    exact List.mem_map_of_mem (List.mem_filter.2 ⟨(hm m).1 h2, h3⟩)
  · refine h.2 ?_
    subst e
    exact List.eq_nil_iff_forall_not_mem.2 fun a ha => absurd ((hm a).1 ha) (by simp)

theorem Absorbed.sub {F G : Formula} {c : List Nat} (h : Absorbed F c) (hs : Sub F G) : Absorbed G c :=
  ⟨fun l hl => (h.1 l hl).sub hs, fun e => (h.2 e).sub hs⟩

theorem Absorbed.bot {F : Formula} {c A : List Nat} (h : Absorbed F c) (hA : ∀ m ∈ c, Imp F A (neg m)) : Bot F A := by
  cases c with
  | nil => exact (h.2 rfl).weaken (by simp)
  | cons l c =>
    refine Bot.contra (l := l) ((h.1 l (by simp)).cut fun b hb => ?_) (hA l (by simp))
    obtain ⟨m, h1, rfl⟩ := List.mem_map.1 hb
    exact hA m (List.mem_filter.1 h1).1

theorem Absorbed.entails {F : Formula} {c : List Nat} (h : Absorbed F c) : Entails F c := fun σ hσ =>
  (rup_iff.2 (h.bot fun _ hm => Imp.mem (List.mem_map_of_mem hm))).entails σ hσ

/-- A literal replaced by an equivalent one. -/
theorem absorbed_substituted {F : Formula} {c d : List Nat} {lit repr : Nat} (hd : F d) (hr : repr ∈ d)
    (h1 : ∀ m ∈ d, m = repr ∨ m ∈ c ∧ m ≠ lit) (h2 : ∀ m ∈ c, m = lit ∨ m = repr ∨ m ∈ d ∨ F [neg m]) (hl : lit ∈ c)
    (h3 : Imp F [repr] lit) (h4 : Imp F [neg lit] (neg repr)) : Absorbed F c := by
  refine ⟨fun l hlc => ?_, fun e => by rw [e] at hl; cases hl⟩
  have hm : ∀ m ∈ c, m ≠ l → Imp F ((c.filter (· ≠ l)).map neg) (neg m) := fun m hm hne =>
      Imp.mem (List.mem_map_of_mem (List.mem_filter.2 ⟨hm, by simpa using hne⟩))
  by_cases e : l = lit
  · subst e
    refine h3.cut fun b hb => ?_
    rw [List.mem_singleton.1 hb]
    refine Imp.clause hd hr fun m hmd hne => ?_
    rcases h1 m hmd with h | ⟨h, h'⟩
    · exact absurd h hne
    · exact hm m h h'
  · have hn : Imp F ((c.filter (· ≠ l)).map neg) (neg repr) := h4.cut fun b hb => by
      rw [List.mem_singleton.1 hb]
      exact hm lit hl fun h => e h.symm
    have hall : ∀ m ∈ d, m ≠ l → Imp F ((c.filter (· ≠ l)).map neg) (neg m) := fun m hmd hne => by
      rcases h1 m hmd with h | ⟨h, _⟩
      · rw [h]; exact hn
      · exact hm m h hne
    by_cases hld : l ∈ d
    · exact Imp.clause hd hld hall
    · exact (Bot.clause hd fun m hmd => hall m hmd fun h => hld (h ▸ hmd)).imp

theorem sub_iff {F G : Formula} : Sub F G ↔ ∀ c, F c → Absorbed G c := Iff.rfl

theorem sub_base : Sub s.irr (base s E) := .of_le (.of_sub fun _ h => Or.inl h)

theorem base_neg (h : Struct orig s) {m : Nat} (hm : s.values m < 0) : base s E [neg m] := Or.inl (h.neg_irr hm)

theorem base_pos (h : Struct orig s) {m : Nat} (hm : 0 < s.values m) : base s E [m] :=
  Or.inl (Or.inl ⟨m, (h.trail m).2 hm, rfl⟩)

end Verif.Simp
