import Verif.Model.Simp.Gates
import Verif.Spec.Refutation
import Verif.Proofs.Simp.Resolve

/-!
# One sided cores: the unit and its proof
-/

namespace Verif.Simp

open Verif.Spec Verif.Model Verif.Model.Extend

theorem refutation_false {F : Formula} {cs : List (List Nat)} (h : Refutation F cs) :
    ∀ σ, ¬ SatFormula σ F := by
  induction h with
  | done h => intro σ hσ; exact not_satClause_nil σ (h.entails σ hσ)
  | @learn F c cs h1 _ ih =>
    intro σ hσ
    refine ih σ ?_
    rintro d (hd | rfl)
    · exact hσ d hd
    · exact h1.entails σ hσ

/-- `G` has the clauses of `F` with the literal `u` added, or a unit instead. -/
def Ext (F G : Formula) (u : Nat) : Prop := ∀ c, F c →
  (∃ d, G d ∧ (∀ m ∈ c, m ∈ d) ∧ ∀ m ∈ d, m ∈ c ∨ m = u) ∨ ∃ o ∈ c, G [o]

theorem up_ext {F G : Formula} {u : Nat} (h : Ext F G u) {c : List Nat} {l : Nat}
    (hl : UP F (fun l => Spec.neg l ∈ c) l) :
    UP G (fun l => Spec.neg l ∈ u :: c) l ∨ UPConflict G (fun l => Spec.neg l ∈ u :: c) := by
  induction hl with
  | assumed h => exact Or.inl (.assumed (List.mem_cons_of_mem _ h))
  | @unit d l hd hl _ ih =>
    by_cases hc : UPConflict G (fun l => Spec.neg l ∈ u :: c)
    · exact Or.inr hc
    · have ih' : ∀ m ∈ d, m ≠ l → UP G (fun l => Spec.neg l ∈ u :: c) (Spec.neg m) := fun m hm hne =>
        (ih m hm hne).resolve_right hc
      rcases h d hd with ⟨e, e1, e2, e3⟩ | ⟨o, o1, o2⟩
      · refine Or.inl (.unit e1 (e2 l hl) fun m hm hne => ?_)
        rcases e3 m hm with h4 | rfl
        · exact ih' m h4 hne
        · exact .assumed (by rw [neg_neg]; simp)
      · by_cases e : o = l
        · subst e
          exact Or.inl (.unit o2 (by simp) fun m hm hne => absurd (List.mem_singleton.1 hm) hne)
        · exact absurd ⟨[o], o2, fun m hm => by rw [List.mem_singleton.1 hm]; exact ih' o o1 e⟩ hc

theorem rup_ext {F G : Formula} {u : Nat} (h : Ext F G u) {c : List Nat} (hr : RUP F c) :
    RUP G (u :: c) := by
  rcases hr with ⟨d, d1, d2⟩ | ⟨l, l1, l2⟩
  · left
    by_cases hc : UPConflict G (fun l => Spec.neg l ∈ u :: c)
    · exact hc
    · have ih' : ∀ m ∈ d, UP G (fun l => Spec.neg l ∈ u :: c) (Spec.neg m) := fun m hm =>
        (up_ext h (d2 m hm)).resolve_right hc
      rcases h d d1 with ⟨e, e1, e2, e3⟩ | ⟨o, o1, o2⟩
      · refine ⟨e, e1, fun m hm => ?_⟩
        rcases e3 m hm with h4 | rfl
        · exact ih' m h4
        · exact .assumed (by rw [neg_neg]; simp)
      · exact ⟨[o], o2, fun m hm => by rw [List.mem_singleton.1 hm]; exact ih' o o1⟩
  · exact Or.inr ⟨l, List.mem_cons_of_mem _ l1, List.mem_cons_of_mem _ l2⟩

theorem rup_covered {orig : List (List Nat)} {s : State} (h : Struct orig s) {G : Formula}
    (hG : FRange s G) {db : List (List Nat)}
    (hdb : ∀ c, G c → ∃ d, ofList db d ∧ SameLits (c.map s.ext) d) {c : List Nat}
    (hc : ∀ l ∈ c, s.InRange l) (hr : RUP G c) : RUP (ofList db) (c.map s.ext) := by
  have h1 : RUP (mapF s.ext G) (c.map s.ext) :=
    hr.map h.renaming (fun d hd => ⟨⟨d, hd, rfl⟩, hG d hd⟩) hc
  refine h1.mono ?_ fun _ h => h
  rintro d ⟨d, hd, rfl⟩
  exact hdb d hd

theorem lemmas_replay {orig : List (List Nat)} {s : State} (h : Struct orig s) {u : Nat}
    (hu : s.InRange u) {F : Formula} {cs : List (List Nat)} (href : Refutation F cs) :
    ∀ {G : Formula} {p : List Line} {db : List (List Nat)}, Ext F G u → FRange s G →
    (∀ c ∈ cs, ∀ l ∈ c, s.InRange l) → Replay orig p db →
    (∀ c, G c → ∃ d, ofList db d ∧ SameLits (c.map s.ext) d) →
    ∃ db', Replay orig (p ++ cs.map fun c => Line.add ((u :: c).map s.ext)) db' ∧
      RUP (ofList db') [s.ext u] ∧
      (∀ X, db'.countP (sameLits X) =
        db.countP (sameLits X) + cs.countP fun c => sameLits X ((u :: c).map s.ext)) ∧
      (∀ d ∈ db, d ∈ db') := by
  induction href with
  | done hr =>
    intro G p db hE hG _ hp hdb
    refine ⟨db, by simpa using hp, ?_, by simp, fun _ h => h⟩
    exact rup_covered h hG hdb (by simpa using hu) (rup_ext hE hr)
  | @learn F c cs hr _ ih =>
    intro G p db hE hG hcs hp hdb
    have hc : ∀ l ∈ u :: c, s.InRange l := by
      intro l hl
      rcases List.mem_cons.1 hl with rfl | hl
      · exact hu
      · exact hcs c (by simp) l hl
    have h1 := rup_covered h hG hdb hc (rup_ext hE hr)
    obtain ⟨db', i1, i2, i3, i4⟩ := ih (G := fun d => G d ∨ d = u :: c)
      (p := p ++ [.add ((u :: c).map s.ext)]) (db := (u :: c).map s.ext :: db)
      (by
        rintro d (hd | rfl)
        · rcases hE d hd with ⟨e, e1, e2⟩ | ⟨o, o1, o2⟩
          · exact Or.inl ⟨e, Or.inl e1, e2⟩
          · exact Or.inr ⟨o, o1, Or.inl o2⟩
        · exact Or.inl ⟨u :: d, Or.inr rfl, fun m hm => List.mem_cons_of_mem _ hm,
            fun m hm => (List.mem_cons.1 hm).symm⟩)
      (by
        rintro d (hd | rfl)
        · exact hG d hd
        · exact hc)
      (fun d hd => hcs d (List.mem_cons_of_mem _ hd)) (.add hp (Or.inl h1))
      (by
        rintro d (hd | rfl)
        · obtain ⟨e, e1, e2⟩ := hdb d hd
          exact ⟨e, List.mem_cons_of_mem _ e1, e2⟩
        · exact ⟨_, List.mem_cons_self, SameLits.refl _⟩)
    refine ⟨db', by simpa using i1, i2, fun X => ?_, fun d hd => i4 d (List.mem_cons_of_mem _ hd)⟩
    rw [i3, List.countP_cons, List.countP_cons]
    omega

theorem deletes_replay {orig : List (List Nat)} : ∀ (cs : List (List Nat)) {p : List Line}
    {db : List (List Nat)}, Replay orig p db → (∀ c ∈ cs, c ≠ []) →
    ∃ db', Replay orig (p ++ cs.map Line.delete) db' ∧
      (∀ X, db.countP (sameLits X) ≤ db'.countP (sameLits X) + cs.countP (sameLits X)) ∧
      ([] ∈ db → [] ∈ db')
  | [], p, db, hp, _ => ⟨db, by simpa using hp, by simp, id⟩
  | c :: cs, p, db, hp, hne => by
    obtain ⟨db', i1, i2, i3⟩ := deletes_replay cs (.delete hp (c := c))
      fun d hd => hne d (List.mem_cons_of_mem _ hd)
    refine ⟨db', by simpa using i1, fun X => ?_, fun he => i3 ?_⟩
    · have a := Core.countP_delete db c X
      have b := i2 X
      rw [List.countP_cons]
      omega
    · refine mem_deleteClause_of_not he fun hs => ?_
      have := hne c (by simp)
      cases c with
      | nil => exact this rfl
      | cons a b => have := (hs a).1 (by simp); cases this

theorem foldl_emitAdd (u : Nat) : ∀ (cs : List (List Nat)) (s : State),
    cs.foldl (fun s c => s.emitAdd (u :: c)) s =
      { s with proof := s.proof ++ cs.map fun c => Line.add ((u :: c).map s.ext) }
  | [], s => by simp
  | c :: cs, s => by
    rw [List.foldl_cons, foldl_emitAdd u cs]
    show ({ s with proof := _ } : State) = _
    congr 1
    show (s.proof ++ [_]) ++ _ = _
    rw [List.append_assoc]
    rfl

theorem foldl_emitDelete (u : Nat) : ∀ (cs : List (List Nat)) (s : State),
    cs.foldl (fun s c => s.emitDelete (u :: c)) s =
      { s with proof := s.proof ++ cs.map fun c => Line.delete ((u :: c).map s.ext) }
  | [], s => by simp
  | c :: cs, s => by
    rw [List.foldl_cons, foldl_emitDelete u cs]
    show ({ s with proof := _ } : State) = _
    congr 1
    show (s.proof ++ [_]) ++ _ = _
    rw [List.append_assoc]
    rfl

theorem learnCore_eq (s : State) (u : Nat) (cs : List (List Nat)) : s.learnCore u cs =
    { s.learnedUnit u with
      proof := ((s.proof ++ cs.map fun c => Line.add ((u :: c).map s.ext)) ++ [.add [s.ext u]]) ++
        (cs.map fun c => (u :: c).map s.ext).map Line.delete } := by
  unfold State.learnCore
  simp only
  rw [foldl_emitAdd, foldl_emitDelete, List.map_map]
  rfl

/-- Replacing the proof in a learned unit. -/
theorem Inv.learnCore {orig : List (List Nat)} {v : Option Nat} {s : State} (h : Inv orig v s)
    {u : Nat} {F : Formula} {cs : List (List Nat)} (href : Refutation F cs)
    (hE : Ext F s.formula u) (hcs : ∀ c ∈ cs, ∀ l ∈ c, s.InRange l) (hv : s.values u = 0)
    (hu : s.InRange u) (hrem : s.removed (u / 2) = false) : Inv orig v (s.learnCore u cs) := by
  obtain ⟨db, p1, p2⟩ := h.struct.proof
  obtain ⟨db1, i1, i2, i3, i4⟩ := lemmas_replay h.struct hu href hE h.struct.formula_range hcs p1
    fun c hc => p2.mem hc
  have i5 := Replay.add i1 (Or.inl i2)
  obtain ⟨db2, k1, k2, k3⟩ := deletes_replay (cs.map fun c => (u :: c).map s.ext) i5
    (by
      intro c hc
      obtain ⟨d, _, rfl⟩ := List.mem_map.1 hc
      simp)
  rw [learnCore_eq]
  have hcov : Covers (s.learnedUnit u) db2 := by
    refine ⟨fun X => ?_, fun hi => k3 (List.mem_cons_of_mem _ (i4 _ (p2.empty hi)))⟩
    have a := (p2.unit u).copies X
    have b := k2 X
    have c := i3 X
    rw [List.countP_map] at b
    rw [List.countP_cons] at a b
    have e : List.countP (sameLits X ∘ fun c => List.map s.ext (u :: c)) cs =
      List.countP (fun c => sameLits X (List.map s.ext (u :: c))) cs := rfl
    rw [e] at b
    omega
  have hin : ∀ c ∈ cs, ∀ x ∈ (u :: c).map s.ext, x / 2 < s.imports.length := fun c hc =>
    h.struct.line fun l hl => by
      rcases List.mem_cons.1 hl with rfl | hl
      · exact hu
      · exact hcs c hc l hl
  have hln : ∀ ln ∈ ((s.proof ++ cs.map fun c => Line.add ((u :: c).map s.ext)) ++ [.add [s.ext u]]) ++
      (cs.map fun c => (u :: c).map s.ext).map Line.delete, ∀ x ∈ lineLits ln, x / 2 < s.imports.length := by
    intro ln hm
    rcases List.mem_append.1 hm with hm | hm
    · refine lines_snoc (n := s.imports.length) (ln := Line.add [s.ext u]) (fun ln hm => ?_)
        (h.struct.line (c := [u]) (by simpa using hu)) ln hm
      rcases List.mem_append.1 hm with hm | hm
      · exact h.struct.lines ln hm
      · obtain ⟨c, hc, rfl⟩ := List.mem_map.1 hm
        exact hin c hc
    · obtain ⟨d, hd, rfl⟩ := List.mem_map.1 hm
      obtain ⟨c, hc, rfl⟩ := List.mem_map.1 hd
      exact hin c hc
  have hs := h.struct.withUnit hv hu hrem hln ⟨db2, k1, hcov⟩
  refine ⟨hs, ?_, h.witness, ?_⟩
  · have := h.hist.learnedUnit (F' := (s.learnedUnit u).irr) (l := u) h.struct h.struct.irr_range hs.irr_range
      fun σ hσ c hc => hσ c (irr_learnedUnit.2 (Or.inr hc))
    exact this
  · refine State.Implied.step (s' := s.learnedUnit u) h.implied (fun _ hv => hv)
      (fun σ hσ c hc => hσ c (irr_learnedUnit.2 (Or.inr hc))) fun σ τ _ hτ _ => sat_learnedUnit hτ ?_
    refine Classical.byContradiction fun hno => refutation_false href τ fun c hc => ?_
    rcases hE c hc with ⟨d, d1, _, d3⟩ | ⟨o, o1, o2⟩
    · obtain ⟨m, m1, m2⟩ := hτ d d1
      rcases d3 m m1 with h | rfl
      · exact ⟨m, h, m2⟩
      · exact absurd ⟨m, by simp, m2⟩ hno
    · obtain ⟨m, m1, m2⟩ := hτ _ o2
      rw [List.mem_singleton.1 m1] at m2
      exact ⟨o, o1, m2⟩

end Verif.Simp
