import Verif.Proofs.ApiInv

/-! # Completing a clause -/

namespace Verif.Core

open Verif.Spec

theorem count_delete_append (db : List (List Nat)) (C X : List Nat) :
    db.countP (sameLits X) ≤ (deleteClause (db ++ [C]) C).countP (sameLits X) := by
  have := count_delete C X (db ++ [C])
  rw [List.countP_append, List.countP_singleton] at this
  omega

theorem count_append (db : List (List Nat)) (C X : List Nat) :
    db.countP (sameLits X) ≤ (db ++ [C]).countP (sameLits X) := by
  rw [List.countP_append]; omega

theorem models_append {orig : List (List Nat)} {C : List Nat} {σ : Assignment}
    (h : Models orig σ) (hC : SatClause σ C) : Models (orig ++ [C]) σ := by
  intro c hc
  rcases List.mem_append.1 hc with hc | hc
  · exact h c hc
  · rw [List.mem_singleton.1 hc]; exact hC

/-- New proof lines and the same clauses. -/
theorem Loaded.change {orig : List (List Nat)} {s : Solver} (h : Loaded orig s) {C : List Nat}
    {pr : List Line}
    (hR : ∀ db, (apiBase orig).R s.vars s.proof db → ∃ db', (apiBase (orig ++ [C])).R s.vars pr db' ∧
      ∀ X, db.countP (sameLits X) ≤ db'.countP (sameLits X))
    (hG : s.inconsistent = false → ∀ σ, SatFormula σ s.irr → SatClause σ C) :
    Loaded (orig ++ [C]) { s with proof := pr } := by
  obtain ⟨h1, h2, ⟨db, h3, h4⟩, h5, h6, h7⟩ := h
  refine ⟨h1, fun hi => ?_, ?_, h5, h6, h7⟩
  · have hi : s.inconsistent = false := hi
    obtain ⟨g1, g2⟩ := h2 hi
    obtain ⟨dc, g3, g4⟩ := g1.ok.proof
    obtain ⟨db', r1, r2⟩ := hR dc g3
    have hp := g1.pstate
    obtain ⟨⟨i1, i2, i3, i4⟩, ⟨i5, i6⟩, i7, i8⟩ := hp
    have hps : PState { s with proof := pr } :=
      ⟨⟨⟨i1.1, i1.2, i1.3, i1.4, i1.5, i1.6, i1.7, i1.8, i1.9, i1.10, i1.11, i1.12, i1.13⟩,
        ⟨i2.1, i2.2, i2.3, i2.4, i2.5⟩, ⟨i3.1, i3.2, i3.3, i3.4, i3.5, i3.6, i3.7⟩,
        ⟨i4.1, i4.2, i4.3, i4.4⟩⟩, ⟨i5, i6⟩, i7, i8⟩
    have hc := g4.of_count r2
    exact ⟨hps.prop ⟨db', r1, ⟨hc.1, hc.2, hc.3, hc.4⟩⟩
      fun σ hσ => models_append (g1.ok.irr σ hσ) (hG hi σ hσ), g2⟩
  · obtain ⟨db', r1, r2⟩ := hR db h3
    refine ⟨db', r1, fun hi => ?_⟩
    have r2' : ∀ X, db.countP (sameLits X) + (fun _ => 0) X ≤ db'.countP (sameLits X) := r2
    exact nil_of_count r2' (h4 hi)

theorem lev_root {s : Solver} (ht : TrailInv s) (h0 : s.level = 0) {l : Nat}
    (hv : s.values l = 1) : s.lev l = 0 := by
  have := ht.levle l hv; omega

theorem UP_root {s : Solver} (ht : TrailInv s) (h0 : s.level = 0) {db : List (List Nat)}
    (hc : Covers s db) {F : Formula} (hF : ∀ c ∈ db, F c) {A : Nat → Prop} {m : Nat}
    (hm : s.values m = -1) : UP F A (neg m) := by
  have hv := ht.neg_pos.2 hm
  obtain ⟨d, hd, hs⟩ := hc.unit _ hv (lev_root ht h0 hv)
  refine .unit (hF d hd) ((hs _).1 (by simp)) fun x hx hne => ?_
  have := (hs x).2 hx
  simp at this
  exact absurd this hne

/-- The shrunken clause follows by unit propagation. -/
theorem RUP_shrunk {s : Solver} (ht : TrailInv s) (h0 : s.level = 0) {db : List (List Nat)}
    (hc : Covers s db) {C D : List Nat} (hC : ∀ l ∈ C, l ∈ D ∨ s.values l = -1) :
    RUP (ofList (db ++ [C])) D := by
  refine .inl ⟨C, List.mem_append.2 (.inr (by simp)), fun m hm => ?_⟩
  rcases hC m hm with h | h
  · exact .assumed (by rw [Spec.neg_neg]; exact h)
  · exact UP_root ht h0 hc (fun c hc => List.mem_append.2 (.inl hc)) h

/-- A proof checker which already holds a unit clause derived later. -/
def unitBase (orig db : List (List Nat)) (C : List Nat) (u : Nat)
    (hu : UP (ofList (db ++ [C])) (fun _ => False) u) : Base where
  R n p dv := ∃ e, dv = e ++ [u] :: db ∧ (apiBase (orig ++ [C])).R n p (e ++ (db ++ [C]))
  add := by
    rintro n p dv c ⟨e, rfl, h⟩ hr hc
    refine ⟨c :: e, rfl, (apiBase (orig ++ [C])).add h ?_ hc⟩
    refine RUP.cut (u := u) (fun d hd => ?_) (hu.mono (fun d hd => ⟨d, ?_, .refl d⟩) fun _ h => h.elim) hr
    · have hd : d ∈ e ++ [u] :: db := hd
      show d ∈ e ++ (db ++ [C]) ∨ d = [u]
      simp only [List.mem_append, List.mem_cons] at hd ⊢
      rcases hd with h | h | h
      · exact .inl (.inl h)
      · exact .inr h
      · exact .inl (.inr (.inl h))
    · exact List.mem_append.2 (.inr hd)

theorem newOriginal_fields (s : Solver) (lits : List Nat) :
    (s.newOriginal lits).vars = s.vars ∧ (s.newOriginal lits).level = s.level ∧
    (s.newOriginal lits).inconsistent = s.inconsistent ∧
    (s.newOriginal lits).removed = s.removed ∧ (s.newOriginal lits).proof = s.proof ∧
    (s.newOriginal lits).propagate = s.propagate ∧ (s.newOriginal lits).trail = s.trail ∧
    (s.newOriginal lits).loose = s.loose := by
  unfold Solver.newOriginal
  split <;> exact ⟨rfl, rfl, rfl, rfl, rfl, rfl, rfl, rfl⟩

/-- From a solver state with its own list of clauses. -/
theorem Loaded.of_prop {orig : List (List Nat)} {s : Solver}
    (h : PropInv (apiBase orig) (Models orig) s) (h0 : s.level = 0)
    (hp : s.propagate = s.trail.length) (hf : ∀ v, s.vars ≤ v → s.removed v = true)
    (hlo : s.loose = false) : Loaded orig s := by
  obtain ⟨db, h1, h2⟩ := h.ok.proof
  exact ⟨h0, fun _ => ⟨h, hp⟩, ⟨db, h1, h2.empty⟩, hf, h.ok.inv.trail.valid, hlo⟩

/-- `kissat_add` with argument zero. -/
theorem addZero_loaded {orig : List (List Nat)} {a : Api} (h : ApiInv orig a) :
    Loaded (orig ++ [a.original]) (a.addLines a.addClause) ∧
      (a.addLines a.addClause).vars = a.s.vars ∧
      ∀ v, (a.addLines a.addClause).removed v = false →
        a.s.removed v = false ∨ ∃ l ∈ a.original, l / 2 = v := by
  have hp := h.pending
  have hl := h.loaded
  have hdel : ∀ db, (apiBase orig).R a.s.vars a.s.proof db →
      ∃ db', (apiBase (orig ++ [a.original])).R a.s.vars (a.s.proof ++ [.delete a.original]) db' ∧
      ∀ X, db.countP (sameLits X) ≤ db'.countP (sameLits X) := fun db hdb => by
    refine ⟨_, Deletes.delete (apiBase_extend hdb hp.bound) hp.bound
      ⟨a.original, by simp, .refl _⟩, count_delete_append db a.original⟩
  have hkeep : ∀ db, (apiBase orig).R a.s.vars a.s.proof db →
      ∃ db', (apiBase (orig ++ [a.original])).R a.s.vars a.s.proof db' ∧
      ∀ X, db.countP (sameLits X) ≤ db'.countP (sameLits X) := fun db hdb =>
    ⟨_, apiBase_extend hdb hp.bound, count_append db a.original⟩
  by_cases hst : a.satisfied = true ∨ a.trivial = true
  · have e1 : a.addClause = a.s := by
      unfold Api.addClause
      rcases hst with e | e <;> simp [e]
    have hG : a.s.inconsistent = false → ∀ σ, SatFormula σ a.s.irr → SatClause σ a.original := by
      intro hi σ hσ
      rcases hst with e | e
      · obtain ⟨l, hl1, hv⟩ := hp.satisfied hi e
        obtain ⟨m, hm, ht⟩ := hσ [l] (.inr (.inr ⟨l, hv,
          lev_root (hl.state hi).1.ok.inv.trail hl.level hv, rfl⟩))
        rw [List.mem_singleton.1 hm] at ht
        exact ⟨l, hl1, ht⟩
      · obtain ⟨l, hl1, hl2⟩ := hp.trivial e
        by_cases ht : litTrue σ l
        · exact ⟨l, hl1, ht⟩
        · exact ⟨neg l, hl2, (litTrue_neg _ _).2 ht⟩
    rw [e1]
    unfold Api.addLines
    rw [if_pos (by simpa using hst)]
    split
    · exact ⟨hl.change hkeep hG, rfl, fun v => .inl⟩
    · exact ⟨hl.change hdel hG, rfl, fun v => .inl⟩
  · have hs : a.satisfied = false := by simpa using fun e => hst (.inl e)
    have ht : a.trivial = false := by simpa using fun e => hst (.inr e)
    by_cases hi : a.s.inconsistent = true
    · have e1 : a.addClause = a.s := by unfold Api.addClause; rw [if_pos hi]
      rw [e1]
      unfold Api.addLines
      rw [if_neg (by simp [hs, ht]), if_neg (by simp [hi])]
      exact ⟨hl.change hkeep (fun hi' => by rw [hi] at hi'; cases hi'), rfl, fun v => .inl⟩
    · have hi : a.s.inconsistent = false := by simpa using hi
      obtain ⟨hpr, hfull⟩ := hl.state hi
      have htr := hpr.ok.inv.trail
      have hrest := hp.rest hi hs ht
      have hval := hp.values hi
      obtain ⟨db, hdb, hcov⟩ := hpr.ok.proof
      have hext := apiBase_extend hdb hp.bound
      have hbd : ∀ l ∈ a.clause, l / 2 < a.s.vars := fun l hl => hp.bound l (hp.sub l hl)
      obtain ⟨rem, ua, hact, hps, hrem⟩ := hpr.pstate.activateAll a.clause hbd
      have hfresh : ∀ v, a.s.vars ≤ v → rem v = true := by
        intro v hv
        cases e : rem v with
        | true => rfl
        | false =>
          rcases (hrem v).1 e with e | ⟨l, hl', e⟩
          · rw [hl.fresh v hv] at e; cases e
          · have := hbd l hl'; omega
      have hact' : ∀ v, rem v = false → a.s.removed v = false ∨ ∃ l ∈ a.original, l / 2 = v := by
        intro v hv
        rcases (hrem v).1 hv with e | ⟨l, h1, h2⟩
        · exact .inl e
        · exact .inr ⟨l, hp.sub l h1, h2⟩
      have hvalid : ∀ l ∈ a.clause,
          ({ a.s with removed := rem, unassigned := ua } : Solver).Valid l :=
        fun l hl => ⟨hbd l hl, (hrem _).2 (.inr ⟨l, hl, rfl⟩)⟩
      rw [hact] at hps
      have hps' : PropInv (apiBase orig) (Models orig)
          { a.s with removed := rem, unassigned := ua } :=
        hps.prop ⟨db, hdb, hcov.resize a.s.vars rem ua⟩ hpr.ok.irr
      have hcov' := hcov.resize a.s.vars rem ua
      have e1 : a.addClause = match a.clause with
          | [] => ({ a.s with removed := rem, unassigned := ua, inconsistent := true } : Solver).emit (.add [])
          | [unit] =>
            let s := ({ a.s with removed := rem, unassigned := ua } : Solver).assignUnit unit
            if s.level = 0 then (searchPropagate s).1 else s
          | lits => ({ a.s with removed := rem, unassigned := ua } : Solver).newOriginal lits := by
        unfold Api.addClause
        rw [if_neg (by simp [hi]), if_neg (by simp [hs]), if_neg (by simp [ht]), hact]
        match a.clause with | [] => rfl | [_] => rfl | _ :: _ :: _ => rfl
      have e2 : ∀ s, a.addLines s = if !s.inconsistent && a.shrink then
          (s.emit (.add a.clause)).emit (.delete a.original) else s := by
        intro s; unfold Api.addLines; rw [if_neg (by simp [hs, ht])]
      have hmod : ∀ σ, Models orig σ → SatClause σ a.clause → Models (orig ++ [a.original]) σ :=
        fun σ h1 ⟨l, h2, h3⟩ => models_append h1 ⟨l, hp.sub l h2, h3⟩
      have hrup : RUP (ofList (db ++ [a.original])) a.clause :=
        RUP_shrunk htr hl.level hcov hrest
      have hsame := hp.same hs ht
      rw [e1, e2]
      match hcl : a.clause with
      | [] =>
        simp only
        rw [if_neg (by simp [Solver.emit])]
        rw [hcl] at hrup
        exact ⟨⟨hl.level, fun h => (by cases h),
          ⟨_, (apiBase _).add hext hrup (by simp), fun _ => by simp⟩, hfresh,
          hps'.ok.inv.trail.valid, hl.loose⟩, rfl, hact'⟩
      | [u] =>
        rw [hcl] at hval hvalid hrup hmod hrest hbd
        have hu0 : a.s.values u = 0 := hval u (by simp)
        have hun := hvalid u (by simp)
        simp only
        have hlev : (({ a.s with removed := rem, unassigned := ua } : Solver).assignUnit u).level
            = 0 := hl.level
        rw [if_pos hlev]
        by_cases hsh : a.shrink = true
        · have huo : u ∈ a.original := hp.sub u (by rw [hcl]; simp)
          have hup : UP (ofList (db ++ [a.original])) (fun _ => False) u := by
            refine .unit (c := a.original) (List.mem_append.2 (.inr (by simp))) huo
              fun m hm hne => ?_
            rcases hrest m hm with h | h
            · exact absurd (List.mem_singleton.1 h) hne
            · exact UP_root htr hl.level hcov (fun c hc => List.mem_append.2 (.inl hc)) h
          have hP := hps'.newUnit (orig' := unitBase orig db a.original u hup)
            (G' := Models (orig ++ [a.original])) (hcov'.cons [u])
            ⟨[], rfl, hext⟩ (by simp) hmod hun hu0
          have hsp := searchPropagate_ok hP
          have ev : (({ a.s with removed := rem, unassigned := ua } : Solver).assignUnit u).vars
            = a.s.vars := rfl
          have er : (({ a.s with removed := rem, unassigned := ua } : Solver).assignUnit u).removed
            = rem := rfl
          have eo : (({ a.s with removed := rem, unassigned := ua } : Solver).assignUnit u).loose
            = a.s.loose := rfl
          have ei : (({ a.s with removed := rem, unassigned := ua } : Solver).assignUnit
            u).inconsistent = false := hi
          generalize ({ a.s with removed := rem, unassigned := ua } : Solver).assignUnit u = s1 at *
          cases hres : searchPropagate s1 with
          | mk s2 c =>
            rw [hres] at hsp
            obtain ⟨hsm, hok, hl2, hsp⟩ := hsp
            simp only at hsm hok hl2 hsp ⊢
            rw [hlev] at hl2
            have hv2 : s2.vars = a.s.vars := by rw [hsm.vars, ev]
            have ho2 : s2.loose = false := by rw [hsm.loose, eo]; exact hl.loose
            have hf2 : ∀ v, s2.vars ≤ v → s2.removed v = true := fun v hv => by
              rw [hsm.removed, er]; exact hfresh v (hv2 ▸ hv)
            have hr2 : ∀ v, s2.removed v = false →
                a.s.removed v = false ∨ ∃ l ∈ a.original, l / 2 = v := fun v hv => by
              rw [hsm.removed, er] at hv; exact hact' v hv
            cases c with
            | some c =>
              simp only at hsp
              rw [if_pos hlev] at hsp
              rw [if_neg (by simp [hsp])]
              obtain ⟨dv, ⟨e, rfl, hR⟩, hc2⟩ := hok.proof
              refine ⟨⟨hl2, fun h => ?_, ⟨_, hR, fun _ => ?_⟩, hf2, hok.inv.trail.valid, ho2⟩, hv2, hr2⟩
              · rw [hsp] at h; cases h
              · have := hc2.empty hsp
                simp only [List.mem_append, List.mem_cons] at this ⊢
                rcases this with h | h | h
                · exact .inl h
                · cases h
                · exact .inr (.inl h)
            | none =>
              simp only at hsp
              obtain ⟨hP2, hfull2, hi2⟩ := hsp
              rw [if_pos (by simp [hi2, ei, hsh])]
              obtain ⟨dv, ⟨e, rfl, hR⟩, hc2⟩ := hok.proof
              have hb1 : ∀ l ∈ [u], l / 2 < s2.vars := by rw [hv2]; exact hbd
              have hrup2 : RUP (ofList (e ++ (db ++ [a.original]))) [u] :=
                hrup.mono_sub fun c hc => List.mem_append.2 (.inr hc)
              have hR1 := (apiBase _).add hR hrup2 hb1
              have hR2 := Deletes.delete hR1 (c := a.original) (by rw [hv2]; exact hp.bound)
                ⟨a.original, by simp, .refl _⟩
              have hcnt : ∀ X, (e ++ [u] :: db).countP (sameLits X) ≤
                  (deleteClause ([u] :: (e ++ (db ++ [a.original]))) a.original).countP
                    (sameLits X) := by
                intro X
                have := count_delete a.original X ([u] :: (e ++ (db ++ [a.original])))
                simp only [List.countP_append, List.countP_cons, List.countP_nil] at this ⊢
                omega
              have hc3 := hc2.of_count hcnt
              refine ⟨Loaded.of_prop (((hP2.pstate.emit _).emit _).prop
                ⟨_, hR2, ⟨hc3.1, hc3.2, hc3.3, hc3.4⟩⟩ hP2.ok.irr) hl2 hfull2 hf2 ho2, hv2, hr2⟩
        · have hsh : a.shrink = false := by simpa using hsh
          have ho : a.original = [u] := by rw [hsame hsh, hcl]
          have hP := hps'.newUnit (orig' := apiBase (orig ++ [a.original]))
            (G' := Models (orig ++ [a.original])) (hcov'.of_count (count_append db a.original))
            hext (by rw [ho]; simp) hmod hun hu0
          have hsp := searchPropagate_ok hP
          have ev : (({ a.s with removed := rem, unassigned := ua } : Solver).assignUnit u).vars
            = a.s.vars := rfl
          have er : (({ a.s with removed := rem, unassigned := ua } : Solver).assignUnit u).removed
            = rem := rfl
          have eo : (({ a.s with removed := rem, unassigned := ua } : Solver).assignUnit u).loose
            = a.s.loose := rfl
          generalize ({ a.s with removed := rem, unassigned := ua } : Solver).assignUnit u = s1 at *
          cases hres : searchPropagate s1 with
          | mk s2 c =>
            rw [hres] at hsp
            obtain ⟨hsm, hok, hl2, hsp⟩ := hsp
            simp only at hsm hok hl2 hsp ⊢
            rw [hlev] at hl2
            have hv2 : s2.vars = a.s.vars := by rw [hsm.vars, ev]
            have ho2 : s2.loose = false := by rw [hsm.loose, eo]; exact hl.loose
            have hf2 : ∀ v, s2.vars ≤ v → s2.removed v = true := fun v hv => by
              rw [hsm.removed, er]; exact hfresh v (hv2 ▸ hv)
            have hr2 : ∀ v, s2.removed v = false →
                a.s.removed v = false ∨ ∃ l ∈ a.original, l / 2 = v := fun v hv => by
              rw [hsm.removed, er] at hv; exact hact' v hv
            rw [if_neg (by simp [hsh])]
            cases c with
            | some c =>
              simp only at hsp
              rw [if_pos hlev] at hsp
              obtain ⟨dv, hR, hc2⟩ := hok.proof
              refine ⟨⟨hl2, fun h => ?_, ⟨_, hR, hc2.empty⟩, hf2, hok.inv.trail.valid, ho2⟩, hv2, hr2⟩
              rw [hsp] at h; cases h
            | none => exact ⟨Loaded.of_prop hsp.1 hl2 hsp.2.1 hf2 ho2, hv2, hr2⟩
      | x :: y :: rest =>
        rw [hcl] at hval hvalid hrup hmod hbd
        have hnd := hp.nodup
        have htaut := hp.taut
        rw [hcl] at hnd htaut
        simp only
        obtain ⟨f1, f2, f3, f4, f5, f6, f7, f8⟩ := newOriginal_fields
          { a.s with removed := rem, unassigned := ua } (x :: y :: rest)
        by_cases hsh : a.shrink = true
        · rw [if_pos (by rw [f3]; simp [hi, hsh])]
          have hR1 := (apiBase _).add hext hrup hbd
          have hR2 := Deletes.delete hR1 (c := a.original) hp.bound
            ⟨a.original, by simp, .refl _⟩
          have hcnt : ∀ X, db.countP (sameLits X) + (if sameLits X (x :: y :: rest) then 1 else 0) ≤
              (deleteClause ((x :: y :: rest) :: (db ++ [a.original])) a.original).countP
                (sameLits X) := by
            intro X
            have := count_delete a.original X ((x :: y :: rest) :: (db ++ [a.original]))
            simp only [List.countP_append, List.countP_cons, List.countP_nil] at this ⊢
            omega
          have hP := hps'.newOriginal (orig' := apiBase (orig ++ [a.original]))
            (G' := Models (orig ++ [a.original])) hcov' hR2 hcnt hmod (by simp) hnd htaut hvalid hval
          have e3 : ((({ a.s with removed := rem, unassigned := ua } : Solver).newOriginal
              (x :: y :: rest)).emit (.add (x :: y :: rest))).emit (.delete a.original) =
              { ({ a.s with removed := rem, unassigned := ua } : Solver).newOriginal
                (x :: y :: rest) with
                proof := a.s.proof ++ [.add (x :: y :: rest)] ++ [.delete a.original] } := by
            unfold Solver.emit
            rw [f5]
          rw [e3]
          refine ⟨Loaded.of_prop hP (f2.trans hl.level) ?_ ?_ (f8.trans hl.loose), f1, fun v hv => hact' v ((congrFun f4 v).symm.trans hv)⟩
          · show Solver.propagate _ = (Solver.trail _).length
            rw [f6, f7]; exact hfull
          · intro v hv
            show Solver.removed _ v = true
            rw [f4]; rw [f1] at hv; exact hfresh v hv
        · have hsh : a.shrink = false := by simpa using hsh
          have ho : a.original = x :: y :: rest := by rw [hsame hsh, hcl]
          rw [if_neg (by simp [hsh])]
          have hcnt : ∀ X, db.countP (sameLits X) + (if sameLits X (x :: y :: rest) then 1 else 0) ≤
              (db ++ [a.original]).countP (sameLits X) := by
            intro X
            rw [ho, List.countP_append, List.countP_singleton]
            omega
          have hP := hps'.newOriginal (orig' := apiBase (orig ++ [a.original]))
            (G' := Models (orig ++ [a.original])) hcov' hext hcnt hmod (by simp) hnd htaut hvalid hval
          rw [← f5] at hP
          refine ⟨Loaded.of_prop hP (f2.trans hl.level) ?_ ?_ (f8.trans hl.loose), f1, fun v hv => hact' v ((congrFun f4 v).symm.trans hv)⟩
          · rw [f6, f7]; exact hfull
          · intro v hv
            rw [f4]; rw [f1] at hv; exact hfresh v hv

theorem addZero_ok {orig : List (List Nat)} {a : Api} (h : ApiInv orig a) :
    ApiInv (orig ++ [a.original]) a.addZero ∧ a.addZero.s.vars = a.s.vars ∧
      ∀ v, a.addZero.s.removed v = false →
        a.s.removed v = false ∨ ∃ l ∈ a.original, l / 2 = v := by
  obtain ⟨h1, h2, h3⟩ := addZero_loaded h
  have hv : a.addZero.s.vars = a.s.vars := h2
  have hi := h.imports
  refine ⟨⟨h1, ⟨hi.1.trans h2.symm, ?_, ?_⟩, ⟨fun l => ?_, by simp [Api.addZero],
    by simp [Api.addZero], by simp [Api.addZero], by simp [Api.addZero], by simp [Api.addZero],
    by simp [Api.addZero], by simp [Api.addZero], by simp [Api.addZero], by simp [Api.addZero]⟩⟩, h2, h3⟩
  · exact hi.2
  · exact hi.3
  · have hm := h.pending.marks l
    have e : a.addZero.clause = [] := rfl
    rw [e]
    simp only [List.not_mem_nil, if_false]
    show (if l ∈ a.clause ∨ neg l ∈ a.clause then 0 else a.marks l) = 0
    rw [hm]
    by_cases h1 : l ∈ a.clause
    · simp [h1]
    · by_cases h2 : neg l ∈ a.clause <;> simp [h1, h2]

end Verif.Core
