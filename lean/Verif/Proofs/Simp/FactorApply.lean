import Verif.Proofs.Simp.FactorRows

/-!
# Bounded variable addition: replacing the clauses
-/

namespace Verif.Simp

open Verif.Spec Verif.Model Verif.Model.Extend

theorem accepted_dividers {ex : Nat} : ∀ (fs : List Nat) {db : List (List Nat)}, (∀ d ∈ db, neg ex ∉ d) →
    (∀ f ∈ fs, f ≠ neg ex) → Accepted db (fs.map fun f => [ex, f])
  | [], _, _, _ => trivial
  | f :: fs, db, hd, hf => by
    refine ⟨.inr ⟨ex, rfl, fun d h hn => absurd hn (hd d h)⟩, accepted_dividers fs ?_ fun g hg => hf g (List.mem_cons_of_mem _ hg)⟩
    intro d h
    rcases List.mem_cons.1 h with rfl | h
    · intro hn
      rcases List.mem_cons.1 hn with h1 | h1
      · exact neg_ne ex h1
      · rw [List.mem_singleton] at h1
        exact hf f (by simp) h1.symm
    · exact hd d h

theorem accepted_quotients {ex : Nat} {fs : List Nat} (hfs : ex ∉ fs) : ∀ (Qs : List (List Nat)) {db : List (List Nat)},
    (∀ d ∈ db, ex ∈ d → ∃ f ∈ fs, d = [ex, f]) → (∀ Q ∈ Qs, ex ∉ Q) →
    (∀ Q ∈ Qs, ∀ f ∈ fs, ∃ d ∈ db, ∀ m ∈ d, m = f ∨ m ∈ Q) → Accepted db (Qs.map fun Q => neg ex :: Q)
  | [], _, _, _, _ => trivial
  | Q :: Qs, db, hd, hQ, hc => by
    refine ⟨.inr ⟨neg ex, rfl, fun d h hn => ?_⟩, accepted_quotients hfs Qs ?_ (fun R hR => hQ R (List.mem_cons_of_mem _ hR)) ?_⟩
    · rw [neg_neg] at hn
      obtain ⟨f, hf, rfl⟩ := hd d h hn
      obtain ⟨e, he, hs⟩ := hc Q (by simp) f hf
      refine RUP.mono (fun c hc => ⟨c, hc, .refl _⟩) ?_ (RUP.of_mem (F := ofList db) he)
      intro m hm
      rcases hs m hm with rfl | h1
      · refine List.mem_append_right _ (List.mem_filter.2 ⟨by simp, ?_⟩)
        rw [neg_neg]
        exact decide_eq_true fun e => hfs (e ▸ hf)
      · exact List.mem_append_left _ (List.mem_cons_of_mem _ h1)
    · intro d h hn
      rcases List.mem_cons.1 h with rfl | h
      · rcases List.mem_cons.1 hn with h1 | h1
        · exact absurd h1.symm (neg_ne ex)
        · exact absurd h1 (hQ Q (by simp))
      · exact hd d h hn
    · intro R hR f hf
      obtain ⟨d, h1, h2⟩ := hc R (List.mem_cons_of_mem _ hR) f hf
      exact ⟨d, List.mem_cons_of_mem _ h1, h2⟩

/-- The variables of `s` stay, with the same solutions. -/
structure Extends (s s' : State) : Prop where
  exports : ∃ new, s'.exports = s.exports ++ new
  imports : ∃ new, s'.imports = s.imports ++ new
  back : ∀ σ, SatFormula σ s'.irr → SatFormula σ s.irr
  forth : ∀ σ, SatFormula σ s.irr → ∃ τ, (∀ v, v < s.exports.length → τ v = σ v) ∧ SatFormula τ s'.irr ∧
    (SatFormula σ s.formula → SatFormula τ s'.formula)
  inconsistent : s'.inconsistent = s.inconsistent

theorem Extends.refl (s : State) : Extends s s :=
  ⟨⟨[], by simp⟩, ⟨[], by simp⟩, fun _ h => h, fun σ h => ⟨σ, fun _ _ => rfl, h, id⟩, rfl⟩

theorem Extends.trans {a b c : State} (h : Extends a b) (k : Extends b c) : Extends a c := by
  obtain ⟨x, hx⟩ := h.exports
  obtain ⟨y, hy⟩ := k.exports
  obtain ⟨x', hx'⟩ := h.imports
  obtain ⟨y', hy'⟩ := k.imports
  refine ⟨⟨x ++ y, by rw [hy, hx, List.append_assoc]⟩, ⟨x' ++ y', by rw [hy', hx', List.append_assoc]⟩,
    fun σ hσ => h.back σ (k.back σ hσ), ?_, k.inconsistent.trans h.inconsistent⟩
  intro σ hσ
  obtain ⟨τ, t1, t2, t3⟩ := h.forth σ hσ
  obtain ⟨ρ, r1, r2, r3⟩ := k.forth τ t2
  refine ⟨ρ, fun v hv => ?_, r2, fun hf => r3 (t3 hf)⟩
  rw [r1 v (by rw [hx, List.length_append]; omega), t1 v hv]

/-! ## The clauses of the table -/

theorem Rows.nodup {s : State} : ∀ {rows : List Quotient} {n : Nat}, Rows s rows n → (rows.flatMap Quotient.clauses).Nodup
  | [], _, _ => List.nodup_nil
  | q :: rows, n, h => by
    have ht : Rows s rows n := ⟨by have := h.factors; rw [List.map_cons, List.nodup_cons] at this; exact this.2,
      fun p hp => h.column p (List.mem_cons_of_mem _ hp), fun p hp => h.length p (List.mem_cons_of_mem _ hp),
      fun p hp p' hp' => h.same p (List.mem_cons_of_mem _ hp) p' (List.mem_cons_of_mem _ hp')⟩
    rw [List.flatMap_cons, List.nodup_append]
    refine ⟨(h.column q (by simp)).nodup, ht.nodup, ?_⟩
    intro a ha b hb e
    subst e
    obtain ⟨p, hp, ha'⟩ := List.mem_flatMap.1 hb
    have hne : p.factor ≠ q.factor := by
      intro e
      have := h.factors
      rw [List.map_cons, List.nodup_cons] at this
      exact this.1 (List.mem_map.2 ⟨p, hp, e⟩)
    obtain ⟨i, hi, rfl⟩ := mem_getD ha
    have hlen := h.length q (by simp)
    have := (h.same q (by simp) p (List.mem_cons_of_mem _ hp) i (by omega) p.factor).1
      ⟨((h.column p (List.mem_cons_of_mem _ hp)).live _ ha').2.2, hne⟩
    exact this.2 rfl

theorem foldl_dividers (x : Nat) (rows : List Quotient) (s : State) :
    rows.foldl (fun s q => s.addDivider x q) s = s.adds (rows.map fun q => [x, q.factor]) := by
  unfold State.adds
  rw [List.foldl_map]; rfl

theorem arena_adds : ∀ (L : List (List Nat)) (s : State), (s.adds L).arena.length = s.arena.length + L.length
  | [], s => rfl
  | c :: L, s => by
    rw [show s.adds (c :: L) = (s.newClause c false).adds L from rfl, arena_adds L]
    show (s.arena ++ [_]).length + _ = _
    simp; omega

theorem adds_append (L M : List (List Nat)) (s : State) : s.adds (L ++ M) = (s.adds L).adds M := by
  unfold State.adds
  rw [List.foldl_append]

theorem foldl_quotients (x f : Nat) (s : State) : ∀ (cs : List Nat) (L : List (List Nat)), (∀ r ∈ cs, r < s.arena.length) →
    cs.foldl (fun s r => s.addQuotient x f r) (s.adds L) =
      s.adds (L ++ cs.map fun r => neg x :: (s.clause r).lits.filter (· ≠ f))
  | [], L, _ => by simp
  | r :: cs, L, h => by
    have e : (s.adds L).addQuotient x f r = s.adds (L ++ [neg x :: (s.clause r).lits.filter (· ≠ f)]) := by
      unfold State.addQuotient
      rw [adds_clause L s (h r (by simp)), adds_append]; rfl
    rw [List.foldl_cons, e, foldl_quotients x f s cs _ fun k hk => h k (List.mem_cons_of_mem _ hk)]
    simp

theorem foldl_deletes (rows : List Quotient) : ∀ (s : State),
    rows.foldl State.deleteUnfactored s = (rows.flatMap Quotient.clauses).foldl State.markGarbage s := by
  induction rows with
  | nil => intro s; rfl
  | cons q rows ih => intro s; rw [List.foldl_cons, ih, List.flatMap_cons, List.foldl_append]; rfl

theorem garbage_fields (R : List Nat) : ∀ (s : State), (R.foldl State.markGarbage s).exports = s.exports ∧
    (R.foldl State.markGarbage s).imports = s.imports ∧ (R.foldl State.markGarbage s).inconsistent = s.inconsistent := by
  induction R with
  | nil => intro s; exact ⟨rfl, rfl, rfl⟩
  | cons r R ih => intro s; rw [List.foldl_cons]; exact ih _

theorem adds_fields (L : List (List Nat)) : ∀ (s : State), (s.adds L).exports = s.exports ∧
    (s.adds L).imports = s.imports ∧ (s.adds L).inconsistent = s.inconsistent := by
  induction L with
  | nil => intro s; exact ⟨rfl, rfl, rfl⟩
  | cons c L ih => intro s; exact ih (s.newClause c false)

theorem irr_of_deletes : ∀ (R : List Nat) {s : State} {d : List Nat}, (∀ r ∈ R, r < s.arena.length) →
    (R.foldl State.markGarbage s).irr d → s.irr d
  | [], _, _, _, h => h
  | r :: R, s, d, hR, h => by
    have hlt := hR r (by simp)
    refine irr_of_garbage hlt (irr_of_deletes R (fun k hk => ?_) h)
    have := hR k (List.mem_cons_of_mem _ hk)
    rw [show (s.markGarbage r).arena.length = s.arena.length from by
      unfold State.markGarbage State.emitDelete; simp]
    exact this

/-- What `apply_factoring` does, as one step. -/
theorem applyFactoring_eq {s s' : State} {qs : List Quotient} {q : Quotient} {rest : List Quotient}
    (hf : s.freshLiteral = some s') (hq : flushUnmatched qs = q :: rest) (hlt : ∀ r ∈ q.clauses, r < s.arena.length) :
    s.applyFactoring qs = (((q :: rest).flatMap Quotient.clauses).foldl State.markGarbage
      (s'.adds (((q :: rest).map fun p => [2 * s.exports.length, p.factor]) ++
        q.clauses.map fun r => neg (2 * s.exports.length) :: (s.clause r).lits.filter (· ≠ q.factor))), true) := by
  have hF := freshLiteral_fresh hf
  unfold State.applyFactoring
  rw [hf, hq]
  dsimp only
  rw [foldl_dividers, foldl_quotients _ _ _ _ _ (fun r hr => by rw [hF.arena]; exact hlt r hr), foldl_deletes]
  simp only [hF.clause]

theorem Inv.factorRows {orig : List (List Nat)} {s s' : State} (h : Inv orig none s) (hF : Fresh s s')
    {q : Quotient} {rest : List Quotient} {n : Nat} (hR : Rows s (q :: rest) n) {x : Nat} (hx : x = 2 * s.exports.length)
    {L : List (List Nat)} (hL : L = ((q :: rest).map fun p => [x, p.factor]) ++
        q.clauses.map fun r => neg x :: (s.clause r).lits.filter (· ≠ q.factor)) :
    Inv orig none (((q :: rest).flatMap Quotient.clauses).foldl State.markGarbage (s'.adds L)) ∧
    Extends s (((q :: rest).flatMap Quotient.clauses).foldl State.markGarbage (s'.adds L)) := by
  have hS := h.struct
  have hcq := hR.column q (by simp)
  have h0 : 0 < s.exports.length := by have := hcq.range; unfold State.InRange at this; omega
  have h' := h.fresh hF h0
  have hS' := h'.struct
  have hxd : x / 2 = s.exports.length := by omega
  have hxr : s'.InRange x := by unfold State.InRange; rw [hxd, hF.exports, List.length_append]; simp
  have hxo : ∀ l, s.InRange l → l ≠ x ∧ l ≠ neg x := by
    intro l hl
    unfold State.InRange at hl
    constructor
    · rintro rfl; omega
    · rintro rfl; rw [neg_div] at hl; omega
  -- the fresh external literal
  have hexd : s'.ext x / 2 = s.imports.length := by
    rw [ext_div, hxd, hF.getD_new]; rfl
  have hold : ∀ l, s.InRange l → s'.ext l / 2 < s.imports.length := by
    intro l hl
    rw [ext_div, hF.getD hl]; exact hS.bound _ hl
  obtain ⟨db, p1, p2⟩ := hS'.proof
  have hdb : ∀ d ∈ db, ∀ y ∈ d, y / 2 < s.imports.length := by
    refine replay_bound p1 hS.given fun ln hl => ?_
    rw [hF.proof] at hl
    exact hS.lines ln hl
  have hnx : s'.ext (neg x) = neg (s'.ext x) := ext_neg hS'.nonzero hxr
  -- literals of the quotient
  have hQr : ∀ r ∈ q.clauses, ∀ l ∈ (s.clause r).lits.filter (· ≠ q.factor), s.InRange l := fun r hr l hl =>
    hS.clause r (hcq.live r hr).1 l (List.mem_filter.1 hl).1
  have hlen : q.clauses.length = n := hR.length q (by simp)
  -- how clauses are factored
  have hfac : ∀ p ∈ q :: rest, ∀ i, i < n → ∀ m ∈ (s.clause (p.clauses.getD i 0)).lits, m = p.factor ∨
      m ∈ (s.clause (q.clauses.getD i 0)).lits.filter (· ≠ q.factor) := by
    intro p hp i hi m hm
    by_cases e : m = p.factor
    · exact Or.inl e
    · have := (hR.same p hp q (by simp) i hi m).1 ⟨hm, e⟩
      exact Or.inr (List.mem_filter.2 ⟨this.1, decide_eq_true this.2⟩)
  have hfac' : ∀ p ∈ q :: rest, ∀ i, i < n → ∀ m ∈ (s.clause (q.clauses.getD i 0)).lits.filter (· ≠ q.factor),
      m ∈ (s.clause (p.clauses.getD i 0)).lits := by
    intro p hp i hi m hm
    rw [List.mem_filter] at hm
    exact ((hR.same q (by simp) p hp i hi m).1 ⟨hm.1, of_decide_eq_true hm.2⟩).1
  have hmem : ∀ p ∈ q :: rest, ∀ i, i < n → p.clauses.getD i 0 ∈ p.clauses := fun p hp i hi =>
    getD_mem (by rw [hR.length p hp]; exact hi)
  -- the proof
  have hacc : Accepted db (L.map fun c => c.map s'.ext) := by
    have e : L.map (fun c => c.map s'.ext) =
        (((q :: rest).map fun p => s'.ext p.factor).map fun f => [s'.ext x, f]) ++
        (q.clauses.map fun r => ((s.clause r).lits.filter (· ≠ q.factor)).map s'.ext).map fun Q => neg (s'.ext x) :: Q := by
      rw [hL, List.map_append, List.map_map, List.map_map, List.map_map, List.map_map]
      congr 1
      refine List.map_congr_left fun r _ => ?_
      show _ :: _ = _
      rw [hnx]; rfl
    rw [e]
    refine accepted_append (accepted_dividers _ ?_ ?_) (accepted_quotients (fs := (q :: rest).map fun p => s'.ext p.factor) ?_ _ ?_ ?_ ?_)
    · intro d hd hn
      have := hdb d hd _ hn
      rw [neg_div] at this; omega
    · intro f hf
      obtain ⟨p, hp, rfl⟩ := List.mem_map.1 hf
      intro e
      have := hold _ (hR.column p hp).range
      rw [e, neg_div] at this; omega
    · intro hf
      obtain ⟨p, hp, e⟩ := List.mem_map.1 hf
      have := hold _ (hR.column p hp).range
      rw [e] at this; omega
    · intro d hd hn
      rcases List.mem_append.1 hd with hd | hd
      · rw [List.mem_reverse] at hd
        obtain ⟨f, hf, rfl⟩ := List.mem_map.1 hd
        exact ⟨f, hf, rfl⟩
      · have := hdb d hd _ hn
        omega
    · intro Q hQ hn
      obtain ⟨r, hr, rfl⟩ := List.mem_map.1 hQ
      obtain ⟨l, hl, e⟩ := List.mem_map.1 hn
      have := hold _ (hQr r hr l hl)
      rw [e] at this; omega
    · intro Q hQ f hf
      obtain ⟨r, hr, rfl⟩ := List.mem_map.1 hQ
      obtain ⟨p, hp, rfl⟩ := List.mem_map.1 hf
      obtain ⟨i, hi, rfl⟩ := mem_getD hr
      rw [hlen] at hi
      have hlive := (hR.column p hp).live _ (hmem p hp i hi)
      obtain ⟨d, d1, d2⟩ := p2.mem (c := (s.clause (p.clauses.getD i 0)).lits)
        (Or.inr ⟨p.clauses.getD i 0, by rw [hF.clause]; exact hlive.1, by rw [hF.clause]⟩)
      refine ⟨d, List.mem_append_right _ d1, ?_⟩
      intro m hm
      obtain ⟨l, hl, rfl⟩ := List.mem_map.1 ((d2 m).2 hm)
      rcases hfac p hp i hi l hl with rfl | h1
      · exact Or.inl rfl
      · exact Or.inr (List.mem_map.2 ⟨l, h1, rfl⟩)
  have hadd : Inv orig none (s'.adds L) := by
    refine Inv.adds L h' p1 p2 hacc ?_
    intro c hc
    rw [hL] at hc
    have hremx : s'.removed (x / 2) = false := by rw [hF.removed, if_pos hxd]
    rcases List.mem_append.1 hc with hc | hc
    · obtain ⟨p, hp, rfl⟩ := List.mem_map.1 hc
      have hcp := hR.column p hp
      have hpf := hxo _ hcp.range
      refine ⟨?_, ?_, ?_, Nat.le_refl 2⟩
      · intro l hl
        rcases List.mem_cons.1 hl with rfl | hl
        · exact ⟨hxr, hremx⟩
        · rw [List.mem_singleton.1 hl]
          refine ⟨hF.inRange hcp.range, ?_⟩
          rw [hF.removed]
          split
          · rfl
          · exact hcp.kept
      · rw [List.nodup_cons]
        refine ⟨fun hm => hpf.1 (List.mem_singleton.1 hm).symm, by simp⟩
      · intro l hl hn
        rcases List.mem_cons.1 hl with rfl | hl
        · rcases List.mem_cons.1 hn with h1 | h1
          · exact neg_ne _ h1
          · exact hpf.2 (List.mem_singleton.1 h1).symm
        · rw [List.mem_singleton.1 hl] at hn
          rcases List.mem_cons.1 hn with h1 | h1
          · exact hpf.2 (by rw [← h1, neg_neg])
          · exact neg_ne _ (List.mem_singleton.1 h1)
    · obtain ⟨r, hr, rfl⟩ := List.mem_map.1 hc
      obtain ⟨l1, l2, l3⟩ := hcq.live r hr
      have hin : ∀ l ∈ (s.clause r).lits.filter (· ≠ q.factor), l ∈ (s.clause r).lits := fun l hl => (List.mem_filter.1 hl).1
      refine ⟨?_, ?_, ?_, ?_⟩
      · intro l hl
        rcases List.mem_cons.1 hl with rfl | hl
        · exact ⟨inRange_neg.2 hxr, by rw [neg_div]; exact hremx⟩
        · refine ⟨hF.inRange (hQr r hr l hl), ?_⟩
          rw [hF.removed]
          split
          · rfl
          · exact hS.removed r l1 l2 l (hin l hl)
      · rw [List.nodup_cons]
        exact ⟨fun hm => (hxo _ (hQr r hr _ hm)).2 rfl, (hS.nodup r l1).sublist List.filter_sublist⟩
      · intro l hl hn
        rcases List.mem_cons.1 hl with rfl | hl
        · rw [neg_neg] at hn
          rcases List.mem_cons.1 hn with h1 | h1
          · exact neg_ne x h1.symm
          · exact (hxo _ (hQr r hr _ h1)).1 rfl
        · rcases List.mem_cons.1 hn with h1 | h1
          · exact (hxo _ (hQr r hr _ hl)).1 (by rw [← neg_neg l, h1, neg_neg])
          · exact hS.taut r l1 l (hin l hl) (hin _ h1)
      · have h2 := hS.size r l1
        have h3 := hS.nodup r l1
        cases hlits : (s.clause r).lits with
        | nil => rw [hlits] at h2; simp at h2
        | cons a t =>
          cases t with
          | nil => rw [hlits] at h2; simp at h2
          | cons b t =>
            rw [hlits, List.nodup_cons] at h3
            have : ∃ m ∈ a :: b :: t, m ≠ q.factor := by
              by_cases e : a = q.factor
              · refine ⟨b, by simp, fun e' => h3.1 (by rw [e, ← e']; simp)⟩
              · exact ⟨a, by simp, e⟩
            obtain ⟨m, m1, m2⟩ := this
            have := List.length_pos_of_mem (List.mem_filter.2 ⟨m1, decide_eq_true m2⟩ : m ∈ (a :: b :: t).filter (· ≠ q.factor))
            rw [List.length_cons]; omega
  -- the deleted clauses
  have hRlive : ∀ r ∈ (q :: rest).flatMap Quotient.clauses, (s.clause r).garbage = false := by
    intro r hr
    obtain ⟨p, hp, hr⟩ := List.mem_flatMap.1 hr
    exact ((hR.column p hp).live r hr).1
  have hRlt : ∀ r ∈ (q :: rest).flatMap Quotient.clauses, r < s'.arena.length := fun r hr => by
    rw [hF.arena]; exact clause_lt (hRlive r hr)
  have hcl : ∀ r ∈ (q :: rest).flatMap Quotient.clauses, (s'.adds L).clause r = s.clause r := fun r hr => by
    rw [adds_clause L s' (hRlt r hr), hF.clause]
  have hent : ∀ r ∈ (q :: rest).flatMap Quotient.clauses, Entails (fun d => d ∈ L) (s.clause r).lits := by
    intro r hr σ hσ
    obtain ⟨p, hp, hr⟩ := List.mem_flatMap.1 hr
    obtain ⟨i, hi, rfl⟩ := mem_getD hr
    rw [hR.length p hp] at hi
    have hd := hσ [x, p.factor] (by rw [hL]; exact List.mem_append_left _ (List.mem_map.2 ⟨p, hp, rfl⟩))
    obtain ⟨m, hm, ht⟩ := hd
    rcases List.mem_cons.1 hm with rfl | hm
    · have hq := hσ (neg m :: (s.clause (q.clauses.getD i 0)).lits.filter (· ≠ q.factor))
        (by rw [hL]; exact List.mem_append_right _ (List.mem_map.2 ⟨_, hmem q (by simp) i hi, rfl⟩))
      obtain ⟨k, hk, hkt⟩ := hq
      rcases List.mem_cons.1 hk with rfl | hk
      · exact absurd ht ((litTrue_neg σ _).1 hkt)
      · exact ⟨k, hfac' p hp i hi k hk, hkt⟩
    · rw [List.mem_singleton.1 hm] at ht
      exact ⟨_, ((hR.column p hp).live _ hr).2.2, ht⟩
  obtain ⟨r1, r2, r3⟩ := Inv.deletes (G := fun d => d ∈ L) ((q :: rest).flatMap Quotient.clauses) hadd hR.nodup
    (fun r hr => by rw [hcl r hr]; exact ⟨hRlive r hr, hent r hr⟩)
    (fun d hd => by
      obtain ⟨k, k1, k2⟩ := adds_mem L s' hd
      refine ⟨k, fun hk => ?_, by rw [k2], by rw [k2], by rw [k2]⟩
      have := hRlt k hk
      omega)
  refine ⟨r1, ?_, ?_, ?_, ?_, ?_⟩
  · rw [(garbage_fields _ _).1, (adds_fields L _).1, hF.exports]; exact ⟨_, rfl⟩
  · rw [(garbage_fields _ _).2.1, (adds_fields L _).2.1, hF.imports]; exact ⟨_, rfl⟩
  · intro σ hσ d hd
    exact r2 σ hσ d ((adds_irr L).2 (Or.inr (by rw [hF.irr]; exact hd)))
  · intro σ hσ
    have key : ∃ τ : Assignment, (∀ v, v < s.exports.length → τ v = σ v) ∧
        (litTrue τ x ↔ ∀ r ∈ q.clauses, SatClause σ ((s.clause r).lits.filter (· ≠ q.factor))) := by
      by_cases hall : ∀ r ∈ q.clauses, SatClause σ ((s.clause r).lits.filter (· ≠ q.factor))
      · refine ⟨flip σ x, fun v hv => ?_, fun _ => hall, fun _ => flip_true σ x⟩
        unfold Spec.flip
        rw [if_neg (by omega)]
      · refine ⟨flip σ (neg x), fun v hv => ?_, fun ht => ?_, fun h => absurd h hall⟩
        · unfold Spec.flip
          rw [neg_div, if_neg (by omega)]
        · exact absurd ht ((litTrue_neg _ x).1 (flip_true σ (neg x)))
    obtain ⟨τ, t1, t2⟩ := key
    have hagree : ∀ l, s.InRange l → (litTrue τ l ↔ litTrue σ l) := by
      intro l hl
      unfold litTrue
      rw [t1 _ hl]
    have hsat : ∀ c, (∀ l ∈ c, s.InRange l) → (SatClause τ c ↔ SatClause σ c) := by
      intro c hc
      constructor
      · rintro ⟨l, l1, l2⟩; exact ⟨l, l1, (hagree l (hc l l1)).1 l2⟩
      · rintro ⟨l, l1, l2⟩; exact ⟨l, l1, (hagree l (hc l l1)).2 l2⟩
    have hnew : ∀ c ∈ L, SatClause τ c := by
      intro c hc
      rw [hL] at hc
      by_cases hall : ∀ r ∈ q.clauses, SatClause σ ((s.clause r).lits.filter (· ≠ q.factor))
      · rcases List.mem_append.1 hc with hc | hc
        · obtain ⟨p, hp, rfl⟩ := List.mem_map.1 hc
          exact ⟨x, by simp, t2.2 hall⟩
        · obtain ⟨r, hr, rfl⟩ := List.mem_map.1 hc
          obtain ⟨l, l1, l2⟩ := (hsat _ (hQr r hr)).2 (hall r hr)
          exact ⟨l, List.mem_cons_of_mem _ l1, l2⟩
      · have hfalse : litTrue τ (neg x) := (litTrue_neg τ x).2 fun ht => hall (t2.1 ht)
        rcases List.mem_append.1 hc with hc | hc
        · obtain ⟨p, hp, rfl⟩ := List.mem_map.1 hc
          have : ∃ r ∈ q.clauses, ¬ SatClause σ ((s.clause r).lits.filter (· ≠ q.factor)) := by
            apply Classical.byContradiction
            intro hno
            exact hall fun r hr => Classical.byContradiction fun hn => hno ⟨r, hr, hn⟩
          obtain ⟨r, hr, hn⟩ := this
          obtain ⟨i, hi, rfl⟩ := mem_getD hr
          rw [hlen] at hi
          have hlive := (hR.column p hp).live _ (hmem p hp i hi)
          obtain ⟨m, m1, m2⟩ := hσ _ (clause_irr hlive.1 hlive.2.1)
          rcases hfac p hp i hi m m1 with rfl | h1
          · exact ⟨p.factor, by simp, (hagree _ (hR.column p hp).range).2 m2⟩
          · exact absurd ⟨m, h1, m2⟩ hn
        · obtain ⟨r, hr, rfl⟩ := List.mem_map.1 hc
          exact ⟨neg x, by simp, hfalse⟩
    have hirr : SatFormula τ s'.irr := by
      intro c hc
      rw [hF.irr] at hc
      exact (hsat c (hS.irr_range c hc)).2 (hσ c hc)
    refine ⟨τ, t1, ?_, fun hform => ?_⟩
    · intro c hc
      have : (s'.adds L).irr c := irr_of_deletes _ (fun r hr => by
        rw [arena_adds]; have := hRlt r hr; omega) hc
      rcases (adds_irr L).1 this with h1 | h1
      · exact hnew c h1
      · exact hirr c h1
    · intro c hc
      rcases (adds_formula L).1 (r3 c hc) with h1 | h1
      · exact hnew c h1
      · rw [hF.formula] at h1
        refine (hsat c ?_).2 (hform c h1)
        rcases h1 with ⟨l, hl, rfl⟩ | ⟨r, hg, rfl⟩
        · intro m hm; rw [List.mem_singleton.1 hm]; exact (hS.unit l hl).1
        · exact hS.clause r hg
  · rw [(garbage_fields _ _).2.2, (adds_fields L _).2.2, hF.inconsistent]

/-! ## The loop -/

theorem flush_cons {qs : List Quotient} {q : Quotient} : flushUnmatched (q :: qs) = q :: flushInto q.positions qs := rfl

theorem Inv.applyFactoring {orig : List (List Nat)} {s : State} (h : Inv orig none s) {qs : List Quotient}
    (hq : Columns s qs) : Inv orig none (s.applyFactoring qs).1 ∧ Extends s (s.applyFactoring qs).1 := by
  cases qs with
  | nil => exact hq.elim
  | cons q qs =>
    cases hf : s.freshLiteral with
    | none =>
      have : s.applyFactoring (q :: qs) = (s, false) := by unfold State.applyFactoring; rw [hf]
      rw [this]
      exact ⟨h, Extends.refl s⟩
    | some s' =>
      rw [applyFactoring_eq hf flush_cons fun r hr => clause_lt (hq.head.live r hr).1]
      have hR := flush_rows hq
      rw [flush_cons] at hR
      exact h.factorRows (freshLiteral_fresh hf) hR rfl rfl

theorem quotientLoop_pos (s : State) (conn : Nat → Bool) (initial : Nat) : ∀ (nexts : List Nat) (qs : List Quotient),
    0 < qs.length → 0 < (s.quotientLoop conn initial nexts qs).length
  | [], qs, h => by unfold State.quotientLoop; exact h
  | next :: rest, [], h => by simp at h
  | next :: rest, q :: qs, h => by
    unfold State.quotientLoop
    dsimp only
    split
    · exact h
    · exact quotientLoop_pos s conn initial rest _ (by simp)

theorem Inv.factorOne {orig : List (List Nat)} {s : State} (h : Inv orig none s) (initial bound : Nat) (conn : Nat → Bool)
    (first : Nat) (nexts : List Nat) : Inv orig none (s.factorOne initial bound conn first nexts).1 ∧
    Extends s (s.factorOne initial bound conn first nexts).1 := by
  unfold State.factorOne
  split
  · exact ⟨h, Extends.refl s⟩
  · rename_i ha
    dsimp only
    split
    · exact ⟨h, Extends.refl s⟩
    · have hc := Columns.loop h.struct conn initial nexts _ (Columns.first h.struct conn (first := first) (by simpa using ha))
      have hpos := quotientLoop_pos s conn initial nexts [s.firstFactor conn first] (by simp)
      generalize s.quotientLoop conn initial nexts [s.firstFactor conn first] = qs at hc hpos ⊢
      cases bestQuotient 1 qs.reverse none with
      | none => exact ⟨h, Extends.refl s⟩
      | some kb =>
        obtain ⟨k, b⟩ := kb
        dsimp only
        split
        · exact ⟨h, Extends.refl s⟩
        · exact h.applyFactoring (hc.drop _ (by omega))

theorem Inv.factorLoop {orig : List (List Nat)} (initial bound : Nat) : ∀ (sched : List (Nat × (Nat → Bool) × List Nat))
    {s : State}, Inv orig none s → Inv orig none (s.factorLoop initial bound sched) ∧
    Extends s (s.factorLoop initial bound sched)
  | [], s, h => ⟨h, Extends.refl s⟩
  | (first, conn, nexts) :: rest, s, h => by
    have k := h.factorOne initial bound conn first nexts
    unfold State.factorLoop
    cases ho : s.factorOne initial bound conn first nexts with
    | mk s' b =>
      rw [ho] at k
      cases b with
      | false => exact k
      | true =>
        obtain ⟨i1, i2⟩ := Inv.factorLoop initial bound rest k.1
        exact ⟨i1, k.2.trans i2⟩

theorem Inv.factorize {orig : List (List Nat)} {s : State} (h : Inv orig none s) (bound : Nat)
    (sched : List (Nat × (Nat → Bool) × List Nat)) : Inv orig none (s.factorize bound sched) ∧
    Extends s (s.factorize bound sched) := by
  unfold State.factorize
  split
  · exact ⟨h, Extends.refl s⟩
  · exact h.factorLoop _ _ _

end Verif.Simp
