import Verif.Proofs.Collect.Lines

/-! # The proof checker accepts the lines of garbage collection -/

namespace Verif.Core

open Verif.Spec

theorem delete_all {orig : Base} [Deletes orig] {n : Nat} : ∀ (ls : List (List Nat))
    {lines : List Line} {db : List (List Nat)},
    orig.R n lines db → (∀ c ∈ ls, ∀ l ∈ c, l / 2 < n) →
    (∀ X, ls.countP (sameLits X) ≤ db.countP (sameLits X)) →
    ∃ db', orig.R n (lines ++ ls.map .delete) db' ∧
      (∀ X, db.countP (sameLits X) ≤ db'.countP (sameLits X) + ls.countP (sameLits X)) ∧
      ∀ d ∈ db, (∀ c ∈ ls, ¬ SameLits c d) → d ∈ db'
  | [], lines, db, h, _, _ => ⟨db, by simpa using h, fun X => by simp, fun d hd _ => hd⟩
  | c :: ls, lines, db, h, hv, hc => by
    have hpos : 0 < db.countP (sameLits c) := by
      have := hc c
      rw [List.countP_cons_of_pos (by rw [sameLits_iff]; exact .refl c)] at this
      omega
    have h1 := Deletes.delete h (hv c (by simp)) (count_same.1 hpos)
    have h2 : ∀ X, ls.countP (sameLits X) ≤ (deleteClause db c).countP (sameLits X) := fun X => by
      have h3 := hc X
      have h4 := countP_delete db c X
      rw [List.countP_cons] at h3
      omega
    obtain ⟨db', g1, g2, g3⟩ := delete_all ls h1 (fun x hx => hv x (.tail _ hx)) h2
    refine ⟨db', ?_, fun X => ?_, fun d hd hn => g3 d (mem_deleteClause_of_not hd (hn c (by simp)))
      fun x hx => hn x (.tail _ hx)⟩
    · rw [List.map_cons, ← List.singleton_append, ← List.append_assoc]; exact g1
    · have h3 := g2 X
      have h4 := countP_delete db c X
      rw [List.countP_cons]
      omega

/-! ## Flushed watches -/

/-- The clauses deleted by `flushLines`. -/
def Solver.flushPairs (s : Solver) (l : Nat) : List (List Nat) :=
  (s.watches l).filterMap fun
    | .binary o => if s.rootSatBinary l o ∧ l < o then some [l, o] else none
    | .large _ _ => none

theorem flushLines_eq (s : Solver) (l : Nat) : s.flushLines l = (s.flushPairs l).map Line.delete := by
  unfold Solver.flushLines Solver.flushPairs
  rw [List.map_filterMap]
  congr 1
  funext w
  cases w with
  | large b r => rfl
  | binary o =>
    simp only
    split <;> rfl

theorem mem_flushPairs {s : Solver} (ht : TrailInv s) {l : Nat} {c : List Nat} (h : c ∈ s.flushPairs l) :
    ∃ o, c = [l, o] ∧ Watch.binary o ∈ s.watches l ∧ s.RootSat [l, o] ∧ l < o := by
  obtain ⟨w, hw, he⟩ := List.mem_filterMap.1 h
  cases w with
  | large b r => cases he
  | binary o =>
    simp only at he
    split at he
    · rename_i hc
      cases he
      refine ⟨o, rfl, hw, ?_, hc.2⟩
      have := of_decide_eq_true hc.1
      rw [fixed_pos ht, fixed_pos ht] at this
      rcases this with h | h
      · exact ⟨l, by simp, h⟩
      · exact ⟨o, by simp, h⟩
    · cases he

theorem countP_filterMap_le {α β : Type} [BEq α] [LawfulBEq α] {f : α → Option β} {p : β → Bool} {x : α} :
    ∀ ws : List α, (∀ w c, f w = some c → p c = true → w = x) → (ws.filterMap f).countP p ≤ ws.count x
  | [], _ => by simp
  | w :: ws, h => by
    have ih := countP_filterMap_le ws h
    rw [List.count_cons]
    cases hf : f w with
    | none => rw [List.filterMap_cons_none hf]; omega
    | some c =>
      rw [List.filterMap_cons_some hf, List.countP_cons]
      by_cases hp : p c = true
      · have := h w c hf hp
        subst this
        simp [hp, ih]
      · rw [if_neg hp]; omega

theorem countP_flatMap_le {β : Type} {f : Nat → List β} {p : β → Bool} {l : Nat} :
    ∀ L : List Nat, L.Nodup → (∀ l' ∈ L, l' ≠ l → (f l').countP p = 0) →
    (L.flatMap f).countP p ≤ (f l).countP p
  | [], _, _ => by simp
  | a :: L, hn, h => by
    rw [List.flatMap_cons, List.countP_append]
    by_cases e : a = l
    · have h0 : (L.flatMap f).countP p = 0 := by
        rw [List.countP_eq_zero]
        intro x hx
        obtain ⟨l', h1, h2⟩ := List.mem_flatMap.1 hx
        have := h l' (.tail _ h1) fun e' => (List.nodup_cons.1 hn).1 (by rw [e, ← e']; exact h1)
        rw [List.countP_eq_zero] at this
        exact this x h2
      rw [h0, e]; omega
    · have := countP_flatMap_le L (List.nodup_cons.1 hn).2 fun l' h1 => h l' (.tail _ h1)
      rw [h a (by simp) e]; omega

theorem pair_eq {l o l' o' : Nat} (h1 : l < o) (h2 : l' < o') (h : SameLits [l, o] [l', o']) :
    l = l' ∧ o = o' := by
  have a := (h l).1 (by simp)
  have b := (h o).1 (by simp)
  simp only [List.mem_cons, List.not_mem_nil, or_false] at a b
  omega

theorem rootSat_congr {s : Solver} {c d : List Nat} (h : SameLits c d) (hc : s.RootSat c) : s.RootSat d := by
  obtain ⟨l, hl, g⟩ := hc
  exact ⟨l, (h l).1 hl, g⟩

theorem flush_covers {orig : Base} [Deletes orig] {s : Solver} (hi : Inv s) {db : List (List Nat)}
    (hr : orig.R s.vars s.proof db) (hc : Covers s db) (start : Nat) :
    ∃ db', orig.R s.vars (s.flushWatches start).proof db' ∧ Covers (s.flushWatches start) db' := by
  have ht := hi.trail
  have hmem : ∀ c ∈ (List.range (2 * s.vars)).flatMap s.flushPairs,
      ∃ l o, c = [l, o] ∧ Watch.binary o ∈ s.watches l ∧ s.RootSat [l, o] ∧ l < o := fun c hc => by
    obtain ⟨l, _, h⟩ := List.mem_flatMap.1 hc
    obtain ⟨o, h⟩ := mem_flushPairs ht h
    exact ⟨l, o, h⟩
  have hcount : ∀ X, ((List.range (2 * s.vars)).flatMap s.flushPairs).countP (sameLits X) ≤
      db.countP (sameLits X) := by
    intro X
    by_cases h0 : ((List.range (2 * s.vars)).flatMap s.flushPairs).countP (sameLits X) = 0
    · omega
    · obtain ⟨c, hc1, hc2⟩ := List.countP_pos_iff.1 (Nat.pos_of_ne_zero h0)
      obtain ⟨l, o, rfl, g1, g2, g3⟩ := hmem c hc1
      have hX := sameLits_iff.1 hc2
      have e : ∀ d, sameLits X d = sameLits [l, o] d := fun d => by
        rw [Bool.eq_iff_iff, sameLits_iff, sameLits_iff]
        exact ⟨fun g x => (hX x).symm.trans (g x), fun g x => (hX x).trans (g x)⟩
      have e : sameLits X = sameLits [l, o] := funext e
      rw [e]
      refine Nat.le_trans (Nat.le_trans (countP_flatMap_le (l := l) _ List.nodup_range
        fun l' _ hne => ?_) ?_) (hc.bin l o)
      · rw [List.countP_eq_zero]
        intro x hx hs
        obtain ⟨o', rfl, _, _, g⟩ := mem_flushPairs ht hx
        exact hne (pair_eq g3 g (sameLits_iff.1 hs)).1.symm
      · refine countP_filterMap_le _ fun w c hf hp => ?_
        cases w with
        | large b r => cases hf
        | binary o' =>
          simp only at hf
          split at hf
          · rename_i hh
            cases hf
            rw [(pair_eq g3 hh.2 (sameLits_iff.1 hp)).2]
          · cases hf
  have hvalid : ∀ c ∈ (List.range (2 * s.vars)).flatMap s.flushPairs, ∀ l ∈ c, l / 2 < s.vars := by
    intro c hc l hl
    obtain ⟨a, b, rfl, g1, _⟩ := hmem c hc
    obtain ⟨_, _, _, h1, h2⟩ := hi.clause.bin a b g1
    simp only [List.mem_cons, List.not_mem_nil, or_false] at hl
    rcases hl with rfl | rfl
    · exact h1.1
    · exact h2.1
  obtain ⟨db', g1, g2, g3⟩ := delete_all _ hr hvalid hcount
  have zero : ∀ X, (∀ l o, Watch.binary o ∈ s.watches l → l < o → s.RootSat [l, o] → ¬ SameLits X [l, o]) →
      ((List.range (2 * s.vars)).flatMap s.flushPairs).countP (sameLits X) = 0 := by
    intro X h
    rw [List.countP_eq_zero]
    intro c hc hs
    obtain ⟨l, o, rfl, k1, k2, k3⟩ := hmem c hc
    exact h l o k1 k3 k2 (sameLits_iff.1 hs)
  refine ⟨db', ?_, fun X => ?_, fun a b => ?_, fun l hv h0 => ?_, fun hin => ?_⟩
  · have e : (s.flushWatches start).proof =
        s.proof ++ ((List.range (2 * s.vars)).flatMap s.flushPairs).map .delete := by
      show s.proof ++ (List.range (2 * s.vars)).flatMap s.flushLines = _
      rw [List.map_flatMap]
      congr 2
      funext l
      exact flushLines_eq s l
    rw [e]; exact g1
  · show s.copies X ≤ _
    by_cases h0 : s.copies X = 0
    · omega
    · have h1 := hc.large X
      have h2 := g2 X
      rw [zero X fun l o _ _ _ hs => ?_] at h2
      · omega
      · obtain ⟨c, hc1, hc2⟩ := List.countP_pos_iff.1 (Nat.pos_of_ne_zero h0)
        obtain ⟨r, hr⟩ := List.mem_iff_getElem?.1 hc1
        simp only [Bool.and_eq_true, Bool.not_eq_true'] at hc2
        have hl : s.Live r := by
          unfold Solver.Live Solver.clause
          rw [List.getD_eq_getElem?_getD, hr]; exact hc2.1
        have hcl : s.clause r = c := by
          unfold Solver.clause
          rw [List.getD_eq_getElem?_getD, hr]; rfl
        have h3 := hi.clause.size r hl
        have h4 := hi.clause.nodup r hl
        rw [hcl] at h3 h4
        have := nodup_length_le h4 (m := [l, o]) fun x hx => (hs x).1 ((sameLits_iff.1 hc2.2 x).2 hx)
        simp only [List.length_cons, List.length_nil] at this
        omega
  · show ((s.watches a).filter (s.keepWatch start a)).count (.binary b) ≤ _
    by_cases hrs : s.RootSat [a, b]
    · have : ((s.watches a).filter (s.keepWatch start a)).count (.binary b) = 0 := by
        rw [List.count_eq_zero]
        intro hm
        have hk := (List.mem_filter.1 hm).2
        unfold Solver.keepWatch Solver.rootSatBinary at hk
        simp only [Bool.not_eq_true', decide_eq_false_iff_not, fixed_pos ht] at hk
        obtain ⟨l, hl, g⟩ := hrs
        simp only [List.mem_cons, List.not_mem_nil, or_false] at hl
        rcases hl with rfl | rfl
        · exact hk (.inl g)
        · exact hk (.inr g)
      omega
    · have h1 := hc.bin a b
      have h2 := g2 [a, b]
      rw [zero [a, b] fun l o _ _ g hs => hrs (rootSat_congr (fun x => (hs x).symm) g)] at h2
      have h3 : ((s.watches a).filter (s.keepWatch start a)).count (.binary b) ≤
          (s.watches a).count (.binary b) := List.filter_sublist.count_le _
      omega
  · obtain ⟨d, hd, hs⟩ := hc.unit l hv h0
    refine ⟨d, g3 d hd fun c hc' hs' => ?_, hs⟩
    obtain ⟨l', o, rfl, _, _, k⟩ := hmem c hc'
    have h1 := (hs l').2 ((hs' l').1 (by simp))
    have h2 := (hs o).2 ((hs' o).1 (by simp))
    simp only [List.mem_singleton] at h1 h2
    omega
  · refine g3 [] (hc.empty hin) fun c hc' hs' => ?_
    obtain ⟨l', o, rfl, _⟩ := hmem c hc'
    have := (hs' l').1 (by simp)
    cases this

/-! ## Swept clauses -/

/-- The clauses of `t` and those of `s` which still have to be swept. -/
def Solver.pend (s t : Solver) (n : Nat) : Solver := { t with arena := t.arena ++ s.arena.drop n }

theorem pend_copies (s t : Solver) {n : Nat} (hn : n < s.arena.length) (X : List Nat) :
    (s.pend t n).copies X = t.copies X + (s.arena.drop (n + 1)).countP (fun c => !c.garbage && sameLits X c.lits) +
      (if !(s.clause n).garbage && sameLits X (s.clause n).lits then 1 else 0) := by
  unfold Solver.pend Solver.copies
  simp only
  have e : s.arena.drop n = s.clause n :: s.arena.drop (n + 1) := by
    rw [List.drop_eq_getElem_cons hn]
    have h2 := clause_get hn
    rw [List.getElem?_eq_getElem hn] at h2
    rw [Option.some.inj h2]
  rw [List.countP_append, e, List.countP_cons, Nat.add_assoc]

theorem pend_copies' (s t : Solver) (n : Nat) (X : List Nat) :
    (s.pend t n).copies X = t.copies X + (s.arena.drop n).countP (fun c => !c.garbage && sameLits X c.lits) := by
  unfold Solver.pend Solver.copies
  simp only
  rw [List.countP_append]

theorem binaryReason_rest (t : Solver) (c : List Nat) (b : Bool) :
    (t.binaryReason c b).arena = t.arena ∧ (t.binaryReason c b).watches = t.watches := by
  unfold Solver.binaryReason
  split
  · split <;> exact ⟨rfl, rfl⟩
  · exact ⟨rfl, rfl⟩

/-- The state after the swept clause was handled, before proof lines are written. -/
theorem Sweeping.covers {orig : Base} [Deletes orig] {s t : Solver} {start n : Nat} (hs : Settled s)
    (h : Sweeping s t start n) (hst : start ≤ n) (hn : n < s.arena.length)
    (hc : ∃ db, orig.R s.vars t.proof db ∧ Covers (s.pend t n) db) :
    ∃ db, orig.R s.vars (sweepClause t (s.clause n) (s.isReason n)).proof db ∧
      Covers (s.pend (sweepClause t (s.clause n) (s.isReason n)) (n + 1)) db := by
  have hfr := (h.step hs hst).framed
  obtain ⟨db, h1, h2⟩ := hc
  have hunit : ∀ l, s.values l = 1 → s.lev l = 0 → ∃ d ∈ db, SameLits [l] d := fun l hv h0 =>
    h2.unit l (by show t.values l = 1; rw [h.framed.values]; exact hv)
      (by show t.lev l = 0; rw [h.framed.lev]; exact h0)
  have hempty : s.inconsistent = true → [] ∈ db := fun hin =>
    h2.empty (by show t.inconsistent = true; rw [h.framed.inconsistent]; exact hin)
  have hlarge := fun X => pend_copies s t hn X ▸ h2.large X
  have hbin : ∀ a b, (t.watches a).count (.binary b) ≤ db.countP (sameLits [a, b]) := h2.bin
  revert hfr
  unfold sweepClause
  have htt := h.framed.trailInv hs.inv.trail
  by_cases hg : (s.clause n).garbage = true
  · rw [if_pos hg]
    intro _
    refine ⟨db, h1, fun X => ?_, hbin, h2.unit, h2.empty⟩
    have := hlarge X
    rw [pend_copies']
    omega
  rw [if_neg hg]
  have hl : s.Live n := by simpa [Solver.Live] using hg
  have hgf : (s.clause n).garbage = false := hl
  simp only [hgf, Bool.not_false, Bool.true_and] at hlarge
  have hv : ∀ l ∈ (s.clause n).lits, l / 2 < s.vars := fun l hm => (hs.inv.clause.valid n hl l hm).1
  have hin : ∃ d ∈ db, SameLits (s.clause n).lits d := by
    refine count_same.1 (Nat.lt_of_lt_of_le ?_ (hlarge (s.clause n).lits))
    rw [if_pos (sameLits_iff.2 (.refl _))]; omega
  by_cases hr : s.RootSat (s.clause n).lits
  · rw [if_pos ((rootSat_any htt _).2 ((h.framed.rootSat _).2 hr))]
    intro _
    refine ⟨_, Deletes.delete h1 hv hin, Covers.delete (hs.inv.clause.nodup n hl)
      (hs.inv.clause.size n hl) (fun Y => ?_) hbin h2.unit h2.empty⟩
    have := hlarge Y
    rw [pend_copies']
    exact this
  rw [if_neg fun h' => hr ((h.framed.rootSat _).1 ((rootSat_any htt _).1 h'))]
  have hn' : s.Stays n := ⟨hl, hr⟩
  have he : ((s.clause n).lits.filter fun l => Decidable.decide (¬ t.fixed l < 0)) =
      s.reduct (s.clause n).lits := h.framed.reduct _
  simp only [he]
  have h3 := hs.reduct_length hn'
  have hnd : (s.reduct (s.clause n).lits).Nodup := (hs.inv.clause.nodup n hl).filter _
  have hsize := hs.inv.clause.size n hl
  suffices H : ∀ t' : Solver, (t'.proof = t.proof ∧
      (∀ X, t'.copies X ≤ t.copies X + (if sameLits X (s.reduct (s.clause n).lits) then 1 else 0)) ∧
      ((s.reduct (s.clause n).lits).length ≠ 2 → t'.watches = t.watches) ∧
      ∀ a b, (t'.watches a).count (.binary b) ≤ (t.watches a).count (.binary b) +
        (if sameLits [a, b] (s.reduct (s.clause n).lits) then 1 else 0)) →
      Framed s (if (s.reduct (s.clause n).lits).length ≠ (s.clause n).lits.length then
        (t'.emit (.add (s.reduct (s.clause n).lits))).emit (.delete (s.clause n).lits) else t') →
      ∃ db, orig.R s.vars (if (s.reduct (s.clause n).lits).length ≠ (s.clause n).lits.length then
        (t'.emit (.add (s.reduct (s.clause n).lits))).emit (.delete (s.clause n).lits) else t').proof db ∧
        Covers (s.pend (if (s.reduct (s.clause n).lits).length ≠ (s.clause n).lits.length then
        (t'.emit (.add (s.reduct (s.clause n).lits))).emit (.delete (s.clause n).lits) else t') (n + 1)) db by
    refine H _ ?_
    split
    · rename_i a b hab
      rw [hab] at hnd
      have hne : a ≠ b := by simpa using hnd
      obtain ⟨e1, e2⟩ := binaryReason_rest (t.watchBinary a b) [a, b] (s.isReason n)
      rw [hab]
      refine ⟨(binaryReason_proof _ _ _).trans rfl, fun X => ?_, fun h => absurd rfl h, fun x y => ?_⟩
      · unfold Solver.copies
        rw [e1]
        exact Nat.le_add_right _ _
      · rw [e2]; exact watchBinary_count hne t x y
    · obtain ⟨e1, e2, _, e4⟩ := placeClause_rest t
        { s.clause n with lits := s.reduct (s.clause n).lits, searched := 2 } (s.isReason n)
      refine ⟨e4, fun X => ?_, fun _ => e2, fun x y => by rw [e2]; exact Nat.le_add_right _ _⟩
      unfold Solver.copies
      rw [e1, List.countP_append, List.countP_singleton]
      simp only [hgf, Bool.not_false, Bool.true_and]
      exact Nat.le_refl _
  rintro t' ⟨e1, e2, e3, e4⟩
  split
  · rename_i hlen
    intro hfr
    have hrup : RUP (ofList db) (s.reduct (s.clause n).lits) := by
      obtain ⟨d, hd, hsd⟩ := hin
      refine .inl ⟨d, hd, fun m hm => ?_⟩
      by_cases hm' : m ∈ s.reduct (s.clause n).lits
      · exact .assumed (by rw [neg_neg]; exact hm')
      · have hf : s.values m = -1 ∧ s.lev m = 0 := Classical.byContradiction fun hh =>
          hm' ((mem_reduct hs.inv.trail).2 ⟨(hsd m).2 hm, hh⟩)
        obtain ⟨u, hu, hsu⟩ := hunit (neg m) (hs.inv.trail.neg_pos.2 hf.1) (by rw [lev_neg]; exact hf.2)
        refine .unit hu ((hsu _).1 (by simp)) fun x hx hne => ?_
        have := (hsu x).2 hx
        simp only [List.mem_singleton] at this
        exact absurd this hne
    have hsub : ∀ l ∈ s.reduct (s.clause n).lits, l ∈ (s.clause n).lits := fun l hm =>
      ((mem_reduct hs.inv.trail).1 hm).1
    refine ⟨deleteClause (s.reduct (s.clause n).lits :: db) (s.clause n).lits, ?_, ?_⟩
    · show orig.R s.vars (t'.proof ++ [.add _] ++ [.delete _]) _
      rw [e1]
      refine Deletes.delete (orig.add h1 hrup fun l hm => hv l (hsub l hm)) hv ?_
      obtain ⟨d, hd, hsd⟩ := hin
      exact ⟨d, .tail _ hd, hsd⟩
    · refine Covers.delete (hs.inv.clause.nodup n hl) hsize (fun Y => ?_) (fun a b => ?_)
        (fun l hv' h0 => ?_) (fun hi => .tail _ ?_)
      · rw [pend_copies', List.countP_cons]
        have k1 := hlarge Y
        have k2 := e2 Y
        have k3 : ((t'.emit (.add (s.reduct (s.clause n).lits))).emit (.delete (s.clause n).lits)).copies Y =
          t'.copies Y := rfl
        rw [k3]
        omega
      · rw [List.countP_cons]
        exact Nat.le_trans (e4 a b) (Nat.add_le_add_right (hbin a b) _)
      · obtain ⟨d, hd, hsd⟩ := hunit l (by rw [← hfr.values]; exact hv') (by rw [← hfr.lev]; exact h0)
        exact ⟨d, .tail _ hd, hsd⟩
      · exact hempty (by rw [← hfr.inconsistent]; exact hi)
  · rename_i hlen
    have hlen : (s.reduct (s.clause n).lits).length = (s.clause n).lits.length := Classical.not_not.1 hlen
    have heq : s.reduct (s.clause n).lits = (s.clause n).lits :=
      List.filter_eq_self.2 (List.length_filter_eq_length_iff.1 hlen)
    intro hfr
    refine ⟨db, by rw [e1]; exact h1, fun X => ?_, fun a b => ?_, fun l hv' h0 => ?_, fun hi => ?_⟩
    · rw [pend_copies']
      have k1 := hlarge X
      have k2 := e2 X
      rw [heq] at k2
      omega
    · show (t'.watches a).count _ ≤ _
      rw [e3 (by omega)]; exact hbin a b
    · exact hunit l (by rw [← hfr.values]; exact hv') (by rw [← hfr.lev]; exact h0)
    · exact hempty (by rw [← hfr.inconsistent]; exact hi)

theorem Sweeping.covers_loop {orig : Base} [Deletes orig] {s : Solver} {start : Nat} (hs : Settled s) :
    ∀ (cs : List Clause) (n : Nat) (t : Solver), start ≤ n → n ≤ s.arena.length → s.arena.drop n = cs →
    Sweeping s t start n → (∃ db, orig.R s.vars t.proof db ∧ Covers (s.pend t n) db) →
    ∃ u, ((cs.mapIdx fun i c => (c, s.isReason (n + i))).foldl (fun t p => sweepClause t p.1 p.2) t) = u ∧
      ∃ db, orig.R s.vars u.proof db ∧ Covers u db
  | [], n, t, _, hle, hd, h, hb => by
    obtain ⟨db, h1, h2⟩ := hb
    refine ⟨_, rfl, db, h1, ?_⟩
    have e : s.pend t n = t := by
      unfold Solver.pend
      rw [hd, List.append_nil]
    rw [e] at h2
    exact h2
  | c :: cs, n, t, h1, hle, hd, h, hb => by
    have hn : n < s.arena.length := by
      refine Nat.lt_of_not_le fun h' => ?_
      rw [List.drop_eq_nil_iff.2 h'] at hd; cases hd
    have hc : c = s.clause n := by
      rw [List.drop_eq_getElem_cons hn] at hd
      have := (List.cons.inj hd).1
      have h2 := clause_get hn
      rw [List.getElem?_eq_getElem hn] at h2
      rw [← this]; exact Option.some.inj h2
    have hd' : s.arena.drop (n + 1) = cs := by
      rw [List.drop_eq_getElem_cons hn] at hd
      exact (List.cons.inj hd).2
    rw [List.mapIdx_cons, List.foldl_cons]
    have := Sweeping.covers_loop (orig := orig) (start := start) hs cs (n + 1)
      (sweepClause t c (s.isReason (n + 0)))
      (by omega) hn hd' (by rw [hc]; exact h.step hs h1) (by rw [hc]; exact h.covers hs h1 hn hb)
    simp only [Nat.add_assoc, Nat.add_comm 1] at this
    exact this

theorem Settled.sweep_covers {orig : Base} [Deletes orig] {s : Solver} {start : Nat} (hs : Settled s)
    (hst : start ≤ s.arena.length) (hp : PInv orig s) :
    ∃ db, orig.R s.vars ((s.flushWatches start).sweepGarbage start).proof db ∧
      Covers ((s.flushWatches start).sweepGarbage start) db := by
  obtain ⟨db, h1, h2⟩ := hp
  obtain ⟨db', g1, g2⟩ := flush_covers hs.inv h1 h2 start
  have := Sweeping.covers_loop (orig := orig) hs _ start _ (Nat.le_refl _) hst rfl (Sweeping.init hs hst)
    ⟨db', g1, fun X => by
      have e : (s.pend { s.flushWatches start with
          arena := (s.flushWatches start).arena.take start
          lastLearned := (s.flushWatches start).lastLearned.map fun _ => none } start).copies X =
          (s.flushWatches start).copies X := by
        unfold Solver.pend Solver.copies
        show List.countP _ (s.arena.take start ++ s.arena.drop start) = _
        rw [List.take_append_drop]; rfl
      rw [e]; exact g2.large X, g2.bin, g2.unit, g2.empty⟩
  obtain ⟨u, e, h⟩ := this
  rw [← e] at h
  exact h

end Verif.Core
