import Verif.Proofs.Core.Shrink
import Verif.Proofs.Core.Strengthen

/-! # Learning the deduced clause -/

namespace Verif.Core

open Verif.Spec

/-- State after learning a clause of size `n` which forces `nu`. -/
structure Learned (orig : Base) (G : Assignment → Prop) (s s' : Solver) (nu n : Nat) :
    Prop where
  inv : PropInv orig G s'
  kept : Kept s s'
  val : s'.values nu = 1
  reason : ∀ r, (s'.assigned (nu / 2)).reason = .large r → (s'.clause r).lits.length = n

/-- A clause that may be learned. -/
structure Learnable (s : Solver) (nu : Nat) (tl : List Nat) : Prop where
  tail : Tail s tl
  head : s.values nu = -1
  lev : s.lev nu = s.level
  rup : UPConflict s.formula (fun x => neg x ∈ nu :: tl)

theorem learn_back {orig : Base} [Deletes orig] {G : Assignment → Prop} {s : Solver} {k kk J : Nat}
    {P : Nat → Nat → Prop} (hok : OkAt orig G s.level k s)
    (hw : WatchingX s kk (fun r w => s.level ≤ s.lev w ∨ P r w)
      (fun w _ => s.level ≤ s.lev w ∨ False))
    (hf : ∀ f ∈ s.frames, f.trail ≤ kk) (hJ : J < s.level) :
    ∃ n, J ≤ n ∧ n < s.level ∧ n = s.determineNewLevel J ∧
    Back s n (s.backtrackAfterConflict n) ∧
    Ok orig G (s.backtrackAfterConflict n) ∧
    WatchedX (s.backtrackAfterConflict n) P (fun _ _ => False) := by
  obtain ⟨h1, h2⟩ := determineNewLevel_spec s hJ
  obtain ⟨hb, hok', hw'⟩ := backtrackAfterConflict_ok hok hw hf h2
  refine ⟨_, h1, h2, rfl, hb, hok', ?_⟩
  have hgone : ∀ w, s.level ≤ s.lev w →
      (s.backtrackAfterConflict (s.determineNewLevel J)).values w ≠ -1 := fun w hl => by
    rw [hb.drop (by omega)]; omega
  exact hw'.dropLevel (fun _ w h => hgone w h) (fun w _ h => hgone w h)

theorem learnUnit_ok {orig : Base} [Deletes orig] {G : Assignment → Prop} {s : Solver} {c : Conflict}
    {k nu : Nat} (hm : Many orig G s c) (hok : OkAt orig G s.level k s)
    (hl : Learnable s nu []) : Learned orig G s (learnUnit s nu) nu 1 := by
  obtain ⟨kk, hw, hf⟩ := hm.watch
  obtain ⟨n, _, hn, e, hb, hok', hw'⟩ := learn_back (J := 0) (P := fun _ _ => False) hok
    (hw.weaken (fun _ _ h => .inl h) (fun _ _ h => .inl h)) hf hm.pos
  have h0 : (s.backtrackAfterConflict n).values nu = 0 := hb.drop (by rw [hl.lev]; exact hn)
  unfold learnUnit
  rw [← e]
  generalize s.backtrackAfterConflict n = t at *
  have q1 := hok'.learnedUnit h0 ((hb.valid nu).2 (hok.inv.trail.valid nu (by rw [hl.head]; omega)))
    (by rw [hb.formula]; exact .inl hl.rup)
  have q2 := hw'.learnedUnit hok'.inv.trail h0
  obtain ⟨f1, f2, f3, f4, f5, f6⟩ := learnedUnit_fields t nu
  have hre : ((t.learnedUnit nu).assigned (nu / 2)).reason = .unit :=
    q1.inv.reason.root nu (by rw [f3, if_neg (ne_neg _), if_pos rfl]) (by rw [f4, if_pos rfl])
  generalize t.learnedUnit nu = v at *
  have kept := hb.kept.trans (f1.1 hok'.inv.trail h0)
  refine ⟨?_, ⟨kept.1, kept.2, kept.3, kept.4, kept.5, kept.6, kept.7⟩, ?_, ?_⟩
  · have q1' : Ok orig G { v with iterating := true } :=
      q1.misc v.propagate true v.conflicts v.decisions v.options
    exact q1'.propInv ⟨⟨q2.1.1, q2.1.2⟩, q2.2, q2.3⟩ (fun _ _ h => h.elim) (fun _ _ h => h.elim)
  · show v.values nu = 1
    rw [f3, if_neg (ne_neg _), if_pos rfl]
  · intro r hr
    have hr : (v.assigned (nu / 2)).reason = .large r := hr
    rw [hre] at hr; cases hr

theorem assign_reason (s : Solver) (level lit : Nat) (reason : Reason) :
    ((s.assign level lit reason).assigned (lit / 2)).reason = .unit ∨
    ((s.assign level lit reason).assigned (lit / 2)).reason = reason := by
  obtain ⟨r', h1, h2, e | e⟩ := assign_eq s level lit reason <;> rw [e]
  all_goals
    show ((upd s.assigned (lit / 2) ⟨level, s.trail.length, r'⟩) (lit / 2)).reason = _ ∨
      ((upd s.assigned (lit / 2) ⟨level, s.trail.length, r'⟩) (lit / 2)).reason = _
    rw [upd_same]
    by_cases h : level = 0
    · exact .inl (h1 h)
    · exact .inr (h2 h)

theorem learnBinary_ok {orig : Base} [Deletes orig] {G : Assignment → Prop} {s : Solver} {c : Conflict}
    {k nu o : Nat} (hm : Many orig G s c) (hok : OkAt orig G s.level k s)
    (hl : Learnable s nu [o]) : Learned orig G s (learnBinary s nu o) nu 2 := by
  obtain ⟨kk, hw, hf⟩ := hm.watch
  have hol := hl.tail.lev o (by simp)
  have hov := hl.tail.false o (by simp)
  obtain ⟨n, hJ, hn, e, hb, hok', hw'⟩ := learn_back (J := s.lev o) (P := fun _ _ => False) hok
    (hw.weaken (fun _ _ h => .inl h) (fun _ _ h => .inl h)) hf hol.2
  have h0 : (s.backtrackAfterConflict n).values nu = 0 := hb.drop (by rw [hl.lev]; exact hn)
  have hov' : (s.backtrackAfterConflict n).values o = -1 := by rw [hb.keep hJ]; exact hov
  unfold learnBinary
  rw [← e]
  generalize s.backtrackAfterConflict n = t at *
  have hne : nu ≠ o := by
    intro e; rw [e] at h0; omega
  have hne' : nu ≠ neg o := by
    intro e
    rw [e, hok'.inv.trail.anti] at h0; omega
  have ok1 := (hok'.at (t.level + 1) 0 (Nat.le_refl _)).addBinary (a := nu) (b := o)
    (by rw [hb.formula]; exact .inl hl.rup) hne hne'
    ((hb.valid nu).2 (hok.inv.trail.valid nu (by rw [hl.head]; omega)))
    ((hb.valid o).2 (hok.inv.trail.valid o (by rw [hov]; omega)))
  have ok2 : Ok orig G ((t.watchBinary nu o).emit (.add [nu, o])) := ok1.ok
  have hmem : ∀ w x, x ∈ ((t.watchBinary nu o).emit (.add [nu, o])).watches w ↔ _ :=
    watchBinary_mem t nu o
  have hw2 : WatchedX ((t.watchBinary nu o).emit (.add [nu, o])) (fun _ _ => False)
      (fun x y => x = o ∧ y = nu ∨ x = nu ∧ y = o) := by
    refine ⟨hw'.1.edit rfl rfl rfl rfl rfl (fun r w _ hr _ => ⟨id, hr, rfl⟩) (fun w y hn hy => ?_),
      hw'.2, hw'.3⟩
    refine ⟨id, ((hmem w _).1 hy).resolve_right fun h => hn ?_⟩
    rcases h with ⟨e1, h⟩ | ⟨e1, h⟩
    · cases h; exact .inr ⟨e1, rfl⟩
    · cases h; exact .inl ⟨e1, rfl⟩
  have hd := drive_binary ok2 hw2 ((hmem nu _).2 (.inr (.inl ⟨rfl, rfl⟩))) h0 hov'
  have kept1 : Kept t ((t.watchBinary nu o).emit (.add [nu, o])) :=
    ⟨rfl, rfl, rfl, rfl, rfl, rfl, fun _ _ h => ⟨rfl, h⟩⟩
  refine ⟨hd, (hb.kept.trans kept1).trans (Kept.assign ok2.inv.trail _ _ h0), ?_, fun r hr => ?_⟩
  · show (Solver.assign _ _ _ _).values nu = 1
    rw [assign_values, if_neg (ne_neg _), if_pos rfl]
  · have hr : ((Solver.assign _ _ _ _).assigned (nu / 2)).reason = .large r := hr
    rcases assign_reason ((t.watchBinary nu o).emit (.add [nu, o])) _ nu _ with h | h
    · rw [h] at hr; cases hr
    · rw [h] at hr; cases hr

theorem newRedundant_fields (s : Solver) (lits : List Nat) :
    (newRedundant s lits).values = s.values ∧ (newRedundant s lits).assigned = s.assigned ∧
    (newRedundant s lits).trail = s.trail ∧ (newRedundant s lits).frames = s.frames ∧
    (newRedundant s lits).level = s.level ∧ (newRedundant s lits).options = s.options ∧
    (newRedundant s lits).arena.length = s.arena.length + 1 ∧ Kept s (newRedundant s lits) := by
  refine ⟨rfl, rfl, rfl, rfl, rfl, rfl, ?_, rfl, rfl, rfl, rfl, rfl, rfl, fun _ _ h => ⟨rfl, h⟩⟩
  show (s.arena ++ [_]).length = _
  simp

theorem newRedundant_bin (s : Solver) (a b : Nat) (rest : List Nat) (hab : a ≠ b) (w o : Nat) :
    Watch.binary o ∈ (newRedundant s (a :: b :: rest)).watches w ↔
      Watch.binary o ∈ s.watches w := by
  have := watchReference_mem { s with arena := s.arena ++ [⟨a :: b :: rest, false, true, 2⟩] } hab
      s.arena.length w (.binary o)
  have h2 : (newRedundant s (a :: b :: rest)).watches = (Solver.watchReference
    { s with arena := s.arena ++ [⟨a :: b :: rest, false, true, 2⟩] } a b s.arena.length).watches := rfl
  rw [h2, this]
  constructor
  · rintro (h | ⟨_, h⟩ | ⟨_, h⟩)
    · exact h
    · cases h
    · cases h
  · exact .inl

theorem learnReference_ok {orig : Base} [Deletes orig] {G : Assignment → Prop} {s : Solver}
    {c : Conflict} {k nu : Nat} {x y : Nat} {rest : List Nat} (hm : Many orig G s c)
    (hok : OkAt orig G s.level k s) (hl : Learnable s nu (x :: y :: rest)) :
    Learned orig G s (learnReference s (nu :: x :: y :: rest)) nu (nu :: x :: y :: rest).length ∧
    (learnReference s (nu :: x :: y :: rest)).arena.length = s.arena.length + 1 := by
  obtain ⟨kk, hw, hf⟩ := hm.watch
  generalize hL : nu :: x :: y :: rest = L
  have hlen : 3 ≤ L.length := by rw [← hL]; simp
  have hL0 : L[0]? = some nu := by rw [← hL]; rfl
  have hmemL : ∀ l, l ∈ L ↔ l = nu ∨ l ∈ x :: y :: rest := fun l => by
    rw [← hL, List.mem_cons]
  have hnuT : nu ∉ x :: y :: rest := fun h => by
    have := (hl.tail.lev nu h).2; have := hl.lev; omega
  have hLnd : L.Nodup := by rw [← hL, List.nodup_cons]; exact ⟨hnuT, hl.tail.nodup⟩
  have hfalse : ∀ l ∈ L, s.values l = -1 := fun l h => by
    rcases (hmemL l).1 h with e | e
    · rw [e]; exact hl.head
    · exact hl.tail.false l e
  have hlevT : ∀ l ∈ L, l ≠ nu → s.lev l < s.level := fun l h hne =>
    (hl.tail.lev l (((hmemL l).1 h).resolve_left hne)).2
  have hdrop : ∀ i z, (L.drop 2)[i]? = some z → L[2 + i]? = some z := by
    intro i z h; rwa [List.getElem?_drop] at h
  have h1lt : 1 < L.length := by omega
  -- position of the literal of highest level
  have hj : ∃ j z, findHighest s.lev (some (s.level - 1)) (L.drop 2) 2 1 (s.lev (L.getD 1 0)) = j ∧
      1 ≤ j ∧ L[j]? = some z ∧ ∀ l ∈ L, l ≠ nu → s.lev l ≤ s.lev z := by
    have hcov : ∀ l ∈ L, l ≠ nu → l = L.getD 1 0 ∨ l ∈ L.drop 2 := by
      intro l h hne
      rw [← hL] at h ⊢
      simp only [List.mem_cons] at h
      rcases h with h | h | h
      · exact absurd h hne
      · exact .inl h
      · exact .inr (by simpa using h)
    have hsub : ∀ l ∈ L.drop 2, l ∈ L ∧ l ≠ nu := by
      intro l h
      have hin := List.mem_of_mem_drop h
      refine ⟨hin, ?_⟩
      rintro rfl
      rw [← hL] at h
      exact hnuT (by simp only [List.drop_succ_cons, List.drop_zero] at h; exact .tail _ h)
    rcases findHighest_spec s.lev (some (s.level - 1)) (L.drop 2) 2 1 (s.lev (L.getD 1 0)) (by
      intro M hM l h
      cases hM
      have := hlevT l (hsub l h).1 (hsub l h).2
      omega) with ⟨e, hh⟩ | ⟨i, z, e, hi, hlt, hh⟩
    · refine ⟨1, L.getD 1 0, e, Nat.le_refl _, ?_, fun l h hne => ?_⟩
      · rw [getD_eq h1lt, List.getElem?_eq_getElem]
      · rcases hcov l h hne with e | e
        · rw [e]; exact Nat.le_refl _
        · exact hh l e
    · refine ⟨2 + i, z, e, by omega, hdrop i z hi, fun l h hne => ?_⟩
      rcases hcov l h hne with e | e
      · rw [e]; exact Nat.le_of_lt hlt
      · exact hh l e
  obtain ⟨j, z, hje, hj1, hjz, hjmax⟩ := hj
  have hjlt : j < L.length := (List.getElem?_eq_some_iff.1 hjz).1
  have hzD : L.getD j 0 = z := by rw [List.getD_eq_getElem?_getD, hjz]; rfl
  have hzL : z ∈ L := List.mem_iff_getElem?.2 ⟨j, hjz⟩
  have hznu : z ≠ nu := by
    rintro rfl
    have := (List.getElem?_inj hjlt hLnd).1 (hjz.trans hL0.symm)
    omega
  -- the swapped clause
  have hperm := swapLits_perm h1lt hjlt
  have hget := swapLits_get h1lt hjlt
  generalize hS : swapLits L 1 j = S at hperm hget
  have hS0 : S[0]? = some nu := by rw [hget, if_neg (by omega), if_neg (by omega), hL0]
  have hS1 : S[1]? = some z := by rw [hget, if_pos rfl, hjz]
  obtain ⟨rest', hSe, hrest'⟩ : ∃ rest', S = nu :: z :: rest' ∧ rest' ≠ [] := by
    have := hperm.length_eq
    match S, hS0, hS1, this with
    | a :: b :: rest', h0, h1, h2 =>
      cases h0; cases h1
      refine ⟨rest', rfl, ?_⟩
      rintro rfl
      simp at h2; omega
  have hSL : ∀ l, l ∈ nu :: z :: rest' ↔ l ∈ L := fun l => by rw [← hSe]; exact hperm.mem_iff
  have hok1 : OkAt orig G s.level k (newRedundant s (nu :: z :: rest')) := by
    refine hok.addLarge ?_ hrest' ?_ (fun l h h' => ?_) (fun l h => ?_)
    · refine RUP.mono (c := nu :: x :: y :: rest) (fun c hc => ⟨c, hc, .refl c⟩)
        (fun l h => (hSL l).2 (by rw [← hL]; exact h)) (.inl hl.rup)
    · rw [← hSe]; exact hperm.symm.nodup hLnd
    · have a := hfalse l ((hSL l).1 h)
      have b := hfalse _ ((hSL _).1 h')
      rw [hok.inv.trail.anti] at b; omega
    · exact hok.inv.trail.valid l (by rw [hfalse l ((hSL l).1 h)]; omega)
  obtain ⟨g1, g2, g3, g4, g5, g6, g7, g8⟩ := newRedundant_fields s (nu :: z :: rest')
  have hcl := newRedundant_clause s (nu :: z :: rest')
  have hlv := newRedundant_live s (nu :: z :: rest')
  have hbin := newRedundant_bin s nu z rest' (Ne.symm hznu)
  have hlev1 : (newRedundant s (nu :: z :: rest')).lev = s.lev := rfl
  have hdet : (newRedundant s (nu :: z :: rest')).determineNewLevel (s.lev z) =
      s.determineNewLevel (s.lev z) := rfl
  have hw1 : WatchingX (newRedundant s (nu :: z :: rest')) kk
      (fun r w => s.level ≤ s.lev w ∨ r = s.arena.length) (fun w _ => s.level ≤ s.lev w ∨ False) := by
    refine hw.edit g1 g2 g3 g4 rfl (fun r w hn hr _ => ?_) (fun w o hn hy => ?_)
    · have hne : r ≠ s.arena.length := fun e => hn (.inr e)
      exact ⟨fun h => hn (.inl h), ((hlv r).1 hr).resolve_left hne, by rw [hcl, if_neg hne]⟩
    · exact ⟨fun h => hn (.inl h), (hbin w o).1 hy⟩
  have hback := learn_back (s := newRedundant s (nu :: z :: rest')) (J := s.lev z)
    (P := fun r _ => r = s.arena.length) (by rw [g5]; exact hok1)
    (by rw [g5, hlev1]; exact hw1) (by rw [g4]; exact hf) (by
      rw [g5]; exact hlevT z hzL hznu)
  unfold learnReference
  have e0 : L.getD 0 0 = nu := by rw [List.getD_eq_getElem?_getD, hL0]; rfl
  simp only [hje, hzD, hS, hSe, e0]
  generalize newRedundant s (nu :: z :: rest') = s1 at *
  obtain ⟨n, hJ, hn, e, hb, hok', hw'⟩ := hback
  rw [← e]
  rw [g5] at hn
  generalize s1.backtrackAfterConflict n = t at *
  have hct : t.clause s.arena.length = ⟨nu :: z :: rest', false, true, 2⟩ := by
    rw [hb.clause, hcl, if_pos rfl]
  have hkeep : ∀ l, s.lev l ≤ n → t.values l = s.values l := fun l h => by
    rw [hb.keep (by rw [hlev1]; exact h), g1]
  have htl : ∀ l, t.lev l = s.lev l := fun l => by rw [hb.lev, hlev1]
  have hd := drive_large hok' (r := s.arena.length) (u := nu) (o := z) hw'
    (by unfold Solver.Live; rw [hct]) (by rw [hct]; rfl) (by rw [hct]; rfl)
    (hb.drop (by rw [hlev1, hl.lev]; exact hn)) (by
      rw [hct]
      intro m hmm hne
      have hmL := (hSL m).1 hmm
      have := hjmax m hmL hne
      rw [hkeep m (by omega)]
      exact hfalse m hmL) (by
      rw [hct]
      intro m hmm hne
      rw [htl, htl]
      exact hjmax m ((hSL m).1 hmm) hne)
  have ha := assign_fields t (t.assignmentLevel nu (t.clause s.arena.length).lits) nu
    (.large s.arena.length)
  refine ⟨⟨hd, (g8.trans hb.kept).trans (Kept.assign hok'.inv.trail _ _
    (hb.drop (by rw [hlev1, hl.lev]; exact hn))), ?_, fun r hr => ?_⟩, ?_⟩
  · show (Solver.assign _ _ _ _).values nu = 1
    rw [assign_values, if_neg (ne_neg _), if_pos rfl]
  · have hr : ((Solver.assign _ _ _ _).assigned (nu / 2)).reason = .large r := hr
    show ((Solver.assign _ _ _ _).clause r).lits.length = _
    rw [clause_congr ha.2.2.2.1]
    rcases assign_reason t (t.assignmentLevel nu (t.clause s.arena.length).lits) nu
      (.large s.arena.length) with h | h
    · rw [h] at hr; cases hr
    · rw [h] at hr; cases hr
      rw [hct, ← hSe]
      exact hperm.length_eq
  · show (Solver.assign _ _ _ _).arena.length = _
    rw [ha.2.2.2.1, hb.arena, g7]

/-! ## Eager subsumption -/

theorem subsumeLoop_spec (clause : List Nat) : ∀ (lits : List Nat) (needed remain : Nat),
    0 < needed → subsumeLoop clause lits needed remain = 0 →
    needed ≤ (lits.filter fun l => decide (l ∈ clause)).length
  | [], needed, _, hp, h => by unfold subsumeLoop at h; omega
  | lit :: rest, needed, remain, hp, h => by
    unfold subsumeLoop at h
    by_cases hin : lit ∈ clause
    · rw [if_pos hin] at h
      rw [List.filter_cons_of_pos (by simpa using hin), List.length_cons]
      by_cases h1 : needed - 1 = 0
      · omega
      · rw [if_neg h1] at h
        split at h
        · omega
        · have := subsumeLoop_spec clause rest (needed - 1) (remain - 1) (by omega) h
          omega
    · rw [if_neg hin] at h
      rw [List.filter_cons_of_neg (by simpa using hin)]
      split at h
      · omega
      · exact subsumeLoop_spec clause rest needed (remain - 1) hp h

theorem mem_of_subsumed {clause lits : List Nat} (hnd : lits.Nodup) {remain : Nat}
    (hne : 0 < clause.length) (h : subsumeLoop clause lits clause.length remain = 0) :
    ∀ l ∈ clause, l ∈ lits := by
  intro l hl
  have h1 := subsumeLoop_spec clause lits _ _ hne h
  by_cases hin : l ∈ lits
  · exact hin
  · have h2 := nodup_length_le (l := l :: lits.filter fun l => decide (l ∈ clause)) (m := clause) (by
      rw [List.nodup_cons]
      exact ⟨fun h => hin (List.mem_filter.1 h).1, List.filter_sublist.nodup hnd⟩) (by
      intro x hx
      rcases List.mem_cons.1 hx with rfl | hx
      · exact hl
      · simpa using (List.mem_filter.1 hx).2)
    rw [List.length_cons] at h2
    omega

theorem PropInv.markGarbage {orig : Base} [Deletes orig] {G : Assignment → Prop} {s : Solver}
    (h : PropInv orig G s) {r : Nat} (hr : s.Live r)
    (hre : ∀ l, s.values l = 1 → (s.assigned (l / 2)).reason ≠ .large r)
    (hirr : (s.clause r).redundant = false → ∀ σ, SatFormula σ (s.markGarbage r).irr →
      SatClause σ (s.clause r).lits) : PropInv orig G (s.markGarbage r) := by
  have h1 := (h.ok.at (s.level + 1) 0 (Nat.le_refl _)).garbage hr (L' := s.level + 1) (k' := 0)
    (Nat.le_refl _) (Nat.le_refl _) (fun l hv he _ => hre l hv he) hirr
  have h2 : Ok orig G (s.markGarbage r) := h1.ok
  have hm := Subsumed.mark hr
  refine h2.propInv (exL := fun _ _ => False) (exB := fun _ _ => False) ⟨?_, h.frames, h.le⟩
    (fun _ _ h => h.elim) (fun _ _ h => h.elim)
  exact (h.watching.x (fun _ _ => False) (fun _ _ => False)).edit rfl rfl rfl rfl rfl
    (fun r' w _ hr' _ => ⟨id, ((hm.live r').1 hr').2, hm.lits r'⟩) (fun w o _ hw => ⟨id, hw⟩)

theorem PropInv.lastLearned {orig : Base} [Deletes orig] {G : Assignment → Prop} {s : Solver}
    (h : PropInv orig G s) {l : List (Option Nat)} (hl : ∀ r, some r ∈ l → r < s.arena.length) :
    PropInv orig G { s with lastLearned := l } := by
  obtain ⟨⟨⟨h1, h2, h3, h4⟩, ⟨db, h5, h6⟩, h7⟩, h8, h9, h10⟩ := h
  exact ⟨⟨⟨⟨h1.1, h1.2, h1.3, h1.4, h1.5, h1.6, h1.7, h1.8, h1.9, h1.10, h1.11, h1.12, h1.13⟩,
    ⟨h2.1, h2.2, h2.3, h2.4, h2.5⟩, ⟨h3.1, h3.2, h3.3, h3.4, h3.5, h3.6, hl⟩,
    ⟨h4.1, h4.2, h4.3, h4.4⟩⟩, ⟨db, h5, ⟨h6.1, h6.2, h6.3, h6.4⟩⟩, h7⟩, ⟨h8.1, h8.2⟩, h9, h10⟩

theorem Learned.garbage {orig : Base} [Deletes orig] {G : Assignment → Prop} {s0 s : Solver}
    {nu r : Nat} {clause : List Nat} (h : Learned orig G s0 s nu clause.length)
    (hnu : nu ∈ clause) (hr : s.Live r) (hred : (s.clause r).redundant = true)
    (hlen : clause.length < (s.clause r).lits.length)
    (hsub : ∀ l ∈ clause, l ∈ (s.clause r).lits) :
    Learned orig G s0 (s.markGarbage r) nu clause.length := by
  have hm := Subsumed.mark hr
  refine ⟨h.inv.markGarbage hr (fun l hv hre => ?_) (fun hf => by rw [hred] at hf; cases hf),
    h.kept.trans hm.kept, by rw [hm.values]; exact h.val, fun r' hr' => ?_⟩
  · obtain ⟨_, _, x3, _⟩ := h.inv.ok.inv.reason.large l r hv hre
      (.inl (Nat.lt_succ_of_le (h.inv.ok.inv.trail.levle l hv)))
    by_cases e : nu = l
    · subst e
      have := h.reason r hre
      omega
    · have := (x3 nu (hsub nu hnu) e).1
      have := h.val
      omega
  · rw [hm.lits]
    rw [hm.assigned] at hr'
    exact h.reason r' hr'

theorem eagerlySubsumeOne_ok {orig : Base} [Deletes orig] {G : Assignment → Prop} {s0 s : Solver}
    {nu : Nat} {clause : List Nat} (h : Learned orig G s0 s nu clause.length)
    (hnu : nu ∈ clause) (r : Option Nat) :
    Learned orig G s0 (eagerlySubsumeOne clause s r).1 nu clause.length ∧
    (eagerlySubsumeOne clause s r).1.arena.length = s.arena.length ∧
    (∀ q, (eagerlySubsumeOne clause s r).2 = some q → r = some q) := by
  unfold eagerlySubsumeOne
  cases r with
  | none => exact ⟨h, rfl, fun q hq => by cases hq⟩
  | some r =>
    simp only
    split
    · exact ⟨h, rfl, fun q hq => hq⟩
    · rename_i hc
      have h1 : (s.clause r).garbage = false := by
        cases hg : (s.clause r).garbage with
        | false => rfl
        | true => exact absurd (.inl hg) hc
      have h2 : (s.clause r).redundant = true := by
        cases hg : (s.clause r).redundant with
        | true => rfl
        | false => exact absurd (.inr (.inl (by rw [hg]; simp))) hc
      have h3 : clause.length < (s.clause r).lits.length := by
        by_cases hh : (s.clause r).lits.length ≤ clause.length
        · exact absurd (.inr (.inr (.inl hh))) hc
        · omega
      have h4 : subsumeLoop clause (s.clause r).lits clause.length (s.clause r).lits.length = 0 := by
        by_cases hh : subsumeLoop clause (s.clause r).lits clause.length
          (s.clause r).lits.length = 0
        · exact hh
        · exact absurd (.inr (.inr (.inr hh))) hc
      refine ⟨h.garbage hnu h1 h2 h3 (mem_of_subsumed (h.inv.ok.inv.clause.nodup r h1)
        (List.length_pos_of_mem hnu) h4), ?_, fun q hq => by cases hq⟩
      simp [Solver.markGarbage, Solver.setClause, Solver.emit]

theorem eagerlySubsumeLoop_ok {orig : Base} [Deletes orig] {G : Assignment → Prop} {s0 : Solver}
    {nu : Nat} {clause : List Nat} (hnu : nu ∈ clause) : ∀ (rs : List (Option Nat)) (s : Solver),
    Learned orig G s0 s nu clause.length →
    Learned orig G s0 (eagerlySubsumeLoop clause rs s).1 nu clause.length ∧
    (eagerlySubsumeLoop clause rs s).1.arena.length = s.arena.length ∧
    (∀ q, some q ∈ (eagerlySubsumeLoop clause rs s).2 → some q ∈ rs)
  | [], s, h => ⟨h, rfl, fun q hq => hq⟩
  | r :: rs, s, h => by
    obtain ⟨a1, a2, a3⟩ := eagerlySubsumeOne_ok h hnu r
    unfold eagerlySubsumeLoop
    generalize eagerlySubsumeOne clause s r = p at a1 a2 a3
    obtain ⟨s', r'⟩ := p
    obtain ⟨b1, b2, b3⟩ := eagerlySubsumeLoop_ok hnu rs s' a1
    simp only
    generalize eagerlySubsumeLoop clause rs s' = p at b1 b2 b3
    obtain ⟨s'', rs'⟩ := p
    refine ⟨b1, b2.trans a2, fun q hq => ?_⟩
    rcases List.mem_cons.1 hq with e | hq
    · rw [a3 q e.symm]; exact .head _
    · exact .tail _ (b3 q hq)

theorem eagerlySubsume_ok {orig : Base} [Deletes orig] {G : Assignment → Prop} {s0 s : Solver}
    {nu : Nat} {clause : List Nat} (h : Learned orig G s0 s nu clause.length) (hnu : nu ∈ clause) :
    Learned orig G s0 (eagerlySubsume clause s) nu clause.length ∧
    (eagerlySubsume clause s).arena.length = s.arena.length := by
  obtain ⟨a1, a2, a3⟩ := eagerlySubsumeLoop_ok hnu s.lastLearned s h
  unfold eagerlySubsume
  generalize eagerlySubsumeLoop clause s.lastLearned s = p at a1 a2 a3
  obtain ⟨s', rs⟩ := p
  simp only
  refine ⟨⟨a1.inv.lastLearned fun q hq => ?_, ⟨a1.kept.1, a1.kept.2, a1.kept.3, a1.kept.4,
    a1.kept.5, a1.kept.6, a1.kept.7⟩, a1.val, a1.reason⟩, a2⟩
  have a2 : s'.arena.length = s.arena.length := a2
  rw [a2]
  refine h.inv.ok.inv.clause.last q (a3 q ?_)
  rcases List.mem_append.1 hq with hq | hq
  · exact (List.mem_filter.1 hq).1
  · have := (List.mem_replicate.1 hq).2
    cases this

theorem learnClause_ok {orig : Base} [Deletes orig] {G : Assignment → Prop} {s : Solver} {c : Conflict}
    {k nu : Nat} {tail : List Nat} (hm : Many orig G s c) (hok : OkAt orig G s.level k s)
    (hl : Learnable s nu tail) :
    PropInv orig G (learnClause s (nu :: tail)) ∧ Kept s (learnClause s (nu :: tail)) := by
  match tail, hl with
  | [], hl =>
    have h := learnUnit_ok hm hok hl
    show PropInv orig G (if (learnUnit s nu).options.eagersubsume ≠ 0 then
      eagerlySubsume [nu] (learnUnit s nu) else learnUnit s nu) ∧ Kept s (if
      (learnUnit s nu).options.eagersubsume ≠ 0 then
      eagerlySubsume [nu] (learnUnit s nu) else learnUnit s nu)
    split
    · have := (eagerlySubsume_ok (clause := [nu]) h (by simp)).1
      exact ⟨this.inv, this.kept⟩
    · exact ⟨h.inv, h.kept⟩
  | [o], hl =>
    have h := learnBinary_ok hm hok hl
    show PropInv orig G (if (learnBinary s nu o).options.eagersubsume ≠ 0 then
      eagerlySubsume [nu, o] (learnBinary s nu o) else learnBinary s nu o) ∧ Kept s (if
      (learnBinary s nu o).options.eagersubsume ≠ 0 then
      eagerlySubsume [nu, o] (learnBinary s nu o) else learnBinary s nu o)
    split
    · have := (eagerlySubsume_ok (clause := [nu, o]) h (by simp)).1
      exact ⟨this.inv, this.kept⟩
    · exact ⟨h.inv, h.kept⟩
  | x :: y :: rest, hl =>
    obtain ⟨h, hlen⟩ := learnReference_ok hm hok hl
    show PropInv orig G (if (learnReference s (nu :: x :: y :: rest)).options.eagersubsume ≠ 0 then
      insertLastLearned (eagerlySubsume (nu :: x :: y :: rest)
        (learnReference s (nu :: x :: y :: rest))) s.arena.length
      else learnReference s (nu :: x :: y :: rest)) ∧ Kept s
      (if (learnReference s (nu :: x :: y :: rest)).options.eagersubsume ≠ 0 then
      insertLastLearned (eagerlySubsume (nu :: x :: y :: rest)
        (learnReference s (nu :: x :: y :: rest))) s.arena.length
      else learnReference s (nu :: x :: y :: rest))
    split
    · obtain ⟨h', hlen'⟩ := eagerlySubsume_ok h (by simp)
      generalize eagerlySubsume (nu :: x :: y :: rest)
        (learnReference s (nu :: x :: y :: rest)) = t at h' hlen'
      refine ⟨h'.inv.lastLearned fun q hq => ?_, ⟨h'.kept.1, h'.kept.2, h'.kept.3, h'.kept.4,
        h'.kept.5, h'.kept.6, h'.kept.7⟩⟩
      rcases List.mem_cons.1 (List.mem_of_mem_take hq) with e | e
      · cases e; omega
      · exact h'.inv.ok.inv.clause.last q e
    · exact ⟨h.inv, h.kept⟩

end Verif.Core
