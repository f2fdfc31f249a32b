import Verif.Proofs.Core.Shrink

/-! # Adding, replacing and removing clauses -/

namespace Verif.Core

open Verif.Spec

/-! ## Proof checker -/

theorem sameLits_congr {c d : List Nat} (h : SameLits c d) (Y : List Nat) :
    sameLits Y c = sameLits Y d := by
  rw [Bool.eq_iff_iff, sameLits_iff, sameLits_iff]
  exact ⟨fun hh l => (hh l).trans (h l), fun hh l => (hh l).trans (h l).symm⟩

theorem countP_delete (db : List (List Nat)) (c Y : List Nat) :
    db.countP (sameLits Y) ≤
      (deleteClause db c).countP (sameLits Y) + (if sameLits Y c then 1 else 0) := by
  unfold deleteClause
  induction db with
  | nil => simp
  | cons a db ih =>
    rw [List.eraseP_cons]
    cases hp : sameLits c a with
    | false =>
      simp only [cond_false, List.countP_cons]
      omega
    | true =>
      simp only [cond_true, List.countP_cons]
      rw [sameLits_congr (sameLits_iff.1 hp) Y]
      omega

theorem Covers.delete {s' : Solver} {db : List (List Nat)} {X : List Nat} (hn : X.Nodup)
    (hl : 3 ≤ X.length)
    (hlarge : ∀ Y, s'.copies Y + (if sameLits Y X then 1 else 0) ≤ db.countP (sameLits Y))
    (hbin : ∀ a b, (s'.watches a).count (.binary b) ≤ db.countP (sameLits [a, b]))
    (hunit : ∀ l, s'.values l = 1 → s'.lev l = 0 → ∃ d ∈ db, SameLits [l] d)
    (hempty : s'.inconsistent = true → [] ∈ db) : Covers s' (deleteClause db X) := by
  have short : ∀ e d, e.length < 3 → d ∈ db → SameLits e d → ∃ d ∈ deleteClause db X, SameLits e d := by
    intro e d he hd hs
    refine ⟨d, mem_deleteClause_of_not hd fun hX => ?_, hs⟩
    have := nodup_length_le hn (m := e) fun x hx => (hs x).2 ((hX x).1 hx)
    omega
  refine ⟨fun Y => ?_, fun a b => ?_, fun l h1 h2 => ?_, fun hi => ?_⟩
  · have h1 := hlarge Y
    have h2 := countP_delete db X Y
    omega
  · have h1 := hbin a b
    have h2 := countP_delete db X [a, b]
    have h3 : sameLits [a, b] X = false := by
      cases hX : sameLits [a, b] X with
      | false => rfl
      | true =>
        have := nodup_length_le hn (m := [a, b]) fun x hx => (sameLits_iff.1 hX x).2 hx
        simp only [List.length_cons, List.length_nil] at this
        omega
    rw [h3] at h2
    simp only [Bool.false_eq_true, if_false, Nat.add_zero] at h2
    omega
  · obtain ⟨d, hd, hs⟩ := hunit l h1 h2
    exact short _ d (by simp) hd hs
  · refine mem_deleteClause_of_not (hempty hi) fun hX => ?_
    have := nodup_length_le hn (m := []) fun x hx => (hX x).1 hx
    rw [List.length_nil] at this
    omega

/-! ## Replacing a clause by a shorter one -/

theorem WatchInv.rewire {s : Solver} (hs : WatchInv s) {r : Nat} {c : Clause}
    {W : Nat → List Watch} (hlt : r < s.arena.length)
    (hother : ∀ w y z, z ≠ r → (Watch.large y z ∈ W w ↔ Watch.large y z ∈ s.watches w))
    (hself : ∀ w y, Watch.large y r ∈ W w → c.garbage = false → c.Watched w ∧ y ∈ c.lits)
    (hwatched : c.garbage = false → ∀ w, c.Watched w → (∃ y, Watch.large y r ∈ W w) ∨ s.RootSat c.lits)
    (honce : ∀ w, ((W w).filterMap Watch.ref?).Nodup) :
    WatchInv { s.setClause r c with watches := W } := by
  have hcl : ∀ r', ({ s.setClause r c with watches := W } : Solver).clause r' =
      if r' = r then c else s.clause r' := fun r' => setClause_clause r' hlt
  refine ⟨fun r' hr' w hw => ?_, fun w y z hz => ?_, fun w y z hz hz' => ?_, honce⟩
  · unfold Solver.Live at hr'
    rw [hcl] at hr' hw ⊢
    by_cases e : r' = r
    · subst e; rw [if_pos rfl] at hr' hw ⊢; exact hwatched hr' w hw
    · rw [if_neg e] at hr' hw ⊢
      refine (hs.watched r' hr' w hw).imp ?_ id
      rintro ⟨y, hy⟩
      exact ⟨y, (hother w y r' e).2 hy⟩
  · have : z < s.arena.length := by
      by_cases e : z = r
      · rw [e]; exact hlt
      · exact hs.inarena w y z ((hother w y z e).1 hz)
    simpa [Solver.setClause] using this
  · unfold Solver.Live at hz'
    rw [hcl] at hz' ⊢
    by_cases e : z = r
    · subst e; rw [if_pos rfl] at hz' ⊢; exact hself w y hz hz'
    · rw [if_neg e] at hz' ⊢
      exact hs.back w y z ((hother w y z e).1 hz) hz'

/-- A live clause becomes a subset of itself. -/
structure Shrunk (s : Solver) (r : Nat) (c : Clause) : Prop where
  live : s.Live r
  garbage : c.garbage = false
  sub : ∀ l ∈ c.lits, l ∈ (s.clause r).lits
  size : 3 ≤ c.lits.length
  nodup : c.lits.Nodup
  searched : 2 ≤ c.searched ∧ c.searched < c.lits.length
  redundant : (s.clause r).redundant = false → c.redundant = false

theorem OkAt.replace {orig : Base} {G : Assignment → Prop} {s : Solver} {L k : Nat}
    (hok : OkAt orig G L k s) {r : Nat} {c : Clause} (h : Shrunk s r c) {W : Nat → List Watch}
    {L' k' : Nat} (hL : L' ≤ L) (hk : k' ≤ k) {pr : List Line}
    (hB : SameBin W s.watches)
    (hre : ∀ l, s.values l = 1 → (s.assigned (l / 2)).reason = .large r →
      (s.lev l < L' ∨ s.pos l < k') → c.Watched l ∧ ∃ m ∈ c.lits, m ≠ l ∧ s.lev m = s.lev l)
    (hw : WatchInv { s.setClause r c with watches := W })
    (hp : ∃ db, orig.R s.vars pr db ∧ Covers { s.setClause r c with watches := W } db) :
    OkAt orig G L' k' { s.setClause r c with watches := W, proof := pr } := by
  have hb := hB.iff
  have hlt := clause_lt h.live
  have hcl : ∀ r', (s.setClause r c).clause r' = if r' = r then c else s.clause r' :=
    fun r' => setClause_clause r' hlt
  have hlive : ∀ r', (s.setClause r c).Live r' ↔ s.Live r' := by
    intro r'
    unfold Solver.Live
    rw [hcl]
    split
    · rename_i e; subst e; rw [h.garbage]; exact ⟨fun _ => h.live, fun _ => rfl⟩
    · rfl
  have hsub : ∀ r', ∀ l ∈ ((s.setClause r c).clause r').lits, l ∈ (s.clause r').lits := by
    intro r' l hl
    rw [hcl] at hl
    split at hl
    · rename_i e; subst e; exact h.sub l hl
    · exact hl
  have hbins : ({ s.setClause r c with watches := W, proof := pr } : Solver).bins = s.bins := by
    funext c
    unfold Solver.bins
    simp only [hb]
  obtain ⟨⟨h1, h2, h3, _⟩, _, h7⟩ := hok
  obtain ⟨db, h5, h6⟩ := hp
  refine ⟨⟨⟨h1.1, h1.2, h1.3, h1.4, h1.5, h1.6, h1.7, h1.8, h1.9, h1.10, h1.11, h1.12, h1.13⟩,
    ⟨h2.1, h2.2, h2.3, fun l o a b => ?_, fun l r' hv hr' hk' => ?_⟩, ?_, ?_⟩,
    ⟨db, h5, ⟨h6.1, h6.2, h6.3, h6.4⟩⟩, fun σ hσ => h7 σ ?_⟩
  · obtain ⟨x1, x2, x3, x4⟩ := h2.4 l o a b
    rw [hbins]
    exact ⟨x1, x2, x3, x4⟩
  · have hk'' : s.lev l < L ∨ s.pos l < k := by
      rcases hk' with hh | hh
      · have hh : s.lev l < L' := hh
        left; omega
      · have hh : s.pos l < k' := hh
        right; omega
    obtain ⟨x1, x2, x3, x4⟩ := h2.5 l r' hv hr' hk''
    refine ⟨(hlive r').2 x1, ?_, fun m hm => x3 m (hsub r' m hm), ?_⟩
    · show ((s.setClause r c).clause r').Watched l
      rw [hcl]
      split
      · rename_i e; subst e; exact (hre l hv hr' hk').1
      · exact x2
    · show ∃ m ∈ ((s.setClause r c).clause r').lits, m ≠ l ∧ s.lev m = s.lev l
      rw [hcl]
      split
      · rename_i e; subst e; exact (hre l hv hr' hk').2
      · exact x4
  · have hif : ∀ {p : Clause → Prop} (r' : Nat), (r' = r → p c) → (r' ≠ r → p (s.clause r')) →
        p ((s.setClause r c).clause r') := by
      intro p r' ha hb
      rw [hcl]
      split
      · rename_i e; exact ha e
      · rename_i e; exact hb e
    refine ⟨fun r' hr' => ?_, fun r' hr' => ?_, fun r' hr' l hl hn => ?_, fun r' hr' l hl => ?_,
      fun r' hr' => ?_, fun a b hab => ?_, fun r' hr' => ?_⟩
    · exact hif (p := fun c => 3 ≤ c.lits.length) r' (fun _ => h.size)
        fun _ => h3.size r' ((hlive r').1 hr')
    · exact hif (p := fun c => c.lits.Nodup) r' (fun _ => h.nodup)
        fun _ => h3.nodup r' ((hlive r').1 hr')
    · exact h3.taut r' ((hlive r').1 hr') l (hsub r' l hl) (hsub r' _ hn)
    · exact h3.valid r' ((hlive r').1 hr') l (hsub r' l hl)
    · exact hif (p := fun c => 2 ≤ c.searched ∧ c.searched < c.lits.length) r'
        (fun _ => h.searched) fun _ => h3.searched r' ((hlive r').1 hr')
    · have := h3.bin a b ((hb a b).1 hab)
      exact ⟨(hb b a).2 this.1, this.2⟩
    · have := h3.last r' hr'
      simpa [Solver.setClause] using this
  · exact ⟨hw.1, hw.2, hw.3, hw.4⟩
  · rintro d (⟨r', hr', hred, rfl⟩ | ⟨a, b, hab, rfl⟩ | hd)
    · have hred' : ((s.setClause r c).clause r').redundant = false := by
        rw [hcl]
        split
        · rename_i e; subst e; exact h.redundant hred
        · exact hred
      obtain ⟨l, hl, hs⟩ := hσ _ (.inl ⟨r', (hlive r').2 hr', hred', rfl⟩)
      exact ⟨l, hsub r' l hl, hs⟩
    · exact hσ _ (.inr (.inl ⟨a, b, (hb a b).2 hab, rfl⟩))
    · exact hσ d (.inr (.inr hd))

/-! ## Removing a clause -/

theorem markGarbage_clause {s : Solver} {r : Nat} (hr : s.Live r) (r' : Nat) :
    (s.markGarbage r).clause r' =
      if r' = r then { s.clause r with garbage := true } else s.clause r' :=
  setClause_clause (s := s.emit (.delete (s.clause r).lits)) r' (clause_lt hr)

theorem markGarbage_live {s : Solver} {r : Nat} (hr : s.Live r) (r' : Nat) :
    (s.markGarbage r).Live r' ↔ r' ≠ r ∧ s.Live r' := by
  unfold Solver.Live
  rw [markGarbage_clause hr]
  split
  · rename_i e; simp [e]
  · rename_i e; simp [e]

theorem OkAt.garbage {orig : Base} [Deletes orig] {G : Assignment → Prop} {s : Solver} {L k : Nat}
    (hok : OkAt orig G L k s) {r : Nat} (hr : s.Live r) {L' k' : Nat} (hL : L' ≤ L) (hk : k' ≤ k)
    (hre : ∀ l, s.values l = 1 → (s.assigned (l / 2)).reason = .large r →
      ¬ (s.lev l < L' ∨ s.pos l < k'))
    (hirr : (s.clause r).redundant = false → ∀ σ, SatFormula σ (s.markGarbage r).irr →
      SatClause σ (s.clause r).lits) : OkAt orig G L' k' (s.markGarbage r) := by
  have hlt := clause_lt hr
  have hcl := markGarbage_clause hr
  have hlive := markGarbage_live hr
  have hcl' : ∀ r', (s.markGarbage r).Live r' → (s.markGarbage r).clause r' = s.clause r' := by
    intro r' h
    rw [hcl, if_neg ((hlive r').1 h).1]
  obtain ⟨⟨h1, h2, h3, h4⟩, ⟨db, h5, h6⟩, h7⟩ := hok
  refine ⟨⟨⟨h1.1, h1.2, h1.3, h1.4, h1.5, h1.6, h1.7, h1.8, h1.9, h1.10, h1.11, h1.12, h1.13⟩,
    ⟨h2.1, h2.2, h2.3, h2.4, fun l r' hv hr' hk' => ?_⟩, ?_, ?_⟩,
    ⟨deleteClause db (s.clause r).lits, Deletes.delete h5 (fun l hl => (h3.valid r hr l hl).1)
      (h6.mem (.inl ⟨r, hr, rfl⟩)), ?_⟩, fun σ hσ => h7 σ ?_⟩
  · have hk'' : s.lev l < L ∨ s.pos l < k := by
      rcases hk' with hh | hh
      · have hh : s.lev l < L' := hh
        left; omega
      · have hh : s.pos l < k' := hh
        right; omega
    obtain ⟨x1, x2, x3, x4⟩ := h2.5 l r' hv hr' hk''
    have hne : r' ≠ r := by rintro rfl; exact hre l hv hr' hk'
    have hl' := (hlive r').2 ⟨hne, x1⟩
    rw [hcl' r' hl']
    exact ⟨hl', x2, x3, x4⟩
  · refine ⟨fun r' hr' => ?_, fun r' hr' => ?_, fun r' hr' => ?_, fun r' hr' => ?_,
      fun r' hr' => ?_, h3.bin, fun r' hr' => ?_⟩
    · rw [hcl' r' hr']; exact h3.size r' ((hlive r').1 hr').2
    · rw [hcl' r' hr']; exact h3.nodup r' ((hlive r').1 hr').2
    · rw [hcl' r' hr']; exact h3.taut r' ((hlive r').1 hr').2
    · rw [hcl' r' hr']; exact h3.valid r' ((hlive r').1 hr').2
    · rw [hcl' r' hr']; exact h3.searched r' ((hlive r').1 hr').2
    · have := h3.last r' hr'
      simpa [Solver.markGarbage, Solver.setClause, Solver.emit] using this
  · have hw := h4.rewire (c := ⟨(s.clause r).lits, true, (s.clause r).redundant, (s.clause r).searched⟩)
      hlt (fun _ _ _ _ => Iff.rfl) (fun _ _ _ h => by cases h) (fun h => by cases h) h4.once
    exact ⟨hw.1, hw.2, hw.3, hw.4⟩
  · refine Covers.delete (h3.nodup r hr) (h3.size r hr) (fun Y => ?_) h6.2 h6.3 h6.4
    have e := copies_set (s := s) hlt
      ⟨(s.clause r).lits, true, (s.clause r).redundant, (s.clause r).searched⟩ Y
    have g : (s.clause r).garbage = false := hr
    rw [g] at e
    have hc : (s.markGarbage r).copies Y =
      (s.setClause r ⟨(s.clause r).lits, true, (s.clause r).redundant,
        (s.clause r).searched⟩).copies Y := rfl
    have := h6.1 Y
    rw [hc]
    simp only [Bool.not_false, Bool.true_and, Bool.not_true, Bool.false_and,
      Bool.false_eq_true, if_false] at e
    omega
  · rintro d (⟨r', hr', hred, rfl⟩ | hd | hd)
    · by_cases e : r' = r
      · subst e; exact hirr hred σ hσ
      · have hl' := (hlive r').2 ⟨e, hr'⟩
        have := hσ _ (.inl ⟨r', hl', by rw [hcl' r' hl']; exact hred, rfl⟩)
        rwa [hcl' r' hl'] at this
    · exact hσ d (.inr (.inl hd))
    · exact hσ d (.inr (.inr hd))

/-- Removing watches of a garbage clause. -/
theorem WatchInv.unwatch {s : Solver} (h : WatchInv s) {r : Nat} (hg : ¬ s.Live r) (a : Nat) :
    WatchInv (s.unwatch a r) := by
  have hsub : ∀ w, (upd s.watches a ((s.watches a).filter fun w => w.ref? ≠ some r) w).Sublist
      (s.watches w) := by
    intro w
    by_cases e : w = a
    · subst e; rw [upd_same]; exact List.filter_sublist
    · rw [upd_other _ _ e]; exact List.Sublist.refl _
  refine ⟨fun r' hr' w hw => ?_, fun w y z hz => h.inarena w y z ((hsub w).subset hz),
    fun w y z hz => h.back w y z ((hsub w).subset hz),
    fun w => ((hsub w).filterMap _).nodup (h.once w)⟩
  refine (h.watched r' hr' w hw).imp ?_ id
  rintro ⟨y, hy⟩
  refine ⟨y, ?_⟩
  show _ ∈ upd _ _ _ _
  by_cases e : w = a
  · subst e; rw [upd_same, List.mem_filter]
    refine ⟨hy, ?_⟩
    have : r' ≠ r := fun e => hg (e ▸ hr')
    simpa [Watch.ref?] using this
  · rw [upd_other _ _ e]; exact hy

theorem unwatch_bin (s : Solver) (a r : Nat) : SameBin (s.unwatch a r).watches s.watches := by
  intro w o
  show List.count _ (upd _ _ _ _) = _
  by_cases e : w = a
  · subst e; rw [upd_same, List.count_filter (by simp [Watch.ref?])]
  · rw [upd_other _ _ e]

theorem OkAt.unwatch {orig : Base} {G : Assignment → Prop} {s : Solver} {L k : Nat}
    (h : OkAt orig G L k s) {r : Nat} (hg : ¬ s.Live r) (a : Nat) :
    OkAt orig G L k (s.unwatch a r) :=
  h.rewatch (unwatch_bin s a r) (h.inv.watch.unwatch hg a)

/-! ## Adding a binary clause -/

theorem watchBinary_mem (s : Solver) (a b w : Nat) (x : Watch) :
    x ∈ (s.watchBinary a b).watches w ↔
      x ∈ s.watches w ∨ (w = a ∧ x = .binary b) ∨ (w = b ∧ x = .binary a) := by
  unfold Solver.watchBinary Solver.pushWatch
  show x ∈ upd (upd s.watches a _) b (upd s.watches a _ b ++ _) w ↔ _
  by_cases hb : w = b
  · subst hb; rw [upd_same]
    by_cases ha : w = a
    · subst ha; rw [upd_same]; simp
    · rw [upd_other _ _ ha]; simp [ha]
  · rw [upd_other _ _ hb]
    by_cases ha : w = a
    · subst ha; rw [upd_same]; simp [hb]
    · rw [upd_other _ _ ha]; simp [ha, hb]

theorem watchBinary_count {a b : Nat} (hab : a ≠ b) (s : Solver) (w o : Nat) :
    ((s.watchBinary a b).watches w).count (.binary o) ≤
      (s.watches w).count (.binary o) + (if sameLits [w, o] [a, b] then 1 else 0) := by
  unfold Solver.watchBinary Solver.pushWatch
  show List.count _ (upd (upd s.watches a _) b (upd s.watches a _ b ++ _) w) ≤ _
  have one : ∀ x y : Nat, (sameLits [w, o] [a, b] = false → y ≠ o) →
      List.count (Watch.binary o) (s.watches w ++ [Watch.binary y]) ≤
      (s.watches w).count (.binary o) + (if sameLits [w, o] [a, b] then 1 else 0) := by
    intro x y hy
    rw [List.count_append, List.count_singleton]
    cases h : sameLits [w, o] [a, b] with
    | true => simp only [if_true]; split <;> omega
    | false =>
      have := hy h
      simp [this]
  by_cases hb : w = b
  · subst hb; rw [upd_same, upd_other _ _ (Ne.symm hab)]
    refine one 0 a fun h => ?_
    rintro rfl
    rw [← Bool.not_eq_true, sameLits_iff] at h
    exact h fun l => by simp [or_comm]
  · rw [upd_other _ _ hb]
    by_cases ha : w = a
    · subst ha; rw [upd_same]
      refine one 0 b fun h => ?_
      rintro rfl
      rw [← Bool.not_eq_true, sameLits_iff] at h
      exact h fun l => Iff.rfl
    · rw [upd_other _ _ ha]; exact Nat.le_add_right _ _

theorem watchBinary_refs (s : Solver) (a b w : Nat) :
    ((s.watchBinary a b).watches w).filterMap Watch.ref? = (s.watches w).filterMap Watch.ref? := by
  unfold Solver.watchBinary Solver.pushWatch
  show (upd (upd s.watches a _) b (upd s.watches a _ b ++ _) w).filterMap _ = _
  by_cases hb : w = b
  · subst hb; rw [upd_same]
    by_cases ha : w = a
    · subst ha; rw [upd_same]; simp [Watch.ref?]
    · rw [upd_other _ _ ha]; simp [Watch.ref?]
  · rw [upd_other _ _ hb]
    by_cases ha : w = a
    · subst ha; rw [upd_same]; simp [Watch.ref?]
    · rw [upd_other _ _ ha]

theorem OkAt.addBinary {orig : Base} {G : Assignment → Prop} {s : Solver} {L k : Nat}
    (h : OkAt orig G L k s) {a b : Nat} (hr : RUP s.formula [a, b]) (hab : a ≠ b) (hn : a ≠ neg b)
    (hva : s.Valid a) (hvb : s.Valid b) :
    OkAt orig G L k ((s.watchBinary a b).emit (.add [a, b])) := by
  have hmem := watchBinary_mem s a b
  have hold : ∀ w x, x ∈ s.watches w → x ∈ (s.watchBinary a b).watches w :=
    fun w x hx => (hmem w x).2 (.inl hx)
  have hlarge : ∀ w y z, Watch.large y z ∈ (s.watchBinary a b).watches w →
      Watch.large y z ∈ s.watches w := by
    intro w y z hx
    rcases (hmem w _).1 hx with hx | ⟨_, hx⟩ | ⟨_, hx⟩
    · exact hx
    · cases hx
    · cases hx
  obtain ⟨⟨h1, h2, h3, h4⟩, ⟨db, h5, h6⟩, h7⟩ := h
  refine ⟨⟨⟨h1.1, h1.2, h1.3, h1.4, h1.5, h1.6, h1.7, h1.8, h1.9, h1.10, h1.11, h1.12, h1.13⟩,
    ⟨h2.1, h2.2, h2.3, fun l o hv hre => ?_, h2.5⟩,
    ⟨h3.1, h3.2, h3.3, h3.4, h3.5, fun x y hxy => ?_, h3.7⟩,
    ⟨fun r hr w hw => ?_, fun w y z hz => h4.inarena w y z (hlarge w y z hz),
      fun w y z hz => h4.back w y z (hlarge w y z hz), fun w => ?_⟩⟩,
    ⟨[a, b] :: db, orig.add h5 (h6.rup hr)
      (fun l hl => by simp at hl; rcases hl with rfl | rfl; exact hva.1; exact hvb.1), ⟨fun Y => ?_, fun x y => ?_, fun l h h' => ?_,
      fun hi => .tail _ (h6.4 hi)⟩⟩, fun σ hσ => h7 σ ?_⟩
  · obtain ⟨x1, x2, x3, x4⟩ := h2.4 l o hv hre
    refine ⟨x1, x2, x3, x4.mono (fun c hc => ⟨c, ?_, .refl c⟩) fun _ h => .assumed h⟩
    obtain ⟨p, q, hpq, e⟩ := hc
    exact ⟨p, q, hold _ _ hpq, e⟩
  · rcases (hmem x _).1 hxy with hx | ⟨rfl, hx⟩ | ⟨rfl, hx⟩
    · have := h3.bin x y hx
      exact ⟨hold _ _ this.1, this.2⟩
    · cases hx
      exact ⟨(hmem _ _).2 (.inr (.inr ⟨rfl, rfl⟩)), hab, hn, hva, hvb⟩
    · cases hx
      refine ⟨(hmem _ _).2 (.inr (.inl ⟨rfl, rfl⟩)), hab.symm, fun e => hn ?_, hvb, hva⟩
      rw [e, Spec.neg_neg]
  · refine (h4.watched r hr w hw).imp ?_ id
    rintro ⟨y, hy⟩
    exact ⟨y, hold _ _ hy⟩
  · have := h4.once w
    rw [← watchBinary_refs s a b w] at this
    exact this
  · have : s.copies Y ≤ ([a, b] :: db).countP (sameLits Y) := by
      rw [List.countP_cons]
      exact Nat.le_trans (h6.1 Y) (Nat.le_add_right _ _)
    exact this
  · rw [List.countP_cons]
    exact Nat.le_trans (watchBinary_count hab s x y) (Nat.add_le_add_right (h6.2 x y) _)
  · obtain ⟨d, hd, hs⟩ := h6.3 l h h'; exact ⟨d, .tail _ hd, hs⟩
  · rintro d (hd | ⟨p, q, hpq, e⟩ | hd)
    · exact hσ d (.inl hd)
    · exact hσ d (.inr (.inl ⟨p, q, hold _ _ hpq, e⟩))
    · exact hσ d (.inr (.inr hd))

/-! ## Adding a large clause -/

theorem watchReference_mem (s : Solver) {a b : Nat} (hab : a ≠ b) (r w : Nat) (x : Watch) :
    x ∈ (s.watchReference a b r).watches w ↔
      x ∈ s.watches w ∨ (w = a ∧ x = .large b r) ∨ (w = b ∧ x = .large a r) := by
  unfold Solver.watchReference Solver.pushWatch
  show x ∈ upd (upd s.watches a _) b (upd s.watches a _ b ++ _) w ↔ _
  by_cases hb : w = b
  · subst hb; rw [upd_same, upd_other _ _ (Ne.symm hab)]; simp [Ne.symm hab]
  · rw [upd_other _ _ hb]
    by_cases ha : w = a
    · subst ha; rw [upd_same]; simp [hb]
    · rw [upd_other _ _ ha]; simp [ha, hb]

theorem watchReference_bin (s : Solver) {a b : Nat} (hab : a ≠ b) (r : Nat) :
    SameBin (s.watchReference a b r).watches s.watches := by
  intro w o
  unfold Solver.watchReference Solver.pushWatch
  show List.count _ (upd (upd s.watches a _) b (upd s.watches a _ b ++ _) w) = _
  by_cases hb : w = b
  · subst hb; rw [upd_same, upd_other _ _ (Ne.symm hab), List.count_append]; simp
  · rw [upd_other _ _ hb]
    by_cases ha : w = a
    · subst ha; rw [upd_same, List.count_append]; simp
    · rw [upd_other _ _ ha]

theorem watchReference_refs (s : Solver) {a b : Nat} (hab : a ≠ b) (r w : Nat) :
    ((s.watchReference a b r).watches w).filterMap Watch.ref? =
      (s.watches w).filterMap Watch.ref? ++ if w = a ∨ w = b then [r] else [] := by
  unfold Solver.watchReference Solver.pushWatch
  show (upd (upd s.watches a _) b (upd s.watches a _ b ++ _) w).filterMap _ = _
  by_cases hb : w = b
  · subst hb; rw [upd_same, upd_other _ _ (Ne.symm hab)]; simp [Watch.ref?]
  · rw [upd_other _ _ hb]
    by_cases ha : w = a
    · subst ha; rw [upd_same]; simp [Watch.ref?]
    · rw [upd_other _ _ ha]; simp [ha, hb]

theorem append_clause {s : Solver} {c : Clause} (r : Nat) :
    ({ s with arena := s.arena ++ [c] } : Solver).clause r =
      if r = s.arena.length then c else s.clause r := by
  unfold Solver.clause
  simp only [List.getD_eq_getElem?_getD, List.getElem?_append]
  by_cases h : r < s.arena.length
  · rw [if_pos h, if_neg (by omega)]
  · rw [if_neg h]
    by_cases e : r = s.arena.length
    · rw [if_pos e, e]; simp
    · rw [if_neg e, List.getElem?_eq_none (by simp; omega), List.getElem?_eq_none (by omega)]

theorem newRedundant_clause (s : Solver) (lits : List Nat) (r : Nat) :
    (newRedundant s lits).clause r =
      if r = s.arena.length then ⟨lits, false, true, 2⟩ else s.clause r :=
  append_clause r

theorem newRedundant_live (s : Solver) (lits : List Nat) (r : Nat) :
    (newRedundant s lits).Live r ↔ r = s.arena.length ∨ s.Live r := by
  unfold Solver.Live
  rw [newRedundant_clause]
  split
  · rename_i e; simp [e]
  · rename_i e; simp [e]

theorem OkAt.addLarge {orig : Base} {G : Assignment → Prop} {s : Solver} {L k : Nat}
    (h : OkAt orig G L k s) {a b : Nat} {rest : List Nat}
    (hr : RUP s.formula (a :: b :: rest)) (hne : rest ≠ []) (hnd : (a :: b :: rest).Nodup)
    (htaut : ∀ l ∈ a :: b :: rest, neg l ∉ a :: b :: rest)
    (hv : ∀ l ∈ a :: b :: rest, s.Valid l) :
    OkAt orig G L k (newRedundant s (a :: b :: rest)) := by
  have hab : a ≠ b := by rintro rfl; simp at hnd
  have hlen : 3 ≤ (a :: b :: rest).length := by
    have := List.length_pos_iff.2 hne
    simp; omega
  have hcl := newRedundant_clause s (a :: b :: rest)
  have hlive := newRedundant_live s (a :: b :: rest)
  have hmem : ∀ w x, x ∈ (newRedundant s (a :: b :: rest)).watches w ↔
      x ∈ s.watches w ∨ (w = a ∧ x = .large b s.arena.length) ∨
        (w = b ∧ x = .large a s.arena.length) := fun w x =>
    watchReference_mem { s with arena := s.arena ++ [⟨a :: b :: rest, false, true, 2⟩] } hab
      s.arena.length w x
  have hB : SameBin (newRedundant s (a :: b :: rest)).watches s.watches :=
    watchReference_bin { s with arena := s.arena ++ [⟨a :: b :: rest, false, true, 2⟩] } hab _
  have hbin := hB.iff
  have hbins : (newRedundant s (a :: b :: rest)).bins = s.bins := by
    funext c
    unfold Solver.bins
    simp only [hbin]
  have hif : ∀ {p : Clause → Prop} (r' : Nat), (r' = s.arena.length → p ⟨a :: b :: rest, false, true, 2⟩) →
      (r' ≠ s.arena.length → p (s.clause r')) → p ((newRedundant s (a :: b :: rest)).clause r') := by
    intro p r' ha hb
    rw [hcl]
    split
    · rename_i e; exact ha e
    · rename_i e; exact hb e
  have hold : ∀ r', (newRedundant s (a :: b :: rest)).Live r' → r' ≠ s.arena.length → s.Live r' :=
    fun r' h hne => ((hlive r').1 h).resolve_left hne
  have hlen' : (newRedundant s (a :: b :: rest)).arena.length = s.arena.length + 1 := by
    show (s.arena ++ [_]).length = _; simp
  obtain ⟨⟨h1, h2, h3, h4⟩, ⟨db, h5, h6⟩, h7⟩ := h
  refine ⟨⟨⟨h1.1, h1.2, h1.3, h1.4, h1.5, h1.6, h1.7, h1.8, h1.9, h1.10, h1.11, h1.12, h1.13⟩,
    ⟨h2.1, h2.2, h2.3, fun l o hv' hre => ?_, fun l r' hv' hr' hk' => ?_⟩, ?_, ?_⟩,
    ⟨(a :: b :: rest) :: db, orig.add h5 (h6.rup hr) (fun l hl => (hv l hl).1), ⟨fun Y => ?_, fun x y => ?_,
      fun l h h' => ?_, fun hi => .tail _ (h6.4 hi)⟩⟩, fun σ hσ => h7 σ ?_⟩
  · rw [hbins]; exact h2.4 l o hv' hre
  · obtain ⟨x1, x2, x3, x4⟩ := h2.5 l r' hv' hr' hk'
    have hne : r' ≠ s.arena.length := by have := clause_lt x1; omega
    rw [hcl, if_neg hne]
    exact ⟨(hlive r').2 (.inr x1), x2, x3, x4⟩
  · refine ⟨fun r' hr' => ?_, fun r' hr' => ?_, fun r' hr' => ?_, fun r' hr' => ?_,
      fun r' hr' => ?_, fun x y hxy => ?_, fun r' hr' => ?_⟩
    · exact hif (p := fun c => 3 ≤ c.lits.length) r' (fun _ => hlen)
        fun e => h3.size r' (hold r' hr' e)
    · exact hif (p := fun c => c.lits.Nodup) r' (fun _ => hnd) fun e => h3.nodup r' (hold r' hr' e)
    · exact hif (p := fun c => ∀ l ∈ c.lits, neg l ∉ c.lits) r' (fun _ => htaut)
        fun e => h3.taut r' (hold r' hr' e)
    · exact hif (p := fun c => ∀ l ∈ c.lits, s.Valid l) r' (fun _ => hv)
        fun e => h3.valid r' (hold r' hr' e)
    · exact hif (p := fun c => 2 ≤ c.searched ∧ c.searched < c.lits.length) r'
        (fun _ => ⟨Nat.le_refl _, hlen⟩) fun e => h3.searched r' (hold r' hr' e)
    · have := h3.bin x y ((hbin x y).1 hxy)
      exact ⟨(hbin y x).2 this.1, this.2⟩
    · have := h3.last r' hr'
      omega
  · refine ⟨fun r' hr' w hw => ?_, fun w y z hz => ?_, fun w y z hz hz' => ?_, fun w => ?_⟩
    · by_cases e : r' = s.arena.length
      · rw [hcl, if_pos e] at hw
        subst e
        rcases hw with hw | hw
        · have hw : some a = some w := hw
          cases hw
          exact .inl ⟨b, (hmem _ _).2 (.inr (.inl ⟨rfl, rfl⟩))⟩
        · have hw : some b = some w := hw
          cases hw
          exact .inl ⟨a, (hmem _ _).2 (.inr (.inr ⟨rfl, rfl⟩))⟩
      · rw [hcl, if_neg e] at hw ⊢
        refine (h4.watched r' (hold r' hr' e) w hw).imp ?_ id
        rintro ⟨y, hy⟩
        exact ⟨y, (hmem _ _).2 (.inl hy)⟩
    · rw [hlen']
      rcases (hmem _ _).1 hz with hz | ⟨_, hz⟩ | ⟨_, hz⟩
      · have := h4.inarena w y z hz; omega
      · cases hz; omega
      · cases hz; omega
    · rcases (hmem _ _).1 hz with hq | ⟨e1, hq⟩ | ⟨e1, hq⟩
      · have := h4.inarena w y z hq
        have e : z ≠ s.arena.length := by omega
        rw [hcl, if_neg e]
        exact h4.back w y z hq (hold z hz' e)
      · clear hz; subst e1; cases hq
        rw [hcl, if_pos rfl]
        exact ⟨.inl rfl, by simp⟩
      · clear hz; subst e1; cases hq
        rw [hcl, if_pos rfl]
        exact ⟨.inr rfl, by simp⟩
    · have e := watchReference_refs { s with arena := s.arena ++ [⟨a :: b :: rest, false, true, 2⟩] }
        hab s.arena.length w
      show (List.filterMap _ ((Solver.watchReference _ a b s.arena.length).watches w)).Nodup
      rw [e, List.nodup_append]
      refine ⟨h4.once w, by split <;> simp, fun x hx y hy exy => ?_⟩
      subst exy
      have : x = s.arena.length := by
        split at hy
        · simpa using hy
        · cases hy
      subst this
      obtain ⟨y, hy, hyr⟩ := List.mem_filterMap.1 hx
      cases y with
      | binary o => cases hyr
      | large y z =>
        have hyr : some z = some s.arena.length := hyr
        cases hyr
        have := h4.inarena w y _ hy
        omega
  · have h := h6.1 Y
    have e : (newRedundant s (a :: b :: rest)).copies Y =
        s.copies Y + (if sameLits Y (a :: b :: rest) then 1 else 0) := by
      show List.countP _ (s.arena ++ [_]) = _
      rw [List.countP_append]
      simp [Solver.copies, List.countP_cons]
    rw [e, List.countP_cons]
    omega
  · rw [List.countP_cons, hB x y]
    exact Nat.le_trans (h6.2 x y) (Nat.le_add_right _ _)
  · obtain ⟨d, hd, hs⟩ := h6.3 l h h'; exact ⟨d, .tail _ hd, hs⟩
  · rintro d (⟨r', hr', hred, rfl⟩ | ⟨p, q, hpq, e⟩ | hd)
    · have hne : r' ≠ s.arena.length := by have := clause_lt hr'; omega
      have := hσ ((newRedundant s (a :: b :: rest)).clause r').lits
        (.inl ⟨r', (hlive r').2 (.inr hr'), by rw [hcl, if_neg hne]; exact hred, rfl⟩)
      rwa [hcl, if_neg hne] at this
    · exact hσ d (.inr (.inl ⟨p, q, (hbin _ _).2 hpq, e⟩))
    · exact hσ d (.inr (.inr hd))

/-! ## The watch invariant under such changes -/

theorem WatchingX.edit {s s' : Solver} {kk : Nat} {A B A' B' : Nat → Nat → Prop}
    (h : WatchingX s kk A B) (hv : s'.values = s.values) (ha : s'.assigned = s.assigned)
    (ht : s'.trail = s.trail) (hf : s'.frames = s.frames) (hlo : s'.loose = s.loose)
    (hl : ∀ r w, ¬ A' r w → s'.Live r → (s'.clause r).Watched w →
      ¬ A r w ∧ s.Live r ∧ (s'.clause r).lits = (s.clause r).lits)
    (hb : ∀ w o, ¬ B' w o → Watch.binary o ∈ s'.watches w →
      ¬ B w o ∧ Watch.binary o ∈ s.watches w) : WatchingX s' kk A' B' := by
  have key : ∀ c w, s.Satisfying c w → s'.Satisfying c w := by
    rintro c w ⟨t, htc, hvt, hh⟩
    refine ⟨t, htc, by rw [hv]; exact hvt, fun j f hj hd => ?_⟩
    rw [hf] at hj
    rw [ht] at hd
    have := hh j f hj hd
    unfold Solver.lev at this ⊢
    rw [ha]; exact this
  refine ⟨fun r w hn hr hw hv' hd => ?_, fun w o hn hw hv' hd => ?_⟩
  · obtain ⟨h1, h2, h3⟩ := hl r w hn hr hw
    rw [h3]
    rw [hv] at hv'
    rw [ht] at hd
    have hw' : ∀ v, (s'.clause r).Watched v ↔ (s.clause r).Watched v := fun v => by
      unfold Clause.Watched; rw [h3]
    refine (h.large r w h1 h2 ((hw' w).1 hw) hv' hd).imp (key _ _) ?_
    rintro ⟨e1, e2, v, e3, e4, e5, e6⟩
    refine ⟨hlo.trans e1, ?_, v, (hw' v).2 e3, e4, fun k1 k2 => ?_, by rw [h3, hv, ht]; exact e6⟩
    · unfold Solver.lev at e2 ⊢
      rw [ha]; exact e2
    · rw [h3]
      rw [hv] at k1
      rw [ht] at k2
      exact key _ _ (e5 k1 k2)
  · obtain ⟨h1, h2⟩ := hb w o hn hw
    rw [hv] at hv'
    rw [ht] at hd
    exact key _ _ (h.binary w o h1 h2 hv' hd)

end Verif.Core
