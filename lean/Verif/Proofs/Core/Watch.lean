import Verif.Proofs.Core.Ok

/-! # Changing watch lists and permuting clauses -/

namespace Verif.Core

open Verif.Spec

/-- Fields the invariants do not depend on. -/
theorem Inv.misc {s : Solver} (h : Inv s) (p : Nat) (i it : Bool) (c d : Nat) (pr : List Line)
    (o : Options) :
    Inv { s with propagate := p, inconsistent := i, iterating := it, conflicts := c,
                 decisions := d, proof := pr, options := o } := by
  obtain ⟨h1, h2, h3, h4⟩ := h
  exact ⟨⟨h1.1, h1.2, h1.3, h1.4, h1.5, h1.6, h1.7, h1.8, h1.9, h1.10, h1.11, h1.12, h1.13⟩,
    ⟨h2.1, h2.2, h2.3, h2.4, h2.5⟩, ⟨h3.1, h3.2, h3.3, h3.4, h3.5, h3.6, h3.7⟩,
    ⟨h4.1, h4.2, h4.3, h4.4⟩⟩

theorem Watching.misc {s : Solver} {k : Nat} (h : Watching s k) (p : Nat) (i it : Bool)
    (c d : Nat) (pr : List Line) (o : Options) :
    Watching { s with propagate := p, inconsistent := i, iterating := it, conflicts := c,
                      decisions := d, proof := pr, options := o } k := ⟨h.1, h.2⟩

theorem Ok.misc {orig : Base} {G : Assignment → Prop} {s : Solver} (h : Ok orig G s)
    (p : Nat) (it : Bool) (c d : Nat) (o : Options) :
    Ok orig G { s with propagate := p, iterating := it, conflicts := c, decisions := d,
                       options := o } := by
  obtain ⟨h1, ⟨db, h2, h3⟩, h4⟩ := h
  exact ⟨h1.misc p s.inconsistent it c d s.proof o, ⟨db, h2, ⟨h3.1, h3.2, h3.3, h3.4⟩⟩, h4⟩

/-! ## Watch lists -/

theorem OkAt.rewatch {orig : Base} {G : Assignment → Prop} {s : Solver} {L k : Nat}
    (h : OkAt orig G L k s)
    {W : Nat → List Watch} (hB : SameBin W s.watches)
    (hw : WatchInv { s with watches := W }) : OkAt orig G L k { s with watches := W } := by
  have hb := hB.iff
  have hbins : ({ s with watches := W } : Solver).bins = s.bins := by
    funext c
    unfold Solver.bins
    simp only [hb]
  have hirr : ({ s with watches := W } : Solver).irr = s.irr := by
    funext c
    unfold Solver.irr
    simp only [hb]
    rfl
  obtain ⟨⟨h1, h2, h3, _⟩, ⟨db, h5, h6⟩, h7⟩ := h
  refine ⟨⟨⟨h1.1, h1.2, h1.3, h1.4, h1.5, h1.6, h1.7, h1.8, h1.9, h1.10, h1.11, h1.12, h1.13⟩,
    ⟨h2.1, h2.2, h2.3, fun l o a b => by rw [hbins]; exact h2.4 l o a b, h2.5⟩,
    ⟨h3.1, h3.2, h3.3, h3.4, h3.5, fun a b hab => ?_, h3.7⟩, hw⟩,
    ⟨db, h5, ⟨h6.1, fun a b => hB a b ▸ h6.2 a b, h6.3, h6.4⟩⟩,
    fun σ hσ => h7 σ (hirr ▸ hσ)⟩
  have := h3.bin a b ((hb a b).1 hab)
  exact ⟨(hb b a).2 this.1, this.2⟩

theorem Ok.rewatch {orig : Base} {G : Assignment → Prop} {s : Solver} (h : Ok orig G s)
    {W : Nat → List Watch} (hB : SameBin W s.watches)
    (hw : WatchInv { s with watches := W }) : Ok orig G { s with watches := W } :=
  ((h.at (s.level + 1) 0 (Nat.le_refl _)).rewatch hB hw).ok

theorem Watching.rewatch {s : Solver} {k : Nat} (h : Watching s k) {W : Nat → List Watch}
    (hB : SameBin W s.watches) :
    Watching { s with watches := W } k :=
  ⟨h.1, fun w o hw => h.2 w o ((hB.iff w o).1 hw)⟩

/-- Dropping the watch of a garbage clause. -/
theorem WatchInv.drop {s : Solver} (h : WatchInv s) {a b r : Nat} {pre post : List Watch}
    (e : s.watches a = pre ++ .large b r :: post) (hg : ¬ s.Live r) :
    WatchInv { s with watches := upd s.watches a (pre ++ post) } := by
  have sub : ∀ w x, x ∈ upd s.watches a (pre ++ post) w → x ∈ s.watches w := by
    intro w x hx
    by_cases hw : w = a
    · subst hw; rw [upd_same] at hx; rw [e]
      simp only [List.mem_append, List.mem_cons] at hx ⊢
      rcases hx with hx | hx
      · exact .inl hx
      · exact .inr (.inr hx)
    · rwa [upd_other _ _ hw] at hx
  refine ⟨fun r' hr' w hw => ?_, fun w b r' hx => h.inarena w b r' (sub _ _ hx),
    fun w b r' hx => h.back w b r' (sub _ _ hx), fun w => ?_⟩
  · refine (h.watched r' hr' w hw).imp ?_ id
    rintro ⟨b', hb'⟩
    refine ⟨b', ?_⟩
    show _ ∈ upd _ _ _ _
    by_cases hwa : w = a
    · subst hwa; rw [upd_same]; rw [e] at hb'
      simp only [List.mem_append, List.mem_cons] at hb' ⊢
      rcases hb' with hx | hx | hx
      · exact .inl hx
      · injection hx with _ hx; subst hx; exact absurd hr' hg
      · exact .inr hx
    · rwa [upd_other _ _ hwa]
  · show (List.filterMap _ (upd _ _ _ _)).Nodup
    by_cases hwa : w = a
    · subst hwa; rw [upd_same]
      have := h.once w
      rw [e] at this
      refine List.Nodup.sublist ?_ this
      exact (List.Sublist.append_left (List.sublist_cons_self _ _) _).filterMap _
    · rw [upd_other _ _ hwa]; exact h.once w

/-- Changing the blocking literal. -/
theorem WatchInv.block {s : Solver} (h : WatchInv s) {a b b' r : Nat} {pre post : List Watch}
    (e : s.watches a = pre ++ .large b r :: post) (hb : b' ∈ (s.clause r).lits) :
    WatchInv { s with watches := upd s.watches a (pre ++ .large b' r :: post) } := by
  have old : ∀ w b₁ r', Watch.large b₁ r' ∈ upd s.watches a (pre ++ .large b' r :: post) w →
      ∃ b₂, Watch.large b₂ r' ∈ s.watches w ∧ (b₁ = b₂ ∨ r' = r ∧ b₁ = b') := by
    intro w b₁ r' hx
    by_cases hw : w = a
    · subst hw; rw [upd_same] at hx; rw [e]
      simp only [List.mem_append, List.mem_cons] at hx ⊢
      rcases hx with hx | hx | hx
      · exact ⟨b₁, .inl hx, .inl rfl⟩
      · injection hx with h1 h2; subst h1 h2; exact ⟨b, .inr (.inl rfl), .inr ⟨rfl, rfl⟩⟩
      · exact ⟨b₁, .inr (.inr hx), .inl rfl⟩
    · rw [upd_other _ _ hw] at hx; exact ⟨b₁, hx, .inl rfl⟩
  refine ⟨fun r' hr' w hw => ?_, fun w b₁ r' hx => ?_, fun w b₁ r' hx hr' => ?_, fun w => ?_⟩
  · refine (h.watched r' hr' w hw).imp ?_ id
    rintro ⟨b₂, hb₂⟩
    show ∃ b, _ ∈ upd _ _ _ _
    by_cases hwa : w = a
    · subst hwa; rw [upd_same]; rw [e] at hb₂
      simp only [List.mem_append, List.mem_cons] at hb₂ ⊢
      rcases hb₂ with hx | hx | hx
      · exact ⟨_, .inl hx⟩
      · injection hx with _ hx; subst hx; exact ⟨_, .inr (.inl rfl)⟩
      · exact ⟨_, .inr (.inr hx)⟩
    · rw [upd_other _ _ hwa]; exact ⟨_, hb₂⟩
  · obtain ⟨b₂, h1, _⟩ := old w b₁ r' hx; exact h.inarena w b₂ r' h1
  · obtain ⟨b₂, h1, h2⟩ := old w b₁ r' hx
    have := h.back w b₂ r' h1 hr'
    refine ⟨this.1, ?_⟩
    rcases h2 with rfl | ⟨rfl, rfl⟩
    · exact this.2
    · exact hb
  · show (List.filterMap _ (upd _ _ _ _)).Nodup
    by_cases hwa : w = a
    · subst hwa; rw [upd_same]
      have := h.once w
      rw [e] at this
      rw [List.filterMap_append, List.filterMap_cons] at this ⊢
      exact this
    · rw [upd_other _ _ hwa]; exact h.once w

theorem mem_remove_large {W : Nat → List Watch} {a r b : Nat} {pre post mid : List Watch}
    (e : W a = pre ++ .large b r :: post) (hm : ∀ x ∈ mid, ∃ y z, x = .large y z) :
    SameBin (upd W a (pre ++ mid ++ post)) W := by
  intro w o
  by_cases hw : w = a
  · subst hw; rw [upd_same, e]
    have h0 : mid.count (.binary o) = 0 :=
      List.count_eq_zero.2 fun h => by obtain ⟨_, _, h⟩ := hm _ h; cases h
    rw [List.count_append, List.count_append, List.count_append,
      List.count_cons_of_ne (by intro h; cases h), h0]
    rfl
  · rw [upd_other _ _ hw]

/-! ## Moving a watch -/

/-- The new clause after replacing the watched literal `a` by the literal `b` at
position `2 + i`. -/
theorem replace_perm {x y i a b other : Nat} {rest : List Nat}
    (hxy : x = other ∧ y = a ∨ x = a ∧ y = other) (hi : rest[i]? = some b) :
    ((((x :: y :: rest).set 0 other).set 1 b).set (2 + i) a).Perm (x :: y :: rest) := by
  have hlt := (List.getElem?_eq_some_iff.1 hi).1
  have hget := (List.getElem?_eq_some_iff.1 hi).2
  rw [show 2 + i = i + 1 + 1 by omega]
  simp only [List.set_cons_zero, List.set_cons_succ]
  have e1 : rest.set i a = rest.take i ++ a :: rest.drop (i + 1) := by
    rw [List.set_eq_take_append_cons_drop, if_pos hlt]
  have e2 : rest = rest.take i ++ b :: rest.drop (i + 1) := by
    conv => lhs; rw [← List.take_append_drop i rest]
    rw [List.drop_eq_getElem_cons hlt, hget]
  rw [e1]
  have p : (other :: b :: (rest.take i ++ a :: rest.drop (i + 1))).Perm
      (other :: a :: rest) := by
    refine List.Perm.cons _ ?_
    conv => rhs; rw [e2]
    refine (List.Perm.cons _ List.perm_middle).trans ?_
    refine (List.Perm.swap _ _ _).trans ?_
    exact List.Perm.cons _ List.perm_middle.symm
  refine p.trans ?_
  rcases hxy with ⟨rfl, rfl⟩ | ⟨rfl, rfl⟩
  · exact .refl _
  · exact List.Perm.swap _ _ _

/-- A clause whose literals are permuted without touching reasons. -/
structure Permuted (s : Solver) (r : Nat) (c : Clause) : Prop where
  live : s.Live r
  perm : c.lits.Perm (s.clause r).lits
  garbage : c.garbage = false
  redundant : c.redundant = (s.clause r).redundant
  searched : 2 ≤ c.searched ∧ c.searched < c.lits.length

namespace Permuted
variable {s : Solver} {r : Nat} {c : Clause} (h : Permuted s r c)
include h

theorem lt : r < s.arena.length := clause_lt h.live

theorem live_iff (r' : Nat) : (s.setClause r c).Live r' ↔ s.Live r' := by
  unfold Solver.Live
  rw [setClause_clause r' h.lt]
  split
  · rename_i e; subst e; rw [h.garbage]; exact ⟨fun _ => h.live, fun _ => rfl⟩
  · rfl

theorem lits_perm (r' : Nat) : ((s.setClause r c).clause r').lits.Perm (s.clause r').lits := by
  rw [setClause_clause r' h.lt]
  split
  · rename_i e; subst e; exact h.perm
  · exact .refl _

theorem red (r' : Nat) : ((s.setClause r c).clause r').redundant = (s.clause r').redundant := by
  rw [setClause_clause r' h.lt]
  split
  · rename_i e; subst e; exact h.redundant
  · rfl

theorem mem_iff (r' l : Nat) : l ∈ ((s.setClause r c).clause r').lits ↔ l ∈ (s.clause r').lits :=
  (h.lits_perm r').mem_iff

theorem formula_to {d : List Nat} (hd : s.formula d) :
    ∃ d', (s.setClause r c).formula d' ∧ SameLits d d' := by
  rcases hd with ⟨r', hr', rfl⟩ | hd | hd
  · exact ⟨_, .inl ⟨r', (h.live_iff r').2 hr', rfl⟩, fun l => (h.mem_iff r' l).symm⟩
  · exact ⟨d, .inr (.inl hd), .refl d⟩
  · exact ⟨d, .inr (.inr hd), .refl d⟩

theorem up {A : Nat → Prop} {l : Nat} (hu : UP s.formula A l) :
    UP (s.setClause r c).formula A l :=
  hu.mono (fun _ hc => h.formula_to hc) (fun _ ha => .assumed ha)

theorem irr {σ : Assignment} (hσ : SatFormula σ (s.setClause r c).irr) :
    SatFormula σ s.irr := by
  rintro d (⟨r', hr', hred, rfl⟩ | hd | hd)
  · have := hσ _ (.inl ⟨r', (h.live_iff r').2 hr', by rw [h.red]; exact hred, rfl⟩)
    exact (satClause_same (fun l => h.mem_iff r' l)).1 this
  · exact hσ d (.inr (.inl hd))
  · exact hσ d (.inr (.inr hd))

theorem copies (X : List Nat) : (s.setClause r c).copies X = s.copies X := by
  have := copies_set h.lt c X
  have e : sameLits X c.lits = sameLits X (s.clause r).lits := by
    rw [Bool.eq_iff_iff, sameLits_iff, sameLits_iff]
    exact ⟨fun hh l => (hh l).trans h.perm.mem_iff, fun hh l => (hh l).trans h.perm.mem_iff.symm⟩
  have g : (s.clause r).garbage = false := h.live
  rw [e, h.garbage, g] at this
  omega

theorem okAt {orig : Base} {G : Assignment → Prop} {L k : Nat}
    (hok : OkAt orig G L k s)
    {W : Nat → List Watch} (hB : SameBin W s.watches)
    (hr : ∀ l, s.values l = 1 → (s.assigned (l / 2)).reason = .large r →
      (s.lev l < L ∨ s.pos l < k) → c.Watched l)
    (hw : WatchInv { s.setClause r c with watches := W }) :
    OkAt orig G L k { s.setClause r c with watches := W } := by
  have hb := hB.iff
  have hbins : ({ s.setClause r c with watches := W } : Solver).bins = s.bins := by
    funext c
    unfold Solver.bins
    simp only [hb]
  have hirr : ({ s.setClause r c with watches := W } : Solver).irr = (s.setClause r c).irr := by
    funext c
    unfold Solver.irr
    simp only [hb]
    rfl
  obtain ⟨⟨h1, h2, h3, _⟩, ⟨db, h5, h6⟩, h7⟩ := hok
  refine ⟨⟨⟨h1.1, h1.2, h1.3, h1.4, h1.5, h1.6, h1.7, h1.8, h1.9, h1.10, h1.11, h1.12, h1.13⟩,
    ⟨h2.1, h2.2, h2.3, fun l o a b => ?_, fun l r' hv hre hk => ?_⟩, ?_, hw⟩,
    ⟨db, h5, ⟨fun X => ?_, fun a b => hB a b ▸ h6.2 a b, h6.3, h6.4⟩⟩,
    fun σ hσ => h7 σ (h.irr (hirr ▸ hσ))⟩
  · obtain ⟨x1, x2, x3, x4⟩ := h2.4 l o a b
    rw [hbins]
    exact ⟨x1, x2, x3, x4⟩
  · obtain ⟨x1, x2, x3, m', hm', x4⟩ := h2.5 l r' hv hre hk
    refine ⟨(h.live_iff r').2 x1, ?_, fun m hm => x3 m ((h.mem_iff r' m).1 hm),
      m', (h.mem_iff r' m').2 hm', x4⟩
    show ((s.setClause r c).clause r').Watched l
    rw [setClause_clause r' h.lt]
    split
    · rename_i e; subst e; exact hr l hv hre hk
    · exact x2
  · refine ⟨fun r' hr' => ?_, fun r' hr' => ?_, fun r' hr' l hl => ?_, fun r' hr' l hl => ?_,
      fun r' hr' => ?_, fun a b hab => ?_, fun r' hr' => ?_⟩
    · have := h3.size r' ((h.live_iff r').1 hr')
      rw [← (h.lits_perm r').length_eq] at this; exact this
    · have := h3.nodup r' ((h.live_iff r').1 hr')
      rw [← (h.lits_perm r').nodup_iff] at this; exact this
    · have := h3.taut r' ((h.live_iff r').1 hr') l ((h.mem_iff r' l).1 hl)
      rw [← h.mem_iff] at this; exact this
    · exact h3.valid r' ((h.live_iff r').1 hr') l ((h.mem_iff r' l).1 hl)
    · have := h3.searched r' ((h.live_iff r').1 hr')
      show 2 ≤ ((s.setClause r c).clause r').searched ∧
        ((s.setClause r c).clause r').searched < ((s.setClause r c).clause r').lits.length
      rw [setClause_clause r' h.lt]
      split
      · exact h.searched
      · exact this
    · have := h3.bin a b ((hb a b).1 hab)
      exact ⟨(hb b a).2 this.1, this.2⟩
    · have := h3.last r' hr'
      simpa [Solver.setClause] using this
  · have := h6.1 X
    rw [← h.copies] at this; exact this

theorem ok {orig : Base} {G : Assignment → Prop} (hok : Ok orig G s)
    {W : Nat → List Watch} (hB : SameBin W s.watches)
    (hr : ∀ l, s.values l = 1 → (s.assigned (l / 2)).reason = .large r → c.Watched l)
    (hw : WatchInv { s.setClause r c with watches := W }) :
    Ok orig G { s.setClause r c with watches := W } :=
  (h.okAt (hok.at (s.level + 1) 0 (Nat.le_refl _)) hB (fun l h1 h2 _ => hr l h1 h2) hw).ok

end Permuted

/-- Replacing the watched literal `a` of the clause at `r` by `b`. -/
theorem WatchInv.move {s : Solver} (hs : WatchInv s) {a b other r x : Nat} {c : Clause}
    {pre post : List Watch} (hp : Permuted s r c)
    (e : s.watches a = pre ++ .large x r :: post)
    (hold : ∀ w, (s.clause r).Watched w → w = other ∨ w = a)
    (ho : (s.clause r).Watched other)
    (hnew : ∀ w, c.Watched w ↔ w = other ∨ w = b)
    (hb : b ≠ other ∧ b ≠ a) (hoa : other ≠ a) :
    WatchInv { s.setClause r c with
      watches := upd (upd s.watches a (pre ++ post)) b (s.watches b ++ [.large other r]) } := by
  have hnodup := hs.once a
  rw [e, List.filterMap_append, List.filterMap_cons] at hnodup
  have hnot : ∀ y, Watch.large y r ∉ pre ++ post := by
    intro y hy
    have hnodup : (List.filterMap Watch.ref? pre ++ r :: List.filterMap Watch.ref? post).Nodup :=
      hnodup
    rw [List.nodup_append, List.nodup_cons] at hnodup
    have hmem : ∀ l : List Watch, Watch.large y r ∈ l → r ∈ l.filterMap Watch.ref? :=
      fun l hl => List.mem_filterMap.2 ⟨_, hl, rfl⟩
    rcases List.mem_append.1 hy with hy | hy
    · exact hnodup.2.2 r (hmem _ hy) r (by simp) rfl
    · exact hnodup.2.1.1 (hmem _ hy)
  have hbw : ∀ y, Watch.large y r ∉ s.watches b := by
    intro y hy
    rcases hold b (hs.back b y r hy hp.live).1 with h | h
    · exact hb.1 h
    · exact hb.2 h
  have old : ∀ w y z, Watch.large y z ∈
      upd (upd s.watches a (pre ++ post)) b (s.watches b ++ [.large other r]) w →
      (w = b ∧ y = other ∧ z = r) ∨
      (Watch.large y z ∈ s.watches w ∧ (w = a → z ≠ r) ) := by
    intro w y z hx
    by_cases hwb : w = b
    · subst hwb; rw [upd_same] at hx
      rcases List.mem_append.1 hx with hx | hx
      · exact .inr ⟨hx, fun h => absurd h hb.2⟩
      · simp only [List.mem_singleton] at hx; injection hx with h1 h2
        exact .inl ⟨rfl, h1, h2⟩
    · rw [upd_other _ _ hwb] at hx
      by_cases hwa : w = a
      · subst hwa; rw [upd_same] at hx
        refine .inr ⟨?_, fun _ h => hnot y (h ▸ hx)⟩
        rw [e]
        rcases List.mem_append.1 hx with hx | hx
        · exact List.mem_append.2 (.inl hx)
        · exact List.mem_append.2 (.inr (.tail _ hx))
      · rw [upd_other _ _ hwa] at hx; exact .inr ⟨hx, fun h => absurd h hwa⟩
  have keep : ∀ w y z, Watch.large y z ∈ s.watches w → (w = a → z ≠ r) → Watch.large y z ∈
      upd (upd s.watches a (pre ++ post)) b (s.watches b ++ [.large other r]) w := by
    intro w y z hx hne
    by_cases hwb : w = b
    · subst hwb; rw [upd_same]; exact List.mem_append_left _ hx
    · rw [upd_other _ _ hwb]
      by_cases hwa : w = a
      · subst hwa; rw [upd_same]; rw [e] at hx
        rcases List.mem_append.1 hx with hx | hx
        · exact List.mem_append_left _ hx
        · rcases List.mem_cons.1 hx with hx | hx
          · injection hx with _ h2; exact absurd h2 (hne rfl)
          · exact List.mem_append_right _ hx
      · rw [upd_other _ _ hwa]; exact hx
  refine ⟨fun r' hr₀ w hw₀ => ?_, fun w y z hx => ?_, fun w y z hx hz₀ => ?_, fun w => ?_⟩
  · have hr' : s.Live r' := (hp.live_iff r').1 hr₀
    have hw : ((s.setClause r c).clause r').Watched w := hw₀
    clear hr₀ hw₀
    have hroot : s.RootSat (s.clause r').lits → s.RootSat ((s.setClause r c).clause r').lits :=
      fun ⟨l, h1, h2⟩ => ⟨l, (hp.mem_iff r' l).2 h1, h2⟩
    rw [setClause_clause r' hp.lt] at hw
    split at hw
    · rename_i er; subst er
      rcases (hnew w).1 hw with rfl | rfl
      · refine (hs.watched r' hr' w ho).imp ?_ hroot
        rintro ⟨y, hy⟩
        exact ⟨y, keep _ _ _ hy fun h => absurd h hoa⟩
      · exact .inl ⟨other, by show _ ∈ upd _ _ _ _; rw [upd_same]; simp⟩
    · rename_i er
      refine (hs.watched r' hr' w hw).imp ?_ hroot
      rintro ⟨y, hy⟩
      exact ⟨y, keep _ _ _ hy fun _ => er⟩
  · have : z < s.arena.length := by
      rcases old w y z hx with ⟨_, _, rfl⟩ | ⟨h, _⟩
      · exact hp.lt
      · exact hs.inarena w y z h
    simpa [Solver.setClause] using this
  · have hz : s.Live z := (hp.live_iff z).1 hz₀
    clear hz₀
    show ((s.setClause r c).clause z).Watched w ∧ y ∈ ((s.setClause r c).clause z).lits
    rw [hp.mem_iff]
    rcases old w y z hx with ⟨rfl, rfl, rfl⟩ | ⟨h, hne⟩
    · refine ⟨?_, ?_⟩
      · rw [setClause_same hp.lt]; exact (hnew w).2 (.inr rfl)
      · rcases ho with h | h <;> exact List.mem_iff_getElem?.2 ⟨_, h⟩
    · have := hs.back w y z h hz
      refine ⟨?_, this.2⟩
      rw [setClause_clause z hp.lt]
      split
      · rename_i ez; subst ez
        rcases hold w this.1 with rfl | rfl
        · exact (hnew w).2 (.inl rfl)
        · exact absurd rfl (hne rfl)
      · exact this.1
  · show (List.filterMap _ (upd _ _ _ _)).Nodup
    by_cases hwb : w = b
    · subst hwb; rw [upd_same, List.filterMap_append, List.nodup_append]
      refine ⟨hs.once w, by simp [Watch.ref?], fun u hu v hv => ?_⟩
      have hv : v = r := by simpa [Watch.ref?] using hv
      subst hv
      rintro rfl
      obtain ⟨y, hy, hyr⟩ := List.mem_filterMap.1 hu
      cases y with
      | binary o => simp [Watch.ref?] at hyr
      | large y z => simp [Watch.ref?] at hyr; subst hyr; exact hbw y hy
    · rw [upd_other _ _ hwb]
      by_cases hwa : w = a
      · subst hwa; rw [upd_same]
        have := hs.once w
        rw [e] at this
        refine List.Nodup.sublist ?_ this
        exact (List.Sublist.append_left (List.sublist_cons_self _ _) _).filterMap _
      · rw [upd_other _ _ hwa]; exact hs.once w

end Verif.Core
