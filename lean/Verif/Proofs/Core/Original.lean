import Verif.Proofs.Core.Search
import Verif.Proofs.External
import Verif.Model.Api

/-! # Adding original clauses -/

namespace Verif.Core

open Verif.Spec

/-- A new large clause with its watches, and proof `pr`. -/
def newLarge (red : Bool) (pr : List Line) (s : Solver) (lits : List Nat) : Solver :=
  { ({ s with arena := s.arena ++ [⟨lits, false, red, 2⟩] } : Solver).watchReference
      (lits.getD 0 0) (lits.getD 1 0) s.arena.length with proof := pr }

theorem OkAt.addOriginalBinary {orig orig' : Base} {G G' : Assignment → Prop} {s : Solver}
    {L k : Nat} (h : OkAt orig G L k s) {a b : Nat} {pr : List Line}
    {db0 db : List (List Nat)} (h6 : Covers s db0) (h5 : orig'.R s.vars pr db)
    (hc : ∀ X, db0.countP (sameLits X) + (if sameLits X [a, b] then 1 else 0) ≤
      db.countP (sameLits X))
    (hG : ∀ σ, G σ → SatClause σ [a, b] → G' σ) (hab : a ≠ b) (hn : a ≠ neg b)
    (hva : s.Valid a) (hvb : s.Valid b) :
    OkAt orig' G' L k { s.watchBinary a b with proof := pr } := by
  have hmem := watchBinary_mem s a b
  have hold : ∀ w x, x ∈ s.watches w → x ∈ (s.watchBinary a b).watches w :=
    fun w x hx => (hmem w x).2 (.inl hx)
  have hlarge : ∀ w y z, Watch.large y z ∈ (s.watchBinary a b).watches w →
      Watch.large y z ∈ s.watches w := by
    intro w y z hx
    rcases (hmem w _).1 hx with hx | ⟨_, hx⟩ | ⟨_, hx⟩
    · exact hx
    · cases hx
    · cases hx
  obtain ⟨⟨h1, h2, h3, h4⟩, _, h7⟩ := h
  refine ⟨⟨⟨h1.1, h1.2, h1.3, h1.4, h1.5, h1.6, h1.7, h1.8, h1.9, h1.10, h1.11, h1.12, h1.13⟩,
    ⟨h2.1, h2.2, h2.3, fun l o hv hre => ?_, h2.5⟩,
    ⟨h3.1, h3.2, h3.3, h3.4, h3.5, fun x y hxy => ?_, h3.7⟩,
    ⟨fun r hr w hw => ?_, fun w y z hz => h4.inarena w y z (hlarge w y z hz),
      fun w y z hz => h4.back w y z (hlarge w y z hz), fun w => ?_⟩⟩,
    ⟨db, h5, ⟨fun Y => ?_, fun x y => ?_, fun l h h' => ?_, fun hi => ?_⟩⟩,
    fun σ hσ => hG σ (h7 σ ?_) ?_⟩
  · obtain ⟨x1, x2, x3, x4⟩ := h2.4 l o hv hre
    refine ⟨x1, x2, x3, x4.mono (fun c hc => ⟨c, ?_, .refl c⟩) fun _ h => .assumed h⟩
    obtain ⟨p, q, hpq, e⟩ := hc
    exact ⟨p, q, hold _ _ hpq, e⟩
  · rcases (hmem x _).1 hxy with hx | ⟨rfl, hx⟩ | ⟨rfl, hx⟩
    · have := h3.bin x y hx
      exact ⟨hold _ _ this.1, this.2⟩
    · cases hx
      exact ⟨(hmem _ _).2 (.inr (.inr ⟨rfl, rfl⟩)), hab, hn, hva, hvb⟩
    · cases hx
      refine ⟨(hmem _ _).2 (.inr (.inl ⟨rfl, rfl⟩)), hab.symm, fun e => hn ?_, hvb, hva⟩
      rw [e, Spec.neg_neg]
  · refine (h4.watched r hr w hw).imp ?_ id
    rintro ⟨y, hy⟩
    exact ⟨y, hold _ _ hy⟩
  · have := h4.once w
    rw [← watchBinary_refs s a b w] at this
    exact this
  · have h := h6.1 Y
    have := hc Y
    show s.copies Y ≤ _
    omega
  · exact Nat.le_trans (watchBinary_count hab s x y)
      (Nat.le_trans (Nat.add_le_add_right (h6.2 x y) _) (hc [x, y]))
  · exact mem_of_count hc (h6.3 l h h')
  · obtain ⟨d, hd, hs⟩ := mem_of_count hc ⟨[], h6.4 hi, .refl _⟩
    rwa [sameLits_nil hs] at hd
  · rintro d (hd | ⟨p, q, hpq, e⟩ | hd)
    · exact hσ d (.inl hd)
    · exact hσ d (.inr (.inl ⟨p, q, hold _ _ hpq, e⟩))
    · exact hσ d (.inr (.inr hd))
  · exact hσ _ (.inr (.inl ⟨a, b, (hmem _ _).2 (.inr (.inl ⟨rfl, rfl⟩)), rfl⟩))

theorem newLarge_clause (red : Bool) (pr : List Line) (s : Solver) (lits : List Nat) (r : Nat) :
    (newLarge red pr s lits).clause r =
      if r = s.arena.length then ⟨lits, false, red, 2⟩ else s.clause r :=
  append_clause r

theorem newLarge_live (red : Bool) (pr : List Line) (s : Solver) (lits : List Nat) (r : Nat) :
    (newLarge red pr s lits).Live r ↔ r = s.arena.length ∨ s.Live r := by
  unfold Solver.Live
  rw [newLarge_clause]
  split
  · rename_i e; simp [e]
  · rename_i e; simp [e]

theorem OkAt.addOriginal {orig orig' : Base} {G G' : Assignment → Prop} {s : Solver} {L k : Nat}
    (h : OkAt orig G L k s) {a b : Nat} {rest : List Nat} {red : Bool} {pr : List Line}
    {db0 db : List (List Nat)} (h6 : Covers s db0) (h5 : orig'.R s.vars pr db)
    (hc : ∀ X, db0.countP (sameLits X) + (if sameLits X (a :: b :: rest) then 1 else 0) ≤
      db.countP (sameLits X))
    (hG : ∀ σ, G σ → (red = false → SatClause σ (a :: b :: rest)) → G' σ) (hne : rest ≠ []) (hnd : (a :: b :: rest).Nodup)
    (htaut : ∀ l ∈ a :: b :: rest, neg l ∉ a :: b :: rest)
    (hv : ∀ l ∈ a :: b :: rest, s.Valid l) :
    OkAt orig' G' L k (newLarge red pr s (a :: b :: rest)) := by
  have hab : a ≠ b := by rintro rfl; simp at hnd
  have hlen : 3 ≤ (a :: b :: rest).length := by
    have := List.length_pos_iff.2 hne
    simp; omega
  have hcl := newLarge_clause red pr s (a :: b :: rest)
  have hlive := newLarge_live red pr s (a :: b :: rest)
  have hmem : ∀ w x, x ∈ (newLarge red pr s (a :: b :: rest)).watches w ↔
      x ∈ s.watches w ∨ (w = a ∧ x = .large b s.arena.length) ∨
        (w = b ∧ x = .large a s.arena.length) := fun w x =>
    watchReference_mem { s with arena := s.arena ++ [⟨a :: b :: rest, false, red, 2⟩] } hab
      s.arena.length w x
  have hB : SameBin (newLarge red pr s (a :: b :: rest)).watches s.watches :=
    watchReference_bin { s with arena := s.arena ++ [⟨a :: b :: rest, false, red, 2⟩] } hab _
  have hbin := hB.iff
  have hbins : (newLarge red pr s (a :: b :: rest)).bins = s.bins := by
    funext c
    unfold Solver.bins
    simp only [hbin]
  have hif : ∀ {p : Clause → Prop} (r' : Nat), (r' = s.arena.length → p ⟨a :: b :: rest, false, red, 2⟩) →
      (r' ≠ s.arena.length → p (s.clause r')) → p ((newLarge red pr s (a :: b :: rest)).clause r') := by
    intro p r' ha hb
    rw [hcl]
    split
    · rename_i e; exact ha e
    · rename_i e; exact hb e
  have hold : ∀ r', (newLarge red pr s (a :: b :: rest)).Live r' → r' ≠ s.arena.length → s.Live r' :=
    fun r' h hne => ((hlive r').1 h).resolve_left hne
  have hlen' : (newLarge red pr s (a :: b :: rest)).arena.length = s.arena.length + 1 := by
    show (s.arena ++ [_]).length = _; simp
  obtain ⟨⟨h1, h2, h3, h4⟩, _, h7⟩ := h
  refine ⟨⟨⟨h1.1, h1.2, h1.3, h1.4, h1.5, h1.6, h1.7, h1.8, h1.9, h1.10, h1.11, h1.12, h1.13⟩,
    ⟨h2.1, h2.2, h2.3, fun l o hv' hre => ?_, fun l r' hv' hr' hk' => ?_⟩, ?_, ?_⟩,
    ⟨db, h5, ⟨fun Y => ?_, fun x y => ?_,
      fun l h h' => ?_, fun hi => ?_⟩⟩, fun σ hσ => hG σ (h7 σ ?_) ?_⟩
  · rw [hbins]; exact h2.4 l o hv' hre
  · obtain ⟨x1, x2, x3, x4⟩ := h2.5 l r' hv' hr' hk'
    have hne : r' ≠ s.arena.length := by have := clause_lt x1; omega
    rw [hcl, if_neg hne]
    exact ⟨(hlive r').2 (.inr x1), x2, x3, x4⟩
  · refine ⟨fun r' hr' => ?_, fun r' hr' => ?_, fun r' hr' => ?_, fun r' hr' => ?_,
      fun r' hr' => ?_, fun x y hxy => ?_, fun r' hr' => ?_⟩
    · exact hif (p := fun c => 3 ≤ c.lits.length) r' (fun _ => hlen)
        fun e => h3.size r' (hold r' hr' e)
    · exact hif (p := fun c => c.lits.Nodup) r' (fun _ => hnd) fun e => h3.nodup r' (hold r' hr' e)
    · exact hif (p := fun c => ∀ l ∈ c.lits, neg l ∉ c.lits) r' (fun _ => htaut)
        fun e => h3.taut r' (hold r' hr' e)
    · exact hif (p := fun c => ∀ l ∈ c.lits, s.Valid l) r' (fun _ => hv)
        fun e => h3.valid r' (hold r' hr' e)
    · exact hif (p := fun c => 2 ≤ c.searched ∧ c.searched < c.lits.length) r'
        (fun _ => ⟨Nat.le_refl _, hlen⟩) fun e => h3.searched r' (hold r' hr' e)
    · have := h3.bin x y ((hbin x y).1 hxy)
      exact ⟨(hbin y x).2 this.1, this.2⟩
    · have := h3.last r' hr'
      omega
  · refine ⟨fun r' hr' w hw => ?_, fun w y z hz => ?_, fun w y z hz hz' => ?_, fun w => ?_⟩
    · by_cases e : r' = s.arena.length
      · rw [hcl, if_pos e] at hw
        subst e
        rcases hw with hw | hw
        · have hw : some a = some w := hw
          cases hw
          exact .inl ⟨b, (hmem _ _).2 (.inr (.inl ⟨rfl, rfl⟩))⟩
        · have hw : some b = some w := hw
          cases hw
          exact .inl ⟨a, (hmem _ _).2 (.inr (.inr ⟨rfl, rfl⟩))⟩
      · rw [hcl, if_neg e] at hw ⊢
        refine (h4.watched r' (hold r' hr' e) w hw).imp ?_ id
        rintro ⟨y, hy⟩
        exact ⟨y, (hmem _ _).2 (.inl hy)⟩
    · rw [hlen']
      rcases (hmem _ _).1 hz with hz | ⟨_, hz⟩ | ⟨_, hz⟩
      · have := h4.inarena w y z hz; omega
      · cases hz; omega
      · cases hz; omega
    · rcases (hmem _ _).1 hz with hq | ⟨e1, hq⟩ | ⟨e1, hq⟩
      · have := h4.inarena w y z hq
        have e : z ≠ s.arena.length := by omega
        rw [hcl, if_neg e]
        exact h4.back w y z hq (hold z hz' e)
      · clear hz; subst e1; cases hq
        rw [hcl, if_pos rfl]
        exact ⟨.inl rfl, by simp⟩
      · clear hz; subst e1; cases hq
        rw [hcl, if_pos rfl]
        exact ⟨.inr rfl, by simp⟩
    · have e := watchReference_refs { s with arena := s.arena ++ [⟨a :: b :: rest, false, red, 2⟩] }
        hab s.arena.length w
      show (List.filterMap _ ((Solver.watchReference _ a b s.arena.length).watches w)).Nodup
      rw [e, List.nodup_append]
      refine ⟨h4.once w, by split <;> simp, fun x hx y hy exy => ?_⟩
      subst exy
      have : x = s.arena.length := by
        split at hy
        · simpa using hy
        · cases hy
      subst this
      obtain ⟨y, hy, hyr⟩ := List.mem_filterMap.1 hx
      cases y with
      | binary o => cases hyr
      | large y z =>
        have hyr : some z = some s.arena.length := hyr
        cases hyr
        have := h4.inarena w y _ hy
        omega
  · have h := h6.1 Y
    have e : (newLarge red pr s (a :: b :: rest)).copies Y =
        s.copies Y + (if sameLits Y (a :: b :: rest) then 1 else 0) := by
      show List.countP _ (s.arena ++ [_]) = _
      rw [List.countP_append]
      simp [Solver.copies, List.countP_cons]
    rw [e]
    have := hc Y
    omega
  · rw [hB x y]; exact Nat.le_trans (h6.2 x y) (Nat.le_trans (Nat.le_add_right _ _) (hc [x, y]))
  · exact mem_of_count hc (h6.3 l h h')
  · obtain ⟨d, hd, hs⟩ := mem_of_count hc ⟨[], h6.4 hi, .refl _⟩
    rwa [sameLits_nil hs] at hd
  · rintro d (⟨r', hr', hred, rfl⟩ | ⟨p, q, hpq, e⟩ | hd)
    · have hne : r' ≠ s.arena.length := by have := clause_lt hr'; omega
      have := hσ ((newLarge red pr s (a :: b :: rest)).clause r').lits
        (.inl ⟨r', (hlive r').2 (.inr hr'), by rw [hcl, if_neg hne]; exact hred, rfl⟩)
      rwa [hcl, if_neg hne] at this
    · exact hσ d (.inr (.inl ⟨p, q, (hbin _ _).2 hpq, e⟩))
    · exact hσ d (.inr (.inr hd))
  · intro hred
    exact hσ _ (.inl ⟨s.arena.length, (hlive _).2 (.inl rfl), by rw [hcl, if_pos rfl]; exact hred,
      by rw [hcl, if_pos rfl]⟩)

/-! ## The state without proof and formula -/

/-- The part of `PropInv` that does not mention the proof or the formula. -/
structure PState (s : Solver) : Prop where
  inv : Inv s
  watching : Watching s s.propagate
  frames : ∀ f ∈ s.frames, f.trail ≤ s.propagate
  le : s.propagate ≤ s.trail.length

theorem PropInv.pstate {orig : Base} {G : Assignment → Prop} {s : Solver}
    (h : PropInv orig G s) : PState s := ⟨h.ok.inv, h.watching, h.frames, h.le⟩

theorem PState.prop {s : Solver} (h : PState s) {orig : Base} {G : Assignment → Prop}
    (hp : PInv orig s) (hi : ∀ σ, SatFormula σ s.irr → G σ) : PropInv orig G s :=
  ⟨⟨h.inv, hp, hi⟩, h.watching, h.frames, h.le⟩

theorem PState.emit {s : Solver} (h : PState s) (l : Line) : PState (s.emit l) :=
  ⟨h.inv.emit l, h.watching.emit l, h.frames, h.le⟩

theorem PState.resize {s : Solver} (h : PState s) {n : Nat} {rem : Nat → Bool} {ua : Nat}
    (hm : ∀ v, v < s.vars → s.removed v = false → v < n ∧ rem v = false)
    (hua : ua = ({ s with vars := n, removed := rem, unassigned := ua } : Solver).free.length) :
    PState { s with vars := n, removed := rem, unassigned := ua } := by
  obtain ⟨⟨h1, h2, h3, h4⟩, h5, h6, h7⟩ := h
  have hv : ∀ l, s.Valid l →
      ({ s with vars := n, removed := rem, unassigned := ua } : Solver).Valid l :=
    fun l hl => hm _ hl.1 hl.2
  exact ⟨⟨⟨h1.1, h1.2, fun l hl => hv l (h1.3 l hl), hua, h1.5, h1.6, h1.7, h1.8, h1.9, h1.10,
      h1.11, h1.12, h1.13⟩,
    ⟨h2.1, h2.2, h2.3, h2.4, h2.5⟩,
    ⟨h3.1, h3.2, h3.3, fun r hr l hl => hv l (h3.4 r hr l hl), h3.5,
      fun a b hab => ⟨(h3.6 a b hab).1, (h3.6 a b hab).2.1, (h3.6 a b hab).2.2.1,
        hv _ (h3.6 a b hab).2.2.2.1, hv _ (h3.6 a b hab).2.2.2.2⟩, h3.7⟩,
    ⟨h4.1, h4.2, h4.3, h4.4⟩⟩, ⟨h5.1, h5.2⟩, h6, h7⟩

theorem free_length {s s' : Solver} (h : ∀ v, v ∈ s.free ↔ v ∈ s'.free) :
    s.free.length = s'.free.length :=
  Nat.le_antisymm (nodup_length_le (free_nodup s) fun v hv => (h v).1 hv)
    (nodup_length_le (free_nodup s') fun v hv => (h v).2 hv)

/-- More variables. -/
theorem PState.grow {s : Solver} (h : PState s) {n : Nat} (hn : s.vars ≤ n)
    (hr : ∀ v, s.vars ≤ v → s.removed v = true) : PState { s with vars := n } := by
  refine h.resize (n := n) (rem := s.removed) (ua := s.unassigned)
    (fun v h1 h2 => ⟨by omega, h2⟩) ?_
  rw [h.inv.trail.count]
  refine free_length fun v => ?_
  rw [free_mem, free_mem]
  simp only
  constructor
  · rintro ⟨a, b⟩; exact ⟨by omega, b⟩
  · rintro ⟨a, b, c⟩
    refine ⟨?_, b, c⟩
    by_cases hv : v < s.vars
    · exact hv
    · rw [hr v (by omega)] at b; cases b

theorem PState.activate {s : Solver} (h : PState s) {lit : Nat} (hl : lit / 2 < s.vars) :
    ∃ rem ua, s.activate lit = { s with removed := rem, unassigned := ua } ∧
      PState (s.activate lit) ∧ ∀ v, rem v = false ↔ s.removed v = false ∨ lit / 2 = v := by
  unfold Solver.activate
  split
  · rename_i hr
    refine ⟨_, _, rfl, h.resize (n := s.vars) (fun v h1 h2 => ⟨h1, ?_⟩) ?_, fun v => ?_⟩
    · rw [upd_apply]; split
      · rfl
      · exact h2
    · have h0 : s.values (2 * (lit / 2)) = 0 := by
        apply Classical.byContradiction
        intro hne
        have := (h.inv.trail.valid _ hne).2
        rw [show 2 * (lit / 2) / 2 = lit / 2 by omega, hr] at this
        cases this
      rw [h.inv.trail.count]
      have hnot : lit / 2 ∉ s.free := fun hm => by
        have := ((free_mem s _).1 hm).2.1; rw [hr] at this; cases this
      have key : ∀ v, v ∈ lit / 2 :: s.free ↔
          v ∈ ({ s with removed := upd s.removed (lit / 2) false,
                        unassigned := s.free.length + 1 } : Solver).free := by
        intro v
        rw [List.mem_cons, free_mem, free_mem]
        simp only [upd_apply]
        constructor
        · rintro (rfl | ⟨a, b, c⟩)
          · exact ⟨hl, by rw [if_pos rfl], h0⟩
          · exact ⟨a, by split <;> first | rfl | exact b, c⟩
        · rintro ⟨a, b, c⟩
          split at b
          · left; assumption
          · exact .inr ⟨a, b, c⟩
      exact Nat.le_antisymm
        (nodup_length_le (l := lit / 2 :: s.free) (List.nodup_cons.2 ⟨hnot, free_nodup s⟩)
          fun v hv => (key v).1 hv)
        (nodup_length_le (m := lit / 2 :: s.free) (free_nodup _) fun v hv => (key v).2 hv)
    · rw [upd_apply]
      split
      · rename_i e; simp [e]
      · rename_i e
        constructor
        · exact .inl
        · rintro (h | h)
          · exact h
          · exact absurd h.symm e
  · rename_i hr
    refine ⟨s.removed, s.unassigned, rfl, h, fun v => ⟨.inl, ?_⟩⟩
    rintro (h | rfl)
    · exact h
    · simpa using hr

theorem PState.activateAll : ∀ (lits : List Nat) {s : Solver}, PState s →
    (∀ l ∈ lits, l / 2 < s.vars) →
    ∃ rem ua, s.activateAll lits = { s with removed := rem, unassigned := ua } ∧
      PState (s.activateAll lits) ∧
      ∀ v, rem v = false ↔ s.removed v = false ∨ ∃ l ∈ lits, l / 2 = v
  | [], s, h, _ => ⟨s.removed, s.unassigned, rfl, h, fun v => by simp⟩
  | l :: lits, s, h, hl => by
    obtain ⟨rem, ua, e, h1, h2⟩ := h.activate (hl l (by simp))
    obtain ⟨rem', ua', e', h1', h2'⟩ := PState.activateAll lits h1 (by
      intro m hm; rw [e]; exact hl m (by simp [hm]))
    have hst : s.activateAll (l :: lits) = (s.activate l).activateAll lits := rfl
    refine ⟨rem', ua', ?_, ?_, fun v => ?_⟩
    · rw [hst, e', e]
    · rw [hst]; exact h1'
    · rw [h2', e]
      simp only
      rw [h2]
      simp [or_assoc]

/-- Everything that does not look at values of unused variables stays. -/
theorem Covers.resize {s : Solver} {db : List (List Nat)} (h : Covers s db) (n : Nat)
    (rem : Nat → Bool) (ua : Nat) :
    Covers { s with vars := n, removed := rem, unassigned := ua } db := ⟨h.1, h.2, h.3, h.4⟩

theorem Covers.of_count {s : Solver} {db db' : List (List Nat)} (h : Covers s db)
    (hc : ∀ X, db.countP (sameLits X) ≤ db'.countP (sameLits X)) : Covers s db' := by
  have hc' : ∀ X, db.countP (sameLits X) + (fun _ => 0) X ≤ db'.countP (sameLits X) := hc
  exact ⟨fun X => Nat.le_trans (h.1 X) (hc X), fun a b => Nat.le_trans (h.2 a b) (hc [a, b]),
    fun l h1 h2 => mem_of_count hc' (h.3 l h1 h2), fun hi => nil_of_count hc' (h.4 hi)⟩

/-- A new clause of unassigned literals. -/
theorem PropInv.newOriginal {orig orig' : Base} {G G' : Assignment → Prop} {s : Solver}
    (h : PropInv orig G s) {lits : List Nat} {pr : List Line} {db0 db : List (List Nat)}
    (h6 : Covers s db0) (h5 : orig'.R s.vars pr db)
    (hc : ∀ X, db0.countP (sameLits X) + (if sameLits X lits then 1 else 0) ≤
      db.countP (sameLits X))
    (hG : ∀ σ, G σ → SatClause σ lits → G' σ) (hlen : 2 ≤ lits.length) (hnd : lits.Nodup)
    (htaut : ∀ l ∈ lits, neg l ∉ lits) (hv : ∀ l ∈ lits, s.Valid l)
    (h0 : ∀ l ∈ lits, s.values l = 0) :
    PropInv orig' G' { s.newOriginal lits with proof := pr } := by
  have hat := h.ok.at (s.level + 1) 0 (Nat.le_refl _)
  match lits, hlen with
  | [a, b], _ =>
    have hab : a ≠ b := by rintro rfl; simp at hnd
    have hok := hat.addOriginalBinary h6 h5 hc hG hab
      (fun e => htaut b (by simp) (by simp [e])) (hv a (by simp)) (hv b (by simp))
    have hok' := OkAt.ok (s := { s.watchBinary a b with proof := pr }) hok
    have hw : WatchingX { s.watchBinary a b with proof := pr } s.propagate (fun _ _ => False)
        (fun w _ => w = a ∨ w = b) := by
      refine (h.watching.x (fun _ _ => False) (fun _ _ => False)).edit rfl rfl rfl rfl rfl
        (fun r w h1 h2 _ => ⟨h1, h2, rfl⟩) fun w o h1 h2 => ⟨fun h => h, ?_⟩
      have h2 : Watch.binary o ∈ (s.watchBinary a b).watches w := h2
      rcases (watchBinary_mem s a b w _).1 h2 with h2 | ⟨h2, _⟩ | ⟨h2, _⟩
      · exact h2
      · exact absurd (.inl h2) h1
      · exact absurd (.inr h2) h1
    refine ⟨hok', hw.watching (fun _ _ h => h.elim) fun w o hw' _ hval => ?_, h.frames, h.le⟩
    have hz : s.values w = -1 := hval
    have hm : w ∈ [a, b] := by simpa using hw'
    rw [h0 w hm] at hz; cases hz
  | a :: b :: c :: rest, _ =>
    have hab : a ≠ b := by rintro rfl; simp at hnd
    have hok := hat.addOriginal (red := false) h6 h5 hc (fun σ h1 h2 => hG σ h1 (h2 rfl))
      (by simp) hnd htaut hv
    have hok' := OkAt.ok (s := newLarge false pr s (a :: b :: c :: rest)) hok
    have hw : WatchingX (newLarge false pr s (a :: b :: c :: rest)) s.propagate
        (fun r _ => r = s.arena.length) (fun _ _ => False) := by
      refine (h.watching.x (fun _ _ => False) (fun _ _ => False)).edit rfl rfl rfl rfl rfl
        (fun r w h1 h2 _ => ⟨fun h => h, ?_, ?_⟩) fun w o h1 h2 => ⟨h1, ?_⟩
      · exact ((newLarge_live _ _ _ _ r).1 h2).resolve_left h1
      · rw [newLarge_clause, if_neg h1]
      · rcases (watchReference_mem { s with arena := s.arena ++ [⟨a :: b :: c :: rest, false, false, 2⟩] }
          hab s.arena.length w _).1 h2 with h2 | ⟨_, h2⟩ | ⟨_, h2⟩
        · exact h2
        · cases h2
        · cases h2
    refine ⟨hok', hw.watching (fun r w hr _ hwt hval => ?_) (fun _ _ h => h.elim), h.frames, h.le⟩
    subst hr
    rw [newLarge_clause, if_pos rfl] at hwt
    have hval : s.values w = -1 := hval
    have hm : w ∈ a :: b :: c :: rest := by
      rcases hwt with h | h <;> exact List.mem_iff_getElem?.2 ⟨_, h⟩
    rw [h0 w hm] at hval; cases hval

/-- A new original unit. -/
theorem PropInv.newUnit {orig orig' : Base} {G G' : Assignment → Prop} {s : Solver}
    (h : PropInv orig G s) {u : Nat} {db : List (List Nat)}
    (h6 : Covers s db) (h5 : orig'.R s.vars s.proof db) (hu : [u] ∈ db)
    (hG : ∀ σ, G σ → SatClause σ [u] → G' σ) (hv : s.Valid u) (h0 : s.values u = 0) :
    PropInv orig' G' (s.assignUnit u) := by
  have ht := h.ok.inv.trail
  have ha : AssignOk s 0 u .unit := ⟨h0, hv, Nat.zero_le _, rfl⟩
  have hi := h.ok.inv.assign ha
  have hw := h.watching.assign ht (level := 0) (reason := .unit) h0 h.le
  have e : s.assign 0 u .unit = s.assignCore 0 u .unit := by
    unfold Solver.assign; rw [if_pos rfl, if_pos rfl]
  unfold Solver.assignUnit
  rw [e] at hi hw ⊢
  refine ⟨⟨hi, ⟨db, h5, h6.assignCore ht h0 fun _ => hu⟩, fun σ hσ => ?_⟩, hw, h.frames, ?_⟩
  · refine hG σ (h.ok.irr σ (irr_assignCore ht h0 hσ)) (hσ [u] (.inr (.inr ⟨u, ?_, ?_, rfl⟩)))
    · rw [assignCore_values, if_neg (ne_neg _), if_pos rfl]
    · rw [assignCore_lev, if_pos rfl]
  · show s.propagate ≤ (s.trail ++ [u]).length
    have := h.le
    rw [List.length_append]; omega

end Verif.Core
