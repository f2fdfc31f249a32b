import Verif.Proofs.Core.Back

/-! # Conflicts with a single literal on the conflict level -/

namespace Verif.Core

open Verif.Spec

/-! ## Scanning the conflict -/

structure ScanInv (s : Solver) (P : List Nat) (t : Scan) : Prop where
  empty : P = [] → t.conflict = none ∧ t.jump = none ∧ t.count = 0
  nonempty : P ≠ [] → ∃ M, t.conflict = some M ∧ (∀ l ∈ P, s.lev l ≤ M) ∧ t.forced ∈ P ∧
    s.lev t.forced = M ∧ t.count = (P.filter fun l => s.lev l = M).length
  jump : ∀ l ∈ P, l ≠ t.forced → ∃ J, t.jump = some J ∧ s.lev l ≤ J
  exact : ∀ J, t.jump = some J → ∃ l ∈ P, l ≠ t.forced ∧ s.lev l = J

theorem scanConflict_inv (s : Solver) : ∀ (rest P : List Nat) (t : Scan), ScanInv s P t →
    (P ++ rest).Nodup → (∀ l ∈ P ++ rest, s.lev l ≤ s.level) →
    ∃ P', ScanInv s P' (scanConflict s rest t) ∧ (∃ R, P ++ rest = P' ++ R) ∧
      (P ++ rest ≠ [] → P' ≠ []) ∧
      (P' = P ++ rest ∨ (1 < (scanConflict s rest t).count ∧
        (scanConflict s rest t).conflict = some s.level))
  | [], P, t, h, _, _ => ⟨P, h, ⟨[], by simp⟩, by simp, .inl (by simp)⟩
  | lit :: rest, P, t, h, hnd, hle => by
    have hnot : lit ∉ P := by
      rw [List.nodup_append] at hnd
      exact fun hm => hnd.2.2 lit hm lit (by simp) rfl
    let t' : Scan :=
      if t.conflict.all (· < s.lev lit) then ⟨t.conflict, some (s.lev lit), 1, lit⟩
      else
        ⟨if t.jump.all (· < s.lev lit) then some (s.lev lit) else t.jump, t.conflict,
          if t.conflict = some (s.lev lit) then t.count + 1 else t.count, t.forced⟩
    have key : ScanInv s (P ++ [lit]) t' := by
      by_cases hc : t.conflict.all (· < s.lev lit)
      · have e : t' = ⟨t.conflict, some (s.lev lit), 1, lit⟩ := if_pos hc
        rw [e]
        by_cases hP : P = []
        · obtain ⟨h1, h2, h3⟩ := h.empty hP
          subst hP
          refine ⟨by simp, fun _ => ⟨s.lev lit, rfl, by simp, by simp, rfl, by simp⟩, by simp, ?_⟩
          intro J hJ
          have hJ : t.conflict = some J := hJ
          rw [h1] at hJ; cases hJ
        · obtain ⟨M, h1, h2, h3, h4, h5⟩ := h.nonempty hP
          rw [h1] at hc
          have hc : M < s.lev lit := by simpa using hc
          refine ⟨by simp, fun _ => ⟨s.lev lit, rfl, ?_, by simp, rfl, ?_⟩, ?_, ?_⟩
          · intro l hl
            rcases List.mem_append.1 hl with hl | hl
            · have := h2 l hl; omega
            · rw [List.mem_singleton.1 hl]; exact Nat.le_refl _
          · rw [List.filter_append]
            have : P.filter (fun l => decide (s.lev l = s.lev lit)) = [] := by
              rw [List.filter_eq_nil_iff]
              intro l hl
              have := h2 l hl
              simp; omega
            rw [this]; simp
          · intro l hl hne
            rcases List.mem_append.1 hl with hl | hl
            · exact ⟨M, h1, h2 l hl⟩
            · exact absurd (List.mem_singleton.1 hl) hne
          · intro J hJ
            have hJ : t.conflict = some J := hJ
            rw [h1] at hJ
            have hJ := Option.some.inj hJ
            subst hJ
            refine ⟨t.forced, List.mem_append_left _ h3, fun e => ?_, h4⟩
            have e : t.forced = lit := e
            exact hnot (e ▸ h3)
      · have e : t' = ⟨if t.jump.all (· < s.lev lit) then some (s.lev lit) else t.jump,
            t.conflict, if t.conflict = some (s.lev lit) then t.count + 1 else t.count, t.forced⟩ :=
          if_neg hc
        rw [e]
        have hP : P ≠ [] := by
          intro hP
          rw [(h.empty hP).1] at hc
          exact hc rfl
        obtain ⟨M, h1, h2, h3, h4, h5⟩ := h.nonempty hP
        rw [h1] at hc
        have hc : s.lev lit ≤ M := by simpa using hc
        refine ⟨by simp, fun _ => ⟨M, h1, ?_, List.mem_append_left _ h3, h4, ?_⟩, ?_, ?_⟩
        · intro l hl
          rcases List.mem_append.1 hl with hl | hl
          · exact h2 l hl
          · rw [List.mem_singleton.1 hl]; exact hc
        · rw [List.filter_append, List.length_append, ← h5, h1]
          show (if some M = some (s.lev lit) then t.count + 1 else t.count) = _
          by_cases hM : s.lev lit = M
          · rw [if_pos (by rw [hM])]; simp [hM]
          · rw [if_neg (by intro e; exact hM (Option.some.inj e).symm)]; simp [hM]
        · intro l hl hne
          show ∃ J, (if t.jump.all (· < s.lev lit) then some (s.lev lit) else t.jump) = some J ∧ _
          rcases List.mem_append.1 hl with hl | hl
          · obtain ⟨J, hJ, hlJ⟩ := h.jump l hl hne
            rw [hJ]
            by_cases hj : J < s.lev lit
            · exact ⟨_, if_pos (by simpa using hj), by omega⟩
            · exact ⟨J, if_neg (by simpa using hj), hlJ⟩
          · rw [List.mem_singleton.1 hl]
            cases hj : t.jump with
            | none => exact ⟨_, rfl, Nat.le_refl _⟩
            | some J =>
              by_cases hj : J < s.lev lit
              · exact ⟨_, if_pos (by simpa using hj), Nat.le_refl _⟩
              · exact ⟨J, if_neg (by simpa using hj), by omega⟩
        · intro J hJ
          have hJ : (if t.jump.all (· < s.lev lit) then some (s.lev lit) else t.jump) = some J := hJ
          split at hJ
          · refine ⟨lit, by simp, fun e => ?_, Option.some.inj hJ⟩
            have e : lit = t.forced := e
            exact hnot (e ▸ h3)
          · obtain ⟨l, hl, h6, h7⟩ := h.exact J hJ
            exact ⟨l, List.mem_append_left _ hl, h6, h7⟩
    have e : scanConflict s (lit :: rest) t =
        if 1 < t'.count ∧ t'.conflict = some s.level then t' else scanConflict s rest t' := rfl
    rw [e]
    by_cases hx : 1 < t'.count ∧ t'.conflict = some s.level
    · rw [if_pos hx]
      exact ⟨P ++ [lit], key, ⟨rest, by simp⟩, by simp, .inr hx⟩
    · rw [if_neg hx]
      have := scanConflict_inv s rest (P ++ [lit]) t' key (by simpa using hnd) (by simpa using hle)
      simpa using this

/-- Result of the scan. -/
structure Scanned (s : Solver) (lits : List Nat) (t : Scan) (M : Nat) : Prop where
  conflict : t.conflict = some M
  le : ∀ l ∈ lits, s.lev l ≤ M
  many : 1 < t.count → ∃ a b, a ∈ lits ∧ b ∈ lits ∧ a ≠ b ∧ s.lev a = M ∧ s.lev b = M
  forced : t.forced ∈ lits ∧ s.lev t.forced = M
  one : t.count ≤ 1 → ∀ l ∈ lits, l ≠ t.forced → s.lev l < M ∧ ∃ J, t.jump = some J ∧ s.lev l ≤ J
  jump : t.count ≤ 1 → ∀ J, t.jump = some J → ∃ l ∈ lits, l ≠ t.forced ∧ s.lev l = J

theorem two_of_filter {p : Nat → Bool} {l : List Nat} (hnd : l.Nodup)
    (h : 1 < (l.filter p).length) : ∃ a b, a ∈ l ∧ b ∈ l ∧ a ≠ b ∧ p a ∧ p b := by
  have hnd' : (l.filter p).Nodup := List.filter_sublist.nodup hnd
  match hf : l.filter p, h with
  | a :: b :: rest, _ =>
    rw [hf] at hnd'
    have ha : a ∈ l.filter p := by rw [hf]; simp
    have hb : b ∈ l.filter p := by rw [hf]; simp
    rw [List.mem_filter] at ha hb
    refine ⟨a, b, ha.1, hb.1, ?_, ha.2, hb.2⟩
    rintro rfl
    simp at hnd'

theorem length_of_two {p : Nat → Bool} {l : List Nat} {a b : Nat} (ha : a ∈ l) (hb : b ∈ l)
    (hab : a ≠ b) (hpa : p a) (hpb : p b) : 1 < (l.filter p).length := by
  have h1 : a ∈ l.filter p := List.mem_filter.2 ⟨ha, hpa⟩
  have h2 : b ∈ l.filter p := List.mem_filter.2 ⟨hb, hpb⟩
  match hf : l.filter p with
  | [] => rw [hf] at h1; cases h1
  | [x] =>
    rw [hf] at h1 h2
    exact absurd ((List.mem_singleton.1 h1).trans (List.mem_singleton.1 h2).symm) hab
  | x :: y :: rest => simp

theorem scanConflict_spec {s : Solver} {lits : List Nat} (hne : lits ≠ []) (hnd : lits.Nodup)
    (hle : ∀ l ∈ lits, s.lev l ≤ s.level) :
    ∃ M, Scanned s lits (scanConflict s lits ⟨none, none, 0, 0⟩) M := by
  obtain ⟨P, h, ⟨R, hR⟩, hne', hfin⟩ := scanConflict_inv s lits [] ⟨none, none, 0, 0⟩
    ⟨fun _ => ⟨rfl, rfl, rfl⟩, fun h => absurd rfl h, by simp, by simp⟩ (by simpa using hnd)
    (by simpa using hle)
  simp only [List.nil_append] at hR hne' hfin
  generalize scanConflict s lits ⟨none, none, 0, 0⟩ = t at *
  have hP := hne' hne
  obtain ⟨M, h1, h2, h3, h4, h5⟩ := h.nonempty hP
  have hsub : ∀ l ∈ P, l ∈ lits := fun l hl => by rw [hR]; exact List.mem_append_left _ hl
  have hndP : P.Nodup := by rw [hR, List.nodup_append] at hnd; exact hnd.1
  have hmax : ∀ l ∈ lits, s.lev l ≤ M := by
    rcases hfin with e | ⟨_, e⟩
    · rw [← e]; exact h2
    · rw [h1] at e
      have := Option.some.inj e
      intro l hl
      rw [this]; exact hle l hl
  refine ⟨M, h1, hmax, fun hc => ?_, ⟨hsub _ h3, h4⟩, fun hc => ?_, fun hc J hJ => ?_⟩
  · rw [h5] at hc
    obtain ⟨a, b, ha, hb, hab, hpa, hpb⟩ := two_of_filter hndP hc
    exact ⟨a, b, hsub a ha, hsub b hb, hab, by simpa using hpa, by simpa using hpb⟩
  · have hPl : P = lits := by
      rcases hfin with e | ⟨e, _⟩
      · exact e
      · omega
    rw [hPl] at h h3 h5
    intro l hl hne
    refine ⟨?_, h.jump l hl hne⟩
    have := hmax l hl
    by_cases e : s.lev l = M
    · have := length_of_two (p := fun l => decide (s.lev l = M)) hl h3 hne (by simpa using e)
        (by simpa using h4)
      omega
    · omega
  · obtain ⟨l, hl, h6, h7⟩ := h.exact J hJ
    exact ⟨l, hsub l hl, h6, h7⟩

/-! ## Moving the literals of highest level to the front -/

theorem findHighest_spec (lev : Nat → Nat) (stop : Option Nat) :
    ∀ (ls : List Nat) (j pos best : Nat), (∀ M, stop = some M → ∀ l ∈ ls, lev l ≤ M) →
    (findHighest lev stop ls j pos best = pos ∧ ∀ l ∈ ls, lev l ≤ best) ∨
    (∃ i x, findHighest lev stop ls j pos best = j + i ∧ ls[i]? = some x ∧ best < lev x ∧
      ∀ l ∈ ls, lev l ≤ lev x)
  | [], j, pos, best, _ => .inl ⟨rfl, by simp⟩
  | a :: ls, j, pos, best, h => by
    unfold findHighest
    have h' : ∀ M, stop = some M → ∀ l ∈ ls, lev l ≤ M := fun M hM l hl => h M hM l (.tail _ hl)
    by_cases h1 : lev a ≤ best
    · rw [if_pos h1]
      rcases findHighest_spec lev stop ls (j + 1) pos best h' with ⟨e, hh⟩ | ⟨i, x, e, hi, hb, hh⟩
      · exact .inl ⟨e, by
          intro l hl
          rcases List.mem_cons.1 hl with rfl | hl
          · exact h1
          · exact hh l hl⟩
      · exact .inr ⟨i + 1, x, by rw [e]; omega, by simpa using hi, hb, by
          intro l hl
          rcases List.mem_cons.1 hl with rfl | hl
          · omega
          · exact hh l hl⟩
    · rw [if_neg h1]
      by_cases h2 : stop = some (lev a)
      · rw [if_pos h2]
        exact .inr ⟨0, a, rfl, by simp, by omega, fun l hl => h _ h2 l hl⟩
      · rw [if_neg h2]
        rcases findHighest_spec lev stop ls (j + 1) j (lev a) h' with ⟨e, hh⟩ | ⟨i, x, e, hi, hb, hh⟩
        · exact .inr ⟨0, a, e, by simp, by omega, by
            intro l hl
            rcases List.mem_cons.1 hl with rfl | hl
            · exact Nat.le_refl _
            · exact hh l hl⟩
        · exact .inr ⟨i + 1, x, by rw [e]; omega, by simpa using hi, by omega, by
            intro l hl
            rcases List.mem_cons.1 hl with rfl | hl
            · omega
            · exact hh l hl⟩

theorem getD_eq {l : List Nat} {i : Nat} (h : i < l.length) : l.getD i 0 = l[i] := by
  rw [List.getD_eq_getElem?_getD, List.getElem?_eq_getElem h]; rfl

theorem swapLits_perm {l : List Nat} {i j : Nat} (hi : i < l.length) (hj : j < l.length) :
    (swapLits l i j).Perm l := by
  unfold swapLits
  rw [getD_eq hi, getD_eq hj]
  exact List.set_set_perm hj hi

theorem swapLits_get {l : List Nat} {i j : Nat} (hi : i < l.length) (hj : j < l.length)
    (k : Nat) : (swapLits l i j)[k]? =
      if k = i then l[j]? else if k = j then l[i]? else l[k]? := by
  unfold swapLits
  rw [getD_eq hi, getD_eq hj, List.getElem?_set, List.getElem?_set]
  simp only [List.length_set]
  by_cases h1 : k = i
  · subst h1; simp [hi]
  · rw [if_neg (Ne.symm h1), if_neg h1]
    by_cases h2 : k = j
    · subst h2; simp [hj]
    · rw [if_neg (Ne.symm h2), if_neg h2]

theorem setClause_self {s : Solver} {r : Nat} (h : r < s.arena.length) :
    s.setClause r (s.clause r) = s := by
  unfold Solver.setClause
  have : s.arena.set r (s.clause r) = s.arena := by
    apply List.ext_getElem?
    intro i
    rw [List.getElem?_set]
    by_cases e : r = i
    · subst e; rw [if_pos rfl, if_pos h]; exact (clause_get h).symm
    · rw [if_neg e]
  rw [this]

/-- Removing the watch of a live clause. -/
theorem unwatch_split {s : Solver} (hw : WatchInv s) {r a : Nat} (hr : s.Live r)
    (ha : (s.clause r).Watched a) (hns : ¬ s.RootSat (s.clause r).lits) : ∃ x pre post, s.watches a = pre ++ .large x r :: post ∧
      ((s.watches a).filter fun w => w.ref? ≠ some r) = pre ++ post := by
  obtain ⟨x, hx⟩ := (hw.watched r hr a ha).resolve_right hns
  obtain ⟨pre, post, e⟩ := List.append_of_mem hx
  refine ⟨x, pre, post, e, ?_⟩
  have hnd := hw.once a
  rw [e, List.filterMap_append, List.filterMap_cons] at hnd
  have hnd : (List.filterMap Watch.ref? pre ++ r :: List.filterMap Watch.ref? post).Nodup := hnd
  rw [List.nodup_append, List.nodup_cons] at hnd
  rw [e, List.filter_append]
  have h1 : pre.filter (fun w => decide (w.ref? ≠ some r)) = pre := by
    rw [List.filter_eq_self]
    intro w hw'
    have : w.ref? ≠ some r := fun h => by
      exact hnd.2.2 r (List.mem_filterMap.2 ⟨w, hw', h⟩) r (by simp) rfl
    simpa using this
  have h2 : post.filter (fun w => decide (w.ref? ≠ some r)) = post := by
    rw [List.filter_eq_self]
    intro w hw'
    have : w.ref? ≠ some r := fun h => by
      exact hnd.2.1.1 (List.mem_filterMap.2 ⟨w, hw', h⟩)
    simpa using this
  rw [h1, List.filter_cons_of_neg (by simp [Watch.ref?]), h2]

/-- Permuting a clause without changing its watched literals. -/
theorem WatchInv.permute {s : Solver} (h : WatchInv s) {r : Nat} {c : Clause} (hp : Permuted s r c)
    (hw : ∀ w, c.Watched w ↔ (s.clause r).Watched w) : WatchInv (s.setClause r c) := by
  have key : ∀ r' w, ((s.setClause r c).clause r').Watched w ↔ (s.clause r').Watched w := by
    intro r' w
    rw [setClause_clause r' hp.lt]
    split
    · rename_i e; subst e; exact hw w
    · rfl
  refine ⟨fun r' hr w hw' => (h.watched r' ((hp.live_iff r').1 hr) w ((key r' w).1 hw')).imp id
      fun ⟨l, h1, h2⟩ => ⟨l, (hp.mem_iff r' l).2 h1, h2⟩,
    fun w b r' hx => by simpa [Solver.setClause] using h.inarena w b r' hx,
    fun w b r' hx hr => ?_, h.once⟩
  have := h.back w b r' hx ((hp.live_iff r').1 hr)
  exact ⟨(key r' w).2 this.1, (hp.mem_iff r' b).2 this.2⟩

/-- Effect of moving the literal of highest level. -/
structure Moved (s : Solver) (r i : Nat) (c : Clause) (W : Nat → List Watch) : Prop where
  perm : c.lits.Perm (s.clause r).lits
  garbage : c.garbage = (s.clause r).garbage
  redundant : c.redundant = (s.clause r).redundant
  highest : ∀ x, c.lits[i]? = some x → ∀ l ∈ c.lits.drop i, s.lev l ≤ s.lev x
  before : ∀ j, j < i → c.lits[j]? = (s.clause r).lits[j]?
  bin : SameBin W s.watches

theorem mem_drop_perm {l l' : List Nat} (hp : l'.Perm l) {i : Nat}
    (hb : ∀ j, j < i → l'[j]? = l[j]?) (x : Nat) : x ∈ l'.drop i → x ∈ l.drop i := by
  have h1 : l'.take i = l.take i := by
    apply List.ext_getElem?
    intro j
    rw [List.getElem?_take, List.getElem?_take]
    split
    · rename_i h; exact hb j h
    · rfl
  have h2 : (l'.take i ++ l'.drop i).Perm (l.take i ++ l.drop i) := by
    rw [List.take_append_drop, List.take_append_drop]; exact hp
  rw [h1] at h2
  have h3 := (List.perm_append_left_iff _).1 h2
  exact fun h => h3.mem_iff.1 h

theorem moveHighest_ok {orig : Base} {G : Assignment → Prop} {s : Solver} {L k M r i : Nat}
    (h : OkAt orig G L k s) (hc : ConflictOk s (.large r)) (hi : i < 2)
    (hM : ∀ l ∈ (s.clause r).lits, s.lev l ≤ M) :
    ∃ c W, moveHighest M r i s = { s.setClause r c with watches := W } ∧ Moved s r i c W ∧
      OkAt orig G L k (moveHighest M r i s) := by
  obtain ⟨hlive, hfalse⟩ := hc
  have hlt := clause_lt hlive
  have hsize := h.inv.clause.size r hlive
  have hnd := h.inv.clause.nodup r hlive
  have hsr := h.inv.clause.searched r hlive
  have hg : (s.clause r).garbage = false := hlive
  have hreason : ∀ l, s.values l = 1 → (s.assigned (l / 2)).reason = .large r →
      (s.lev l < L ∨ s.pos l < k) → False := by
    intro l hl hre hlk
    have := (h.inv.reason.large l r hl hre hlk).2.1
    have hm : l ∈ (s.clause r).lits := by
      rcases this with h | h <;> exact List.mem_iff_getElem?.2 ⟨_, h⟩
    have := hfalse l hm
    omega
  generalize hL : (s.clause r).lits = lits at *
  have hi' : i < lits.length := by omega
  unfold moveHighest
  simp only [hL]
  rcases findHighest_spec s.lev (some M) (lits.drop (i + 1)) (i + 1) i (s.lev (lits.getD i 0))
      (by
        intro M' hM' l hl
        cases hM'
        exact hM l (List.mem_of_mem_drop hl)) with ⟨e, hh⟩ | ⟨p, x, e, hp, hb, hh⟩
  · rw [e, if_pos rfl]
    refine ⟨s.clause r, s.watches, by rw [setClause_self hlt], ⟨.refl _, rfl, rfl, ?_, fun _ _ => rfl,
      fun _ _ => rfl⟩, h⟩
    rw [hL]
    intro x hx l hl
    have hx' : lits.getD i 0 = x := by rw [List.getD_eq_getElem?_getD, hx]; rfl
    rw [hx'] at hh
    rw [List.drop_eq_getElem_cons hi'] at hl
    rcases List.mem_cons.1 hl with rfl | hl
    · have := (List.getElem?_eq_some_iff.1 hx).2
      rw [this]; exact Nat.le_refl _
    · exact hh l hl
  · rw [e]
    rw [List.getElem?_drop] at hp
    generalize hj : i + 1 + p = j at *
    have hj' : j < lits.length := (List.getElem?_eq_some_iff.1 hp).1
    have hij : i < j := by omega
    rw [if_neg (by omega)]
    have hother : lits.getD j 0 = x := by rw [List.getD_eq_getElem?_getD, hp]; rfl
    have hget := swapLits_get hi' hj'
    have hperm := swapLits_perm hi' hj'
    have hpm : Permuted s r { s.clause r with lits := swapLits lits i j } := by
      refine ⟨hlive, ?_, hg, rfl, ?_⟩
      · rw [hL]; exact hperm
      · show 2 ≤ (s.clause r).searched ∧ (s.clause r).searched < (swapLits lits i j).length
        rw [hperm.length_eq]; exact hsr
    have hhigh : ∀ y, (swapLits lits i j)[i]? = some y →
        ∀ l ∈ (swapLits lits i j).drop i, s.lev l ≤ s.lev y := by
      intro y hy l hl
      rw [hget, if_pos rfl, hp] at hy
      have hy := Option.some.inj hy
      subst hy
      have := mem_drop_perm hperm (i := i) (by
        intro m hm; rw [hget, if_neg (by omega), if_neg (by omega)]) l hl
      rw [List.drop_eq_getElem_cons hi'] at this
      rcases List.mem_cons.1 this with rfl | hl
      · rw [getD_eq hi'] at hb; omega
      · exact hh l hl
    by_cases hj1 : 1 < j
    · rw [if_pos hj1, if_pos hj1]
      -- the watched literal at `i` is replaced
      have ha : (s.clause r).Watched (lits.getD i 0) := by
        unfold Clause.Watched
        rw [hL, getD_eq hi', List.getElem?_eq_some_iff, List.getElem?_eq_some_iff]
        rcases (show i = 0 ∨ i = 1 by omega) with rfl | rfl
        · exact .inl ⟨hi', rfl⟩
        · exact .inr ⟨hi', rfl⟩
      obtain ⟨y, pre, post, e1, e2⟩ := unwatch_split h.inv.watch hlive ha (by
        rintro ⟨t, h1, h2, _⟩
        have := hfalse t (hL ▸ h1)
        omega)
      have ho' : 1 - i < lits.length := by omega
      have hog : lits[1 - i]? = some (lits.getD (1 - i) 0) := by
        rw [getD_eq ho']; exact List.getElem?_eq_getElem ho'
      have hag : lits[i]? = some (lits.getD i 0) := by
        rw [getD_eq hi']; exact List.getElem?_eq_getElem hi'
      have hne : ∀ {m n x y : Nat}, lits[m]? = some x → lits[n]? = some y → m ≠ n → x ≠ y := by
        intro m n x y h1 h2 hmn hxy
        subst hxy
        exact hmn ((List.getElem?_inj (List.getElem?_eq_some_iff.1 h1).1 hnd).1 (h1.trans h2.symm))
      have hba : x ≠ lits.getD i 0 := hne hp hag (by omega)
      have hbo : x ≠ lits.getD (1 - i) 0 := hne hp hog (by omega)
      have hoa : lits.getD (1 - i) 0 ≠ lits.getD i 0 := hne hog hag (by omega)
      have hswap : (swapLits lits i j).getD (1 - i) 0 = lits.getD (1 - i) 0 := by
        rw [List.getD_eq_getElem?_getD, hget, if_neg (by omega), if_neg (by omega), hog]; rfl
      have hold : ∀ w, (s.clause r).Watched w → w = lits.getD (1 - i) 0 ∨ w = lits.getD i 0 := by
        intro w hw
        unfold Clause.Watched at hw
        rw [hL] at hw
        rcases (show i = 0 ∨ i = 1 by omega) with rfl | rfl
        · rcases hw with hw | hw
          · rw [hag] at hw; exact .inr (Option.some.inj hw).symm
          · rw [show (1 : Nat) = 1 - 0 from rfl, hog] at hw; exact .inl (Option.some.inj hw).symm
        · rcases hw with hw | hw
          · rw [show (0 : Nat) = 1 - 1 from rfl, hog] at hw; exact .inl (Option.some.inj hw).symm
          · rw [hag] at hw; exact .inr (Option.some.inj hw).symm
      have ho : (s.clause r).Watched (lits.getD (1 - i) 0) := by
        unfold Clause.Watched
        rw [hL]
        rcases (show i = 0 ∨ i = 1 by omega) with rfl | rfl
        · exact .inr hog
        · exact .inl hog
      have hnew : ∀ w, ({ s.clause r with lits := swapLits lits i j } : Clause).Watched w ↔
          w = lits.getD (1 - i) 0 ∨ w = x := by
        intro w
        unfold Clause.Watched
        simp only [hget]
        rcases (show i = 0 ∨ i = 1 by omega) with rfl | rfl
        · rw [if_pos rfl, if_neg (by omega), if_neg (by omega), hp,
            show lits[1]? = some (lits.getD (1 - 0) 0) from hog]
          constructor
          · rintro (h | h)
            · exact .inr (Option.some.inj h).symm
            · exact .inl (Option.some.inj h).symm
          · rintro (h | h)
            · exact .inr (by rw [h])
            · exact .inl (by rw [h])
        · rw [if_neg (by omega), if_neg (by omega), if_pos rfl, hp,
            show lits[0]? = some (lits.getD (1 - 1) 0) from hog]
          constructor
          · rintro (h | h)
            · exact .inl (Option.some.inj h).symm
            · exact .inr (Option.some.inj h).symm
          · rintro (h | h)
            · exact .inl (by rw [h])
            · exact .inr (by rw [h])
      have hwi := h.inv.watch.move hpm e1 hold ho hnew ⟨hbo, hba⟩ hoa
      have hbin : SameBin (upd (upd s.watches (lits.getD i 0) (pre ++ post)) x
            (s.watches x ++ [.large (lits.getD (1 - i) 0) r])) s.watches := by
        intro a b
        by_cases hax : a = x
        · subst hax; rw [upd_same, List.count_append]; simp
        · rw [upd_other _ _ hax]
          by_cases haa : a = lits.getD i 0
          · rw [haa, upd_same, e1, List.count_append, List.count_append]; simp
          · rw [upd_other _ _ haa]
      have heq : (((s.unwatch (lits.getD i 0) r).setClause r
          { s.clause r with lits := swapLits lits i j }).pushWatch (lits.getD j 0)
            (.large ((swapLits lits i j).getD (1 - i) 0) r)) =
          { s.setClause r { s.clause r with lits := swapLits lits i j } with
            watches := upd (upd s.watches (lits.getD i 0) (pre ++ post)) x
              (s.watches x ++ [.large (lits.getD (1 - i) 0) r]) } := by
        rw [hother, hswap]
        unfold Solver.pushWatch Solver.setClause Solver.unwatch
        simp only
        rw [e2, upd_other _ _ hba]
      refine ⟨_, _, heq, ⟨by rw [hL]; exact hperm, rfl, rfl, hhigh, ?_, hbin⟩, ?_⟩
      · intro m hm
        show (swapLits lits i j)[m]? = _
        rw [hL, hget, if_neg (by omega), if_neg (by omega)]
      · rw [heq]
        exact hpm.okAt h hbin (fun l h1 h2 h3 => (hreason l h1 h2 h3).elim) hwi
    · rw [if_neg hj1, if_neg hj1]
      have hi0 : i = 0 := by omega
      have hj0 : j = 1 := by omega
      have hwi := h.inv.watch.permute hpm (by
        intro w
        unfold Clause.Watched
        simp only [hget]
        rw [hL, if_pos hi0.symm, if_neg (by omega), if_pos hj0.symm, hi0, hj0]
        exact Or.comm)
      refine ⟨_, s.watches, rfl, ⟨by rw [hL]; exact hperm, rfl, rfl, hhigh, by omega,
        fun _ _ => rfl⟩, ?_⟩
      exact hpm.okAt h (fun _ _ => rfl) (fun l h1 h2 h3 => (hreason l h1 h2 h3).elim) hwi

end Verif.Core
