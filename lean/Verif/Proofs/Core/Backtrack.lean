import Verif.Model.Core.Backtrack
import Verif.Proofs.Core.Propagate

/-! # Backtracking -/

namespace Verif.Core

open Verif.Spec

/-! ## The loop over the trail -/

/-- Effect of the loop. -/
structure BackLoop (m : Nat) (s0 : Solver) (ls : List Nat) (r : Solver) : Prop where
  trail : r.trail = s0.trail ++ ls.filter (fun l => s0.lev l ≤ m)
  values : ∀ x, r.values x = if ∃ l ∈ ls, m < s0.lev l ∧ l / 2 = x / 2 then 0 else s0.values x
  level : ∀ v, (r.assigned v).level = (s0.assigned v).level
  reason : ∀ v, (r.assigned v).reason = (s0.assigned v).reason
  kept : ∀ l ∈ ls, s0.lev l ≤ m → r.trail[r.pos l]? = some l
  other : ∀ v, (∀ l ∈ ls, s0.lev l ≤ m → l / 2 ≠ v) → r.assigned v = s0.assigned v
  unassigned : r.unassigned = s0.unassigned + (ls.filter (fun l => m < s0.lev l)).length
  same : { r with trail := s0.trail, values := s0.values, assigned := s0.assigned,
                  unassigned := s0.unassigned } = s0

theorem backLoop (m : Nat) : ∀ (ls : List Nat) (s0 : Solver),
    ls.Pairwise (fun a b => a / 2 ≠ b / 2) →
    BackLoop m s0 ls (ls.foldl (backtrackLiteral m) s0)
  | [], s0, _ => ⟨by simp, by simp, fun _ => rfl, fun _ => rfl, by simp, fun _ _ => rfl,
      by simp, rfl⟩
  | a :: ls, s0, hp => by
    rw [List.pairwise_cons] at hp
    obtain ⟨ha, hp⟩ := hp
    rw [List.foldl_cons]
    have ih := backLoop m ls (backtrackLiteral m s0 a) hp
    generalize List.foldl (backtrackLiteral m) (backtrackLiteral m s0 a) ls = r at ih
    by_cases hk : s0.lev a ≤ m
    · have e : backtrackLiteral m s0 a = { s0 with
          assigned := upd s0.assigned (a / 2)
            { s0.assigned (a / 2) with trail := s0.trail.length }
          trail := s0.trail ++ [a] } := by
        unfold backtrackLiteral; rw [if_pos hk]
      generalize backtrackLiteral m s0 a = s1 at ih e
      have hlev : ∀ x, s1.lev x = s0.lev x := by
        intro x; rw [e]; unfold Solver.lev
        simp only [upd_apply]; split
        · rename_i h; rw [h]
        · rfl
      have hf : ∀ p : Nat → Nat → Bool, (ls.filter fun l => p (s1.lev l) m) =
          ls.filter fun l => p (s0.lev l) m := fun p =>
        List.filter_congr fun l _ => by rw [hlev]
      have htr : r.trail = s0.trail ++ (a :: ls).filter (fun l => s0.lev l ≤ m) := by
        have := ih.trail
        rw [hf fun x y => decide (x ≤ y)] at this
        rw [this, e, List.filter_cons_of_pos (by simpa using hk)]
        simp
      have hother : r.assigned (a / 2) = s1.assigned (a / 2) :=
        ih.other (a / 2) fun l hl _ he => ha l hl he.symm
      refine ⟨htr, ?_, ?_, ?_, ?_, ?_, ?_, ?_⟩
      · intro x
        rw [ih.values]
        have : (∃ l ∈ ls, m < s1.lev l ∧ l / 2 = x / 2) ↔
            ∃ l ∈ a :: ls, m < s0.lev l ∧ l / 2 = x / 2 := by
          constructor
          · rintro ⟨l, hl, h1, h2⟩; exact ⟨l, .tail _ hl, by rwa [← hlev], h2⟩
          · rintro ⟨l, hl, h1, h2⟩
            rcases List.mem_cons.1 hl with rfl | hl
            · omega
            · exact ⟨l, hl, by rwa [hlev], h2⟩
        simp only [this]
        split
        · rfl
        · rw [e]
      · intro v; rw [ih.level, e]; simp only [upd_apply]; split
        · rename_i h; rw [h]
        · rfl
      · intro v; rw [ih.reason, e]; simp only [upd_apply]; split
        · rename_i h; rw [h]
        · rfl
      · intro l hl hlm
        rcases List.mem_cons.1 hl with rfl | hl
        · have : r.pos l = s0.trail.length := by
            unfold Solver.pos; rw [hother, e]; simp
          rw [this, htr, List.filter_cons_of_pos (by simpa using hk)]
          simp
        · exact ih.kept l hl (by rwa [hlev])
      · intro v hv
        rw [ih.other v fun l hl hlm => hv l (.tail _ hl) (by rwa [← hlev]), e]
        exact upd_other _ _ (Ne.symm (hv a (by simp) hk))
      · rw [ih.unassigned, hf fun x y => decide (y < x), List.filter_cons_of_neg (by simp; omega), e]
      · have := ih.same
        rw [e] at this
        have h2 := congrArg (fun t : Solver => { t with
          trail := s0.trail, values := s0.values, assigned := s0.assigned,
          unassigned := s0.unassigned }) this
        exact h2
    · have e : backtrackLiteral m s0 a = { s0 with
          values := upd (upd s0.values a 0) (neg a) 0
          unassigned := s0.unassigned + 1 } := by
        unfold backtrackLiteral; rw [if_neg hk]
      generalize backtrackLiteral m s0 a = s1 at ih e
      have hlev : ∀ x, s1.lev x = s0.lev x := by intro x; rw [e]; rfl
      have hf : ∀ p : Nat → Nat → Bool, (ls.filter fun l => p (s1.lev l) m) =
          ls.filter fun l => p (s0.lev l) m := fun p =>
        List.filter_congr fun l _ => by rw [hlev]
      refine ⟨?_, ?_, ?_, ?_, ?_, ?_, ?_, ?_⟩
      · have := ih.trail
        rw [hf fun x y => decide (x ≤ y)] at this
        rw [this, e, List.filter_cons_of_neg (by simpa using hk)]
      · intro x
        rw [ih.values]
        by_cases h1 : ∃ l ∈ ls, m < s1.lev l ∧ l / 2 = x / 2
        · rw [if_pos h1, if_pos]
          obtain ⟨l, hl, h1, h2⟩ := h1
          exact ⟨l, .tail _ hl, by rwa [← hlev], h2⟩
        · rw [if_neg h1]
          by_cases h2 : a / 2 = x / 2
          · rw [if_pos ⟨a, by simp, by omega, h2⟩, e]
            simp only [upd_apply]
            rcases eq_or_eq_neg h2.symm with rfl | rfl
            · split
              · rfl
              · simp
            · simp
          · rw [if_neg, e]
            · simp only [upd_apply]
              rw [if_neg, if_neg]
              · rintro rfl; exact h2 rfl
              · rintro rfl; exact h2 (by simp)
            · rintro ⟨l, hl, h3, h4⟩
              rcases List.mem_cons.1 hl with rfl | hl
              · exact h2 h4
              · exact h1 ⟨l, hl, by rwa [hlev], h4⟩
      · intro v; rw [ih.level, e]
      · intro v; rw [ih.reason, e]
      · intro l hl hlm
        rcases List.mem_cons.1 hl with rfl | hl
        · exact absurd hlm hk
        · exact ih.kept l hl (by rwa [hlev])
      · intro v hv
        rw [ih.other v fun l hl hlm => hv l (.tail _ hl) (by rwa [← hlev]), e]
      · rw [ih.unassigned, hf fun x y => decide (y < x), List.filter_cons_of_pos (by simp; omega), e]
        simp; omega
      · have := ih.same
        rw [e] at this
        have h2 := congrArg (fun t : Solver => { t with
          trail := s0.trail, values := s0.values, assigned := s0.assigned,
          unassigned := s0.unassigned }) this
        exact h2


/-! ## Effect of backtracking -/

/-- Position of a literal in a filtered list. -/
theorem filter_get (q : Nat → Bool) {L : List Nat} {i x : Nat} (h : L[i]? = some x) (hq : q x) :
    (L.filter q)[((L.take i).filter q).length]? = some x := by
  obtain ⟨hlt, hx⟩ := List.getElem?_eq_some_iff.1 h
  have e : L = L.take i ++ x :: L.drop (i + 1) := by
    conv => lhs; rw [← List.take_append_drop i L]
    rw [List.drop_eq_getElem_cons hlt, hx]
  conv => lhs; rw [e]
  rw [List.filter_append, List.filter_cons_of_pos hq, List.take_append_of_le_length (by simp; omega),
    List.take_take, Nat.min_self]
  simp

structure Backtracked (s : Solver) (m : Nat) (f : Frame) (s' : Solver) : Prop where
  frame : s.frames[m]? = some f
  trail : s'.trail = s.trail.filter (fun l => s.lev l ≤ m)
  take : s.trail.take f.trail = (s.trail.take f.trail).filter (fun l => s.lev l ≤ m)
  values : ∀ x, s'.values x = if s.values x ≠ 0 ∧ m < s.lev x then 0 else s.values x
  lev : ∀ x, s'.lev x = s.lev x
  reason : ∀ v, (s'.assigned v).reason = (s.assigned v).reason
  pos : ∀ l ∈ s'.trail, s'.trail[s'.pos l]? = some l
  unassigned : s'.unassigned = s.unassigned + (s.trail.filter (fun l => m < s.lev l)).length
  level : s'.level = m
  propagate : s'.propagate = f.trail
  frames : s'.frames = s.frames.take m
  same : { s' with trail := s.trail, values := s.values, assigned := s.assigned,
                   unassigned := s.unassigned, level := s.level, propagate := s.propagate,
                   frames := s.frames } = s

theorem TrailInv.backtracked {s : Solver} (h : TrailInv s) {m : Nat} (hm : m < s.level) :
    ∃ f, Backtracked s m f (s.backtrack m) := by
  obtain ⟨f, hf⟩ := h.frame_exists hm
  refine ⟨f, ?_⟩
  have hpw : (s.trail.drop f.trail).Pairwise (fun a b => a / 2 ≠ b / 2) := by
    refine List.Pairwise.sublist (List.drop_sublist _ _) ?_
    refine List.Pairwise.imp_of_mem ?_ h.nodup
    intro a b ha hb hne e
    rcases eq_or_eq_neg e with rfl | rfl
    · exact hne rfl
    · exact h.not_mem_neg hb ha
  have hb := backLoop m (s.trail.drop f.trail)
    { s with frames := s.frames.take m, trail := s.trail.take f.trail } hpw
  generalize hr : List.foldl (backtrackLiteral m)
    { s with frames := s.frames.take m, trail := s.trail.take f.trail } (s.trail.drop f.trail) = r
    at hb
  have e : s.backtrack m = { r with level := m, propagate := f.trail } := by
    unfold Solver.backtrack
    rw [if_neg (by omega), hf]
    simp only
    rw [hr]
  rw [e]
  have htake : s.trail.take f.trail = (s.trail.take f.trail).filter (fun l => s.lev l ≤ m) := by
    symm
    rw [List.filter_eq_self]
    intro l hl
    simpa using h.before m f hf l hl
  have htr : r.trail = s.trail.filter (fun l => s.lev l ≤ m) := by
    rw [hb.trail]
    conv => rhs; rw [← List.take_append_drop f.trail s.trail]
    rw [List.filter_append, ← htake]
    rfl
  have hnd : r.trail.Nodup := by rw [htr]; exact List.filter_sublist.nodup h.nodup
  refine ⟨hf, htr, htake, ?_, ?_, hb.reason, ?_, ?_, rfl, rfl, ?_, ?_⟩
  · intro x
    rw [show ({ r with level := m, propagate := f.trail } : Solver).values x = r.values x from rfl]
    rw [hb.values]
    have : (∃ l ∈ s.trail.drop f.trail, m < s.lev l ∧ l / 2 = x / 2) ↔
        s.values x ≠ 0 ∧ m < s.lev x := by
      constructor
      · rintro ⟨l, hl, h1, h2⟩
        have hv := h.tval l (List.mem_of_mem_drop hl)
        have hlv : s.lev x = s.lev l := by unfold Solver.lev; rw [h2]
        refine ⟨fun h0 => ?_, by omega⟩
        have := h.zero_of_div h2.symm h0
        omega
      · rintro ⟨h1, h2⟩
        have key : ∀ y, s.values y = 1 → m < s.lev y →
            ∃ l ∈ s.trail.drop f.trail, m < s.lev l ∧ l / 2 = y / 2 := by
          intro y hy hly
          have ht := h.on_trail hy (by omega)
          exact ⟨y, (h.mem_drop ht).2 (h.frame_le_pos hf ht hly), hly, rfl⟩
        rcases h.dom x with hx | hx | hx
        · exact key x hx h2
        · exact absurd hx h1
        · obtain ⟨l, hl, h3, h4⟩ := key (neg x) (h.neg_pos.2 hx) (by rwa [lev_neg])
          exact ⟨l, hl, h3, by simpa using h4⟩
    by_cases hc : s.values x ≠ 0 ∧ m < s.lev x
    · rw [if_pos hc]; exact if_pos (this.2 hc)
    · rw [if_neg hc]; exact if_neg (fun hh => hc (this.1 hh))
  · intro x; exact hb.level (x / 2)
  · intro l hl
    have hl : l ∈ r.trail := hl
    show r.trail[r.pos l]? = some l
    rw [hb.trail] at hl
    rcases List.mem_append.1 hl with hl | hl
    · have hl : l ∈ s.trail.take f.trail := hl
      have ht := List.mem_of_mem_take hl
      have : r.assigned (l / 2) = s.assigned (l / 2) := by
        refine hb.other (l / 2) fun x hx _ he => ?_
        have hxt := List.mem_of_mem_drop hx
        have : x = l := by
          rcases eq_or_eq_neg he with e | e
          · exact e
          · rw [e] at hxt; exact absurd hxt (h.not_mem_neg ht)
        subst this
        have h1 := (h.mem_take ht).1 hl
        have h2 := (h.mem_drop ht).1 hx
        omega
      have hp : r.pos l = s.pos l := by unfold Solver.pos; rw [this]
      have hlt := (h.mem_take ht).1 hl
      rw [hp, hb.trail, List.getElem?_append_left]
      · show (s.trail.take f.trail)[s.pos l]? = some l
        rw [List.getElem?_take, if_pos hlt]; exact h.get_pos ht
      · show s.pos l < (s.trail.take f.trail).length
        rw [List.length_take]
        have := h.pos_lt ht
        omega
    · rw [List.mem_filter] at hl
      exact hb.kept l hl.1 (by simpa using hl.2)
  · show r.unassigned = _
    rw [hb.unassigned]
    congr 1
    show _ = (s.trail.filter _).length
    conv => rhs; rw [← List.take_append_drop f.trail s.trail]
    rw [List.filter_append]
    have : (s.trail.take f.trail).filter (fun l => decide (m < s.lev l)) = [] := by
      rw [List.filter_eq_nil_iff]
      intro l hl
      have := h.before m f hf l hl
      simp; omega
    rw [this, List.nil_append]
    rfl
  · have := congrArg Solver.frames hb.same
    exact this
  · have h2 := congrArg (fun t : Solver => { t with
      trail := s.trail, values := s.values, assigned := s.assigned,
      unassigned := s.unassigned, level := s.level, propagate := s.propagate,
      frames := s.frames }) hb.same
    exact h2

namespace Backtracked

variable {s s' : Solver} {m : Nat} {f : Frame} (hb : Backtracked s m f s')
include hb

theorem vars : s'.vars = s.vars := by
  have := congrArg Solver.vars hb.same; exact this
theorem removed : s'.removed = s.removed := by
  have := congrArg Solver.removed hb.same; exact this
theorem watches : s'.watches = s.watches := by
  have := congrArg Solver.watches hb.same; exact this
theorem arena : s'.arena = s.arena := by
  have := congrArg Solver.arena hb.same; exact this
theorem unflushed : s'.unflushed = s.unflushed := by
  have := congrArg Solver.unflushed hb.same; exact this
theorem inconsistent : s'.inconsistent = s.inconsistent := by
  have := congrArg Solver.inconsistent hb.same; exact this
theorem lastLearned : s'.lastLearned = s.lastLearned := by
  have := congrArg Solver.lastLearned hb.same; exact this
theorem proof : s'.proof = s.proof := by
  have := congrArg Solver.proof hb.same; exact this
theorem options : s'.options = s.options := by
  have := congrArg Solver.options hb.same; exact this
theorem conflicts : s'.conflicts = s.conflicts := by
  have := congrArg Solver.conflicts hb.same; exact this
theorem decisions : s'.decisions = s.decisions := by
  have := congrArg Solver.decisions hb.same; exact this
theorem iterating : s'.iterating = s.iterating := by
  have := congrArg Solver.iterating hb.same; exact this
theorem clause (r : Nat) : s'.clause r = s.clause r := by unfold Solver.clause; rw [hb.arena]
theorem live (r : Nat) : s'.Live r ↔ s.Live r := by unfold Solver.Live; rw [hb.clause]
theorem valid (l : Nat) : s'.Valid l ↔ s.Valid l := by
  unfold Solver.Valid; rw [hb.vars, hb.removed]

theorem nonzero {x : Nat} (h : s'.values x ≠ 0) : s'.values x = s.values x ∧ s.lev x ≤ m := by
  have := hb.values x
  by_cases hc : s.values x ≠ 0 ∧ m < s.lev x
  · rw [if_pos hc] at this; exact absurd this h
  · rw [if_neg hc] at this
    refine ⟨this, ?_⟩
    rw [this] at h
    by_cases hl : m < s.lev x
    · exact absurd ⟨h, hl⟩ hc
    · omega

theorem keep {x : Nat} (h : s.lev x ≤ m) : s'.values x = s.values x := by
  rw [hb.values, if_neg (by omega)]

theorem formula : s'.formula = s.formula := by
  funext c
  unfold Solver.formula
  have : (∃ l, s'.values l = 1 ∧ s'.lev l = 0 ∧ c = [l]) ↔
      ∃ l, s.values l = 1 ∧ s.lev l = 0 ∧ c = [l] := by
    constructor
    · rintro ⟨l, h1, h2, h3⟩
      rw [hb.lev] at h2
      exact ⟨l, by rw [← hb.keep (by omega)]; exact h1, h2, h3⟩
    · rintro ⟨l, h1, h2, h3⟩
      exact ⟨l, by rw [hb.keep (by omega)]; exact h1, by rw [hb.lev]; exact h2, h3⟩
  simp only [this, hb.live, hb.clause, hb.watches]

theorem bins : s'.bins = s.bins := by unfold Solver.bins; rw [hb.watches]

theorem irr : s'.irr = s.irr := by
  funext c
  unfold Solver.irr
  have : (∃ l, s'.values l = 1 ∧ s'.lev l = 0 ∧ c = [l]) ↔
      ∃ l, s.values l = 1 ∧ s.lev l = 0 ∧ c = [l] := by
    constructor
    · rintro ⟨l, h1, h2, h3⟩
      rw [hb.lev] at h2
      exact ⟨l, by rw [← hb.keep (by omega)]; exact h1, h2, h3⟩
    · rintro ⟨l, h1, h2, h3⟩
      exact ⟨l, by rw [hb.keep (by omega)]; exact h1, by rw [hb.lev]; exact h2, h3⟩
  simp only [this, hb.live, hb.clause, hb.watches]

theorem nodup (h : TrailInv s) : s'.trail.Nodup := by
  rw [hb.trail]; exact List.filter_sublist.nodup h.nodup

theorem mem {l : Nat} : l ∈ s'.trail ↔ l ∈ s.trail ∧ s.lev l ≤ m := by
  rw [hb.trail, List.mem_filter]; simp

theorem length (h : TrailInv s) : f.trail ≤ s'.trail.length := by
  have h1 : (s.trail.take f.trail).length ≤ s'.trail.length := by
    rw [hb.trail, hb.take]
    exact (List.Sublist.filter _ (List.take_sublist _ _)).length_le
  rw [List.length_take] at h1
  have := h.frame_lt hb.frame
  omega

/-- The trail below the frame does not change. -/
theorem get_lt (h : TrailInv s) {i : Nat} (hi : i < f.trail) : s'.trail[i]? = s.trail[i]? := by
  have hlt := h.frame_lt hb.frame
  have e : s'.trail = s.trail.take f.trail ++ (s.trail.drop f.trail).filter (s.lev · ≤ m) := by
    rw [hb.trail]
    conv => lhs; rw [← List.take_append_drop f.trail s.trail]
    rw [List.filter_append, ← hb.take]
  rw [e, List.getElem?_append_left (by rw [List.length_take]; omega), List.getElem?_take,
    if_pos hi]

theorem take_eq (h : TrailInv s) {i : Nat} (hi : i ≤ f.trail) :
    s'.trail.take i = s.trail.take i := by
  apply List.ext_getElem?
  intro j
  rw [List.getElem?_take, List.getElem?_take]
  split
  · exact hb.get_lt h (by omega)
  · rfl

/-- Dropping commutes with filtering up to the frame. -/
theorem mem_drop (h : TrailInv s) {i x : Nat} (hi : i ≤ f.trail) :
    x ∈ s'.trail.drop i ↔ x ∈ s.trail.drop i ∧ s.lev x ≤ m := by
  have e : s'.trail.drop i = (s.trail.drop i).filter (s.lev · ≤ m) := by
    have h1 : s'.trail = (s.trail.take i).filter (s.lev · ≤ m) ++
        (s.trail.drop i).filter (s.lev · ≤ m) := by
      rw [hb.trail]
      conv => lhs; rw [← List.take_append_drop i s.trail]
      rw [List.filter_append]
    have h2 : (s.trail.take i).filter (s.lev · ≤ m) = s.trail.take i := by
      rw [List.filter_eq_self]
      intro l hl
      have : l ∈ s.trail.take f.trail := by
        have : s.trail.take i = (s.trail.take f.trail).take i := by
          rw [List.take_take, Nat.min_eq_left hi]
        rw [this] at hl
        exact List.mem_of_mem_take hl
      simpa using h.before m f hb.frame l this
    have hlt := h.frame_lt hb.frame
    have hl : (s.trail.take i).length = i := by rw [List.length_take]; omega
    rw [h1, h2, List.drop_append_of_le_length (by omega), List.drop_of_length_le (by omega),
      List.nil_append]
  rw [e, List.mem_filter]; simp

theorem tpos (h : TrailInv s) {p l : Nat} (hp : s'.trail[p]? = some l) : s'.pos l = p := by
  have h1 := hb.pos l (List.mem_iff_getElem?.2 ⟨p, hp⟩)
  have hnd := hb.nodup h
  obtain ⟨hlt1, e1⟩ := List.getElem?_eq_some_iff.1 h1
  exact (List.getElem?_inj hlt1 hnd).1 (h1.trans hp.symm)

/-- Closed form of the new position. -/
theorem pos_eq (h : TrailInv s) {l : Nat} (hl : l ∈ s'.trail) :
    s'.pos l = ((s.trail.take (s.pos l)).filter (s.lev · ≤ m)).length := by
  obtain ⟨ht, hlv⟩ := hb.mem.1 hl
  have := filter_get (fun l => decide (s.lev l ≤ m)) (h.get_pos ht) (by simpa using hlv)
  rw [← hb.trail] at this
  exact hb.tpos h this

/-- The order on the trail is preserved. -/
theorem pos_lt (h : TrailInv s) {a b : Nat} (ha : a ∈ s'.trail) (hb' : b ∈ s'.trail)
    (hab : s.pos a < s.pos b) : s'.pos a < s'.pos b := by
  rw [hb.pos_eq h ha, hb.pos_eq h hb']
  obtain ⟨hat, hal⟩ := hb.mem.1 ha
  have e : (s.trail.take (s.pos a + 1)).filter (s.lev · ≤ m) =
      (s.trail.take (s.pos a)).filter (s.lev · ≤ m) ++ [a] := by
    rw [List.take_add_one, h.get_pos hat, List.filter_append]
    simp [hal]
  have hle : ((s.trail.take (s.pos a + 1)).filter (s.lev · ≤ m)).length ≤
      ((s.trail.take (s.pos b)).filter (s.lev · ≤ m)).length := by
    refine (List.Sublist.filter _ ?_).length_le
    have : s.trail.take (s.pos a + 1) = (s.trail.take (s.pos b)).take (s.pos a + 1) := by
      rw [List.take_take, Nat.min_eq_left hab]
    rw [this]; exact List.take_sublist _ _
  rw [e] at hle
  simp at hle; omega

theorem trailInv (h : TrailInv s) (hm : m < s.level) : TrailInv s' := by
  refine ⟨?_, ?_, ?_, ?_, hb.nodup h, ?_, fun p l => hb.tpos h, ?_, ?_, ?_, ?_, ?_, ?_⟩
  · intro l; rw [hb.values]; split
    · simp
    · exact h.dom l
  · intro l; rw [hb.values, hb.values, h.anti, lev_neg]
    by_cases hc : s.values l ≠ 0 ∧ m < s.lev l
    · rw [if_pos hc, if_pos ⟨by omega, hc.2⟩]; rfl
    · rw [if_neg hc, if_neg (fun hh => hc ⟨by omega, hh.2⟩)]
  · intro l hl
    have := hb.nonzero hl
    rw [hb.valid]; exact h.valid l (by rw [← this.1]; exact hl)
  · rw [hb.unassigned, h.count]
    have hval : ∀ v, s'.values (2 * v) = 0 ↔
        s.values (2 * v) = 0 ∨ ∃ l ∈ s.trail, m < s.lev l ∧ l / 2 = v := by
      intro v
      rw [hb.values]
      constructor
      · intro h0
        by_cases hc : s.values (2 * v) ≠ 0 ∧ m < s.lev (2 * v)
        · right
          rcases h.dom (2 * v) with hv | hv | hv
          · exact ⟨2 * v, h.on_trail hv (by omega), hc.2, by omega⟩
          · exact absurd hv hc.1
          · exact ⟨neg (2 * v), h.on_trail (h.neg_pos.2 hv) (by rw [lev_neg]; omega),
              by rw [lev_neg]; exact hc.2, by rw [neg_div]; omega⟩
        · rw [if_neg hc] at h0; exact .inl h0
      · rintro (h0 | ⟨l, hl, h1, rfl⟩)
        · split
          · rfl
          · exact h0
        · rw [if_pos]
          refine ⟨fun h0 => ?_, ?_⟩
          · have := h.zero_of_div (m := l) (by omega) h0
            have := h.tval l hl
            omega
          · unfold Solver.lev at h1 ⊢
            rw [show 2 * (l / 2) / 2 = l / 2 by omega]; exact h1
    have hset : ∀ v, v ∈ s'.free ↔
        v ∈ s.free ++ (s.trail.filter (fun l => m < s.lev l)).map (· / 2) := by
      intro v
      rw [free_mem, hb.vars, hb.removed, hval, List.mem_append, free_mem, List.mem_map]
      constructor
      · rintro ⟨h1, h2, h3 | ⟨l, hl, h3, h4⟩⟩
        · exact .inl ⟨h1, h2, h3⟩
        · exact .inr ⟨l, List.mem_filter.2 ⟨hl, by simpa using h3⟩, h4⟩
      · rintro (⟨h1, h2, h3⟩ | ⟨l, hl, rfl⟩)
        · exact ⟨h1, h2, .inl h3⟩
        · rw [List.mem_filter] at hl
          have := h.valid l (by rw [h.tval l hl.1]; omega)
          exact ⟨this.1, this.2, .inr ⟨l, hl.1, by simpa using hl.2, rfl⟩⟩
    have hnd : (s.free ++ (s.trail.filter (fun l => m < s.lev l)).map (· / 2)).Nodup := by
      rw [List.nodup_append]
      refine ⟨free_nodup s, ?_, ?_⟩
      · refine List.pairwise_map.2 ?_
        refine List.Pairwise.imp_of_mem ?_ (List.filter_sublist.nodup h.nodup)
        intro a b ha hb hne e
        rw [List.mem_filter] at ha hb
        rcases eq_or_eq_neg e with rfl | rfl
        · exact hne rfl
        · exact h.not_mem_neg hb.1 ha.1
      · intro a ha b hb' e
        subst e
        obtain ⟨l, hl, rfl⟩ := List.mem_map.1 hb'
        rw [List.mem_filter] at hl
        rw [h.free_iff] at ha
        have := h.tval l hl.1
        omega
    have l1 := nodup_length_le (free_nodup s') fun x hx => (hset x).1 hx
    have l2 := nodup_length_le hnd fun x hx => (hset x).2 hx
    simp only [List.length_append, List.length_map] at l1 l2
    omega
  · intro l hl
    obtain ⟨h1, h2⟩ := hb.mem.1 hl
    rw [hb.keep h2]; exact h.tval l h1
  · intro l hl hnot
    have := hb.nonzero (x := l) (by omega)
    rw [hb.lev]
    refine h.flushed l (by omega) fun ht => hnot (hb.mem.2 ⟨ht, this.2⟩)
  · intro l hl
    have := hb.nonzero (x := l) (by omega)
    rw [hb.lev, hb.level]; exact this.2
  · rw [hb.frames, hb.level, List.length_take, h.frames]; omega
  · intro j g hg
    rw [hb.frames, List.getElem?_take] at hg
    split at hg
    · rename_i hj
      obtain ⟨h1, h2⟩ := h.decision j g hg
      refine ⟨?_, by rw [hb.lev]; exact h2⟩
      rw [hb.get_lt h (h.frame_mono hg hb.frame hj)]; exact h1
    · cases hg
  · intro j g hg l hl
    rw [hb.frames, List.getElem?_take] at hg
    split at hg
    · rename_i hj
      rw [hb.take_eq h (Nat.le_of_lt (h.frame_mono hg hb.frame hj))] at hl
      rw [hb.lev]; exact h.before j g hg l hl
    · cases hg
  · rw [hb.unflushed, h.unflushed, hb.trail, List.filter_filter]
    congr 1
    apply List.filter_congr
    intro l _
    rw [hb.lev]
    by_cases h0 : s.lev l = 0
    · simp [h0]
    · simp [h0]

theorem reasonInv {L k : Nat} (h : TrailInv s) (hr : ReasonInv s L k) (hL : m < L) :
    ReasonInv s' (s'.level + 1) 0 := by
  have nz : ∀ {l}, s'.values l = 1 → s.values l = 1 ∧ s.lev l ≤ m := fun {l} hl => by
    have := hb.nonzero (x := l) (by omega); exact ⟨by omega, this.2⟩
  have tr : ∀ {l}, s.values l = -1 → s.lev l ≤ m → s.lev l ≠ 0 → neg l ∈ s'.trail :=
    fun {l} h1 h2 h3 => hb.mem.2 ⟨h.on_trail (h.neg_pos.2 h1) (by rwa [lev_neg]),
      by rwa [lev_neg]⟩
  refine ⟨?_, ?_, ?_, ?_, ?_⟩
  · intro l hl h0
    obtain ⟨h1, _⟩ := nz hl
    rw [hb.reason]; exact hr.root l h1 (by rw [← hb.lev]; exact h0)
  · intro l hl h0
    obtain ⟨h1, _⟩ := nz hl
    rw [hb.reason]; exact hr.unit l h1 (by rw [← hb.lev]; exact h0)
  · intro l hl hre
    obtain ⟨h1, h2⟩ := nz hl
    rw [hb.reason] at hre
    obtain ⟨g, hg, e⟩ := hr.decision l h1 hre
    refine ⟨g, ?_, e⟩
    have h0 : s.lev l ≠ 0 := fun h0 => by rw [hr.root l h1 h0] at hre; cases hre
    rw [hb.lev, hb.frames, List.getElem?_take, if_pos (by omega)]; exact hg
  · intro l o hl hre
    obtain ⟨h1, h2⟩ := nz hl
    rw [hb.reason] at hre
    obtain ⟨x1, x2, x3, x4⟩ := hr.binary l o h1 hre
    have h0 : s.lev l ≠ 0 := fun h0 => by rw [hr.root l h1 h0] at hre; cases hre
    refine ⟨by rw [hb.keep (by omega)]; exact x1, by rw [hb.lev, hb.lev]; exact x2, ?_,
      by rw [hb.bins]; exact x4⟩
    have t1 := tr x1 (by omega) (by omega)
    have t2 : l ∈ s'.trail := hb.mem.2 ⟨h.on_trail h1 h0, h2⟩
    have := hb.pos_lt h t1 t2 (by rw [pos_neg]; exact x3)
    rwa [pos_neg] at this
  · intro l r hl hre _
    obtain ⟨h1, h2⟩ := nz hl
    rw [hb.reason] at hre
    have h0 : s.lev l ≠ 0 := fun h0 => by rw [hr.root l h1 h0] at hre; cases hre
    obtain ⟨x1, x2, x3, m', hm', hne', hl'⟩ := hr.large l r h1 hre (.inl (by omega))
    refine ⟨(hb.live r).2 x1, by rw [hb.clause]; exact x2, ?_, m', by rw [hb.clause]; exact hm',
      hne', by rw [hb.lev, hb.lev]; exact hl'⟩
    rw [hb.clause]
    intro x hx hne
    obtain ⟨y1, y2, y3⟩ := x3 x hx hne
    refine ⟨by rw [hb.keep (by omega)]; exact y1, by rw [hb.lev, hb.lev]; exact y2, ?_⟩
    rw [hb.lev]
    by_cases hx0 : s.lev x = 0
    · exact .inl hx0
    · right
      have t1 := tr y1 (by omega) hx0
      have t2 : l ∈ s'.trail := hb.mem.2 ⟨h.on_trail h1 h0, h2⟩
      have := hb.pos_lt h t1 t2 (by rw [pos_neg]; omega)
      rwa [pos_neg] at this

theorem inv {L k : Nat} (h : InvAt s L k) (hm : m < s.level) (hL : m < L) : Inv s' := by
  obtain ⟨h1, h2, h3, h4⟩ := h
  refine ⟨hb.trailInv h1 hm, hb.reasonInv h1 h2 hL,
    ⟨?_, ?_, ?_, ?_, ?_, ?_, ?_⟩, ⟨?_, ?_, ?_, ?_⟩⟩
  · intro r hr; rw [hb.clause]; exact h3.size r ((hb.live r).1 hr)
  · intro r hr; rw [hb.clause]; exact h3.nodup r ((hb.live r).1 hr)
  · intro r hr; rw [hb.clause]; exact h3.taut r ((hb.live r).1 hr)
  · intro r hr; rw [hb.clause]; intro l hl; rw [hb.valid]
    exact h3.valid r ((hb.live r).1 hr) l hl
  · intro r hr; rw [hb.clause]; exact h3.searched r ((hb.live r).1 hr)
  · intro a b; rw [hb.watches, hb.valid, hb.valid]; exact h3.bin a b
  · intro r; rw [hb.lastLearned, hb.arena]; exact h3.last r
  · intro r hr w hw; rw [hb.watches, hb.clause]
    refine (h4.watched r ((hb.live r).1 hr) w (by rwa [← hb.clause])).imp id ?_
    rintro ⟨t, h5, h6, h7⟩
    exact ⟨t, h5, by rw [hb.keep (by omega)]; exact h6, by rw [hb.lev]; exact h7⟩
  · intro w b r; rw [hb.watches, hb.arena]; exact h4.inarena w b r
  · intro w b r hw hr; rw [hb.watches] at hw; rw [hb.clause]
    exact h4.back w b r hw ((hb.live r).1 hr)
  · intro w; rw [hb.watches]; exact h4.once w

theorem copies (X : List Nat) : s'.copies X = s.copies X := by
  unfold Solver.copies; rw [hb.arena]

theorem pinv {orig : Base} (h : PInv orig s) : PInv orig s' := by
  obtain ⟨db, h1, h2⟩ := h
  refine ⟨db, by rw [hb.proof, hb.vars]; exact h1, ⟨?_, ?_, ?_, ?_⟩⟩
  · intro X; rw [hb.copies]; exact h2.large X
  · intro a b; rw [hb.watches]; exact h2.bin a b
  · intro l hv h0
    have := hb.nonzero (x := l) (by omega)
    exact h2.unit l (by omega) (by rw [← hb.lev]; exact h0)
  · rw [hb.inconsistent]; exact h2.empty

theorem ok {orig : Base} {G : Assignment → Prop} {L k : Nat} (h : OkAt orig G L k s)
    (hm : m < s.level) (hL : m < L) : Ok orig G s' :=
  ⟨hb.inv h.inv hm hL, hb.pinv h.proof, fun σ hσ => h.irr σ (hb.irr ▸ hσ)⟩

theorem satisfying (h : TrailInv s) {c : List Nat} {w : Nat} (hw : s.lev w ≤ m)
    (hd : neg w ∉ s.trail.drop f.trail) (hs : s.Satisfying c w) : s'.Satisfying c w := by
  obtain ⟨t, ht, hv, hf⟩ := hs
  have hl := hf m f hb.frame hd
  refine ⟨t, ht, by rw [hb.keep hl]; exact hv, fun j g hg hd' => ?_⟩
  rw [hb.frames, List.getElem?_take] at hg
  split at hg
  · rename_i hj
    rw [hb.lev]
    refine hf j g hg fun hh => hd' ?_
    rw [hb.mem_drop h (Nat.le_of_lt (h.frame_mono hg hb.frame hj))]
    exact ⟨hh, by rwa [lev_neg]⟩
  · cases hg

theorem watchingX (h : TrailInv s) {k : Nat} {exL exB : Nat → Nat → Prop}
    (hw : WatchingX s k exL exB) (hk : f.trail ≤ k) : WatchingX s' f.trail exL exB := by
  have key : ∀ w, s'.values w = -1 → neg w ∉ s'.trail.drop f.trail →
      s.values w = -1 ∧ s.lev w ≤ m ∧ neg w ∉ s.trail.drop k ∧ neg w ∉ s.trail.drop f.trail := by
    intro w hv hd
    have := hb.nonzero (x := w) (by omega)
    rw [hb.mem_drop h (Nat.le_refl _), lev_neg] at hd
    have hd' : neg w ∉ s.trail.drop f.trail := fun hh => hd ⟨hh, this.2⟩
    refine ⟨by omega, this.2, fun hh => hd' ?_, hd'⟩
    rw [show k = f.trail + (k - f.trail) by omega, ← List.drop_drop] at hh
    exact List.mem_of_mem_drop hh
  constructor
  · intro r w hr hlive hw' hv hd
    obtain ⟨h1, h2, h3, h4⟩ := key w hv hd
    rw [hb.clause] at hw' ⊢
    refine (hw.large r w hr ((hb.live r).1 hlive) hw' h1 h3).imp (hb.satisfying h h2 h4) ?_
    rintro ⟨e1, e2, v, e3, e4, e5, t, e6, e7, e8, e9⟩
    refine ⟨(congrArg Solver.loose hb.same).trans e1, by rw [hb.lev]; exact e2, v, e3, e4, fun hv hd => ?_,
      t, e6, e7, e8, fun hv => ?_⟩
    · obtain ⟨k1, k2, k3, k4⟩ := key v hv hd
      exact hb.satisfying h k2 k4 (e5 k1 k3)
    · have := hb.nonzero (x := t) (by omega)
      rw [hb.trail, List.mem_filter, lev_neg]
      exact ⟨e9 (by omega), by simpa using this.2⟩
  · intro w o hr hw' hv hd
    obtain ⟨h1, h2, h3, h4⟩ := key w hv hd
    rw [hb.watches] at hw'
    exact hb.satisfying h h2 h4 (hw.binary w o hr hw' h1 h3)

theorem framesLe (h : TrailInv s) : ∀ g ∈ s'.frames, g.trail ≤ s'.propagate := by
  intro g hg
  rw [hb.frames] at hg
  obtain ⟨j, hj⟩ := List.mem_iff_getElem?.1 hg
  rw [List.getElem?_take] at hj
  split at hj
  · rename_i hjm
    rw [hb.propagate]; exact Nat.le_of_lt (h.frame_mono hj hb.frame hjm)
  · cases hj

end Backtracked

end Verif.Core
