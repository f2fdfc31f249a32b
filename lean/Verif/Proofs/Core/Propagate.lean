import Verif.Model.Core.Propagate
import Verif.Proofs.Lists
import Verif.Proofs.Core.Watch

/-! # Propagation preserves the invariants and is complete -/

namespace Verif.Core

open Verif.Spec

/-- Watches of the state with the watches still in flight put in place. -/
def virtW (notLit : Nat) (t : Loop) (ws : List Watch) : Nat → List Watch := fun l =>
  (if l = notLit then t.kept ++ ws else t.s.watches l) ++
    t.delayed.filterMap fun d => if d.1 = l then some (Watch.large d.2.1 d.2.2) else none

/-- The state in the middle of the watch loop with all watches in place. -/
def virt (notLit : Nat) (t : Loop) (ws : List Watch) : Solver :=
  { t.s with watches := virtW notLit t ws }

/-- The parts of the state propagation does not change. -/
structure Frozen (s s' : Solver) : Prop where
  vars : s'.vars = s.vars
  removed : s'.removed = s.removed
  frames : s'.frames = s.frames
  level : s'.level = s.level
  options : s'.options = s.options
  propagate : s'.propagate = s.propagate
  inconsistent : s'.inconsistent = s.inconsistent
  iterating : s'.iterating = s.iterating
  lastLearned : s'.lastLearned = s.lastLearned
  decisions : s'.decisions = s.decisions
  conflicts : s'.conflicts = s.conflicts
  loose : s'.loose = s.loose
  trail : ∃ e, s'.trail = s.trail ++ e

theorem Frozen.refl (s : Solver) : Frozen s s :=
  ⟨rfl, rfl, rfl, rfl, rfl, rfl, rfl, rfl, rfl, rfl, rfl, rfl, [], by simp⟩

theorem Frozen.trans {s t u : Solver} (h : Frozen s t) (h' : Frozen t u) : Frozen s u := by
  obtain ⟨e, he⟩ := h.trail
  obtain ⟨e', he'⟩ := h'.trail
  exact ⟨h'.1.trans h.1, h'.2.trans h.2, h'.3.trans h.3, h'.4.trans h.4, h'.5.trans h.5,
    h'.6.trans h.6, h'.7.trans h.7, h'.8.trans h.8, h'.9.trans h.9, h'.10.trans h.10,
    h'.11.trans h.11, h'.12.trans h.12, e ++ e', by rw [he', he, List.append_assoc]⟩

theorem Frozen.assign (s : Solver) (level lit : Nat) (reason : Reason) :
    Frozen s (s.assign level lit reason) := by
  obtain ⟨r', _, _, e | e⟩ := assign_eq s level lit reason <;> rw [e] <;>
    exact ⟨rfl, rfl, rfl, rfl, rfl, rfl, rfl, rfl, rfl, rfl, rfl, rfl, [lit], rfl⟩

theorem Frozen.setClause (s : Solver) (r : Nat) (c : Clause) : Frozen s (s.setClause r c) :=
  ⟨rfl, rfl, rfl, rfl, rfl, rfl, rfl, rfl, rfl, rfl, rfl, rfl, [], by simp [Solver.setClause]⟩

/-- A clause all whose literals are false. -/
def ConflictOk (s : Solver) : Conflict → Prop
  | .binary a b => Watch.binary b ∈ s.watches a ∧ s.values a = -1 ∧ s.values b = -1
  | .large r => s.Live r ∧ ∀ l ∈ (s.clause r).lits, s.values l = -1

/-- Loop invariant of the watch loop: `K` says that there was no conflict in the loop, `kw` is the
trail position up to which no conflict was ignored. -/
structure LoopInvG (orig : Base) (G : Assignment → Prop) (K : Prop) (kw lit k lv : Nat) (t : Loop)
    (ws : List Watch) : Prop where
  ok : Ok orig G (virt (neg lit) t ws)
  watching : Watching (virt (neg lit) t ws) kw
  get : t.s.trail[k]? = some lit
  frames : ∀ f ∈ t.s.frames, f.trail ≤ k
  keptLarge : K → ∀ b r, Watch.large b r ∈ t.kept → t.s.Live r →
    ∃ x ∈ (t.s.clause r).lits, t.s.values x = 1
  keptBinary : K → ∀ o, Watch.binary o ∈ t.kept → t.s.values o = 1
  delayed : ∀ d ∈ t.delayed, d.1 ≠ neg lit
  lev : t.s.lev lit = lv
  kwle : kw ≤ k

/-- Loop invariant as long as there is no conflict. -/
abbrev LoopInv (orig : Base) (G : Assignment → Prop) (lit k lv : Nat) (t : Loop)
    (ws : List Watch) : Prop := LoopInvG orig G True k lit k lv t ws

theorem assign_watches (s : Solver) (level lit : Nat) (reason : Reason) (W : Nat → List Watch) :
    ({ s with watches := W } : Solver).assign level lit reason =
      { s.assign level lit reason with watches := W } := by
  unfold Solver.assign
  split
  · split <;> rfl
  · rfl

theorem virt_cons (notLit : Nat) (t : Loop) (w : Watch) (ws : List Watch) :
    virt notLit t (w :: ws) = virt notLit { t with kept := t.kept ++ [w] } ws := by
  unfold virt virtW; simp

theorem virtW_notLit {notLit : Nat} {t : Loop} (hd : ∀ d ∈ t.delayed, d.1 ≠ notLit)
    (ws : List Watch) : virtW notLit t ws notLit = t.kept ++ ws := by
  unfold virtW
  rw [if_pos rfl]
  have : t.delayed.filterMap (fun d => if d.1 = notLit then some (Watch.large d.2.1 d.2.2)
      else none) = [] := by
    rw [List.filterMap_eq_nil_iff]
    intro d h
    rw [if_neg (hd d h)]
  rw [this, List.append_nil]

section
variable {orig : Base} {G : Assignment → Prop} {K : Prop} {kw lit k lv : Nat} {t : Loop}
  {ws : List Watch}

theorem LoopInvG.values (h : LoopInvG orig G K kw lit k lv t ws) :
    t.s.values lit = 1 ∧ t.s.values (neg lit) = -1 := by
  have h1 : t.s.values lit = 1 :=
    h.ok.inv.trail.tval lit (List.mem_iff_getElem?.2 ⟨k, h.get⟩)
  exact ⟨h1, (h.ok.inv.trail.neg_one (l := lit)).2 h1⟩

theorem LoopInvG.klt (h : LoopInvG orig G K kw lit k lv t ws) : k < t.s.trail.length :=
  (List.getElem?_eq_some_iff.1 h.get).1

theorem LoopInvG.keep {w : Watch} (h : LoopInvG orig G K kw lit k lv t (w :: ws))
    (hl : K → ∀ b r, w = .large b r → t.s.Live r → ∃ x ∈ (t.s.clause r).lits, t.s.values x = 1)
    (hb : K → ∀ o, w = .binary o → t.s.values o = 1) :
    LoopInvG orig G K kw lit k lv { t with kept := t.kept ++ [w] } ws := by
  refine ⟨virt_cons _ _ _ _ ▸ h.ok, virt_cons _ _ _ _ ▸ h.watching, h.get, h.frames, ?_, ?_,
    h.delayed, h.lev, h.kwle⟩
  · intro hK b r hm
    rcases List.mem_append.1 hm with hm | hm
    · exact h.keptLarge hK b r hm
    · exact hl hK b r (List.mem_singleton.1 hm).symm
  · intro hK o hm
    rcases List.mem_append.1 hm with hm | hm
    · exact h.keptBinary hK o hm
    · exact hb hK o (List.mem_singleton.1 hm).symm

/-- Assigning a literal inside the loop; the current watch is kept. -/
theorem LoopInvG.assign {w : Watch} (h : LoopInvG orig G K kw lit k lv t (w :: ws)) {level x : Nat}
    {reason : Reason} (ha : AssignOk (virt (neg lit) t (w :: ws)) level x reason)
    (hu : reason ≠ .unit)
    (hl : ∀ b r, w = .large b r → t.s.Live r → x ∈ (t.s.clause r).lits)
    (hb : ∀ o, w = .binary o → o = x) :
    LoopInvG orig G K kw lit k lv { t with s := t.s.assign level x reason, kept := t.kept ++ [w] } ws := by
  have htr := h.ok.inv.trail
  have e : virt (neg lit) { t with s := t.s.assign level x reason, kept := t.kept ++ [w] } ws =
      (virt (neg lit) t (w :: ws)).assign level x reason := by
    have hW : virtW (neg lit) { t with s := t.s.assign level x reason, kept := t.kept ++ [w] } ws =
        virtW (neg lit) t (w :: ws) := by
      unfold virtW
      obtain ⟨r', _, _, e | e⟩ := assign_eq t.s level x reason <;> rw [e] <;>
        simp [Solver.assignCore, Solver.emit]
    unfold virt
    rw [hW]
    exact (assign_watches t.s level x reason _).symm
  have hz : t.s.values x = 0 := ha.zero
  have mono : ∀ y, t.s.values y = 1 → (t.s.assign level x reason).values y = 1 := by
    intro y hy
    obtain ⟨r', _, _, e | e⟩ := assign_eq t.s level x reason
    · rw [e]
      rw [assignCore_values, if_neg, if_neg]
      · exact hy
      · rintro rfl; omega
      · rintro rfl
        have := htr.anti x
        have : t.s.values (neg x) = - t.s.values x := this
        omega
    · rw [e]
      show (t.s.assignCore level x r').values y = 1
      rw [assignCore_values, if_neg, if_neg]
      · exact hy
      · rintro rfl; omega
      · rintro rfl
        have := htr.anti x
        have : t.s.values (neg x) = - t.s.values x := this
        omega
  have new : (t.s.assign level x reason).values x = 1 := by
    obtain ⟨r', _, _, e | e⟩ := assign_eq t.s level x reason <;> rw [e]
    · rw [assignCore_values, if_neg (ne_neg _), if_pos rfl]
    · show (t.s.assignCore level x r').values x = 1
      rw [assignCore_values, if_neg (ne_neg _), if_pos rfl]
  have har : (t.s.assign level x reason).arena = t.s.arena := by
    obtain ⟨r', _, _, e | e⟩ := assign_eq t.s level x reason <;> rw [e] <;> rfl
  have hcl : ∀ r, (t.s.assign level x reason).clause r = t.s.clause r := by
    intro r; unfold Solver.clause; rw [har]
  have hfz := Frozen.assign t.s level x reason
  refine ⟨e ▸ h.ok.assign ha hu, e ▸ h.watching.assign htr ha.zero ?_, ?_, ?_, ?_, ?_, h.delayed,
    ?_, h.kwle⟩
  · exact Nat.le_trans h.kwle (Nat.le_of_lt h.klt)
  · obtain ⟨ex, he⟩ := hfz.trail
    show (t.s.assign level x reason).trail[k]? = _
    rw [he, List.getElem?_append_left h.klt]; exact h.get
  · intro f hf
    have hf : f ∈ (t.s.assign level x reason).frames := hf
    rw [hfz.frames] at hf; exact h.frames f hf
  · intro hK b r hm hr
    have hr : (t.s.assign level x reason).Live r := hr
    unfold Solver.Live at hr
    rw [hcl] at hr
    show ∃ y ∈ ((t.s.assign level x reason).clause r).lits, (t.s.assign level x reason).values y = 1
    rw [hcl]
    rcases List.mem_append.1 hm with hm | hm
    · obtain ⟨y, hy, hv⟩ := h.keptLarge hK b r hm hr
      exact ⟨y, hy, mono y hv⟩
    · exact ⟨x, hl b r (List.mem_singleton.1 hm).symm hr, new⟩
  · intro hK o hm
    show (t.s.assign level x reason).values o = 1
    rcases List.mem_append.1 hm with hm | hm
    · exact mono o (h.keptBinary hK o hm)
    · rw [hb o (List.mem_singleton.1 hm).symm]; exact new
  · show (t.s.assign level x reason).lev lit = lv
    rw [← h.lev]
    have hne : lit / 2 ≠ x / 2 := htr.div_ne (l := lit) (m := x) (by
      show t.s.values lit ≠ 0
      rw [h.values.1]; omega) ha.zero
    obtain ⟨r', _, _, e | e⟩ := assign_eq t.s level x reason <;> rw [e]
    · rw [assignCore_lev, if_neg hne]
    · show (t.s.assignCore level x r').lev lit = _
      rw [assignCore_lev, if_neg hne]

/-- The head watch is in the virtual watch list. -/
theorem LoopInvG.head {w : Watch} (h : LoopInvG orig G K kw lit k lv t (w :: ws)) :
    w ∈ (virt (neg lit) t (w :: ws)).watches (neg lit) := by
  show w ∈ virtW _ _ _ _
  rw [virtW_notLit h.delayed]; simp

theorem findReplacement_some {values : Nat → Int} {lits : List Nat} {searched r : Nat}
    (h : findReplacement values lits searched = some r) (hs : 2 ≤ searched) :
    2 ≤ r ∧ r < lits.length ∧ 0 ≤ values (lits.getD r 0) := by
  unfold findReplacement at h
  have key : ∀ (l : List Nat) i, l.findIdx? (fun l => decide (0 ≤ values l)) = some i →
      ∃ hi : i < l.length, 0 ≤ values l[i] := by
    intro l i hi
    rw [List.findIdx?_eq_some_iff_getElem] at hi
    obtain ⟨h1, h2, _⟩ := hi
    exact ⟨h1, by simpa using h2⟩
  split at h
  · rename_i i hi
    obtain ⟨h1, h2⟩ := key _ _ hi
    injection h with h; subst h
    rw [List.length_drop] at h1
    refine ⟨by omega, by omega, ?_⟩
    rw [List.getElem_drop] at h2
    rw [List.getD_eq_getElem?_getD, List.getElem?_eq_getElem (by omega)]; exact h2
  · split at h
    · rename_i i hi
      obtain ⟨h1, h2⟩ := key _ _ hi
      injection h with h; subst h
      rw [List.length_drop, List.length_take] at h1
      refine ⟨by omega, by omega, ?_⟩
      rw [List.getElem_drop, List.getElem_take] at h2
      rw [List.getD_eq_getElem?_getD, List.getElem?_eq_getElem (by omega)]; exact h2
    · cases h

theorem findReplacement_none {values : Nat → Int} {lits : List Nat} {searched : Nat}
    (h : findReplacement values lits searched = none) :
    ∀ l ∈ lits.drop 2, values l < 0 := by
  unfold findReplacement at h
  split at h
  · cases h
  · rename_i h1
    split at h
    · cases h
    · rename_i h2
      rw [List.findIdx?_eq_none_iff] at h1 h2
      intro l hl
      obtain ⟨i, hi⟩ := List.mem_iff_getElem?.1 hl
      rw [List.getElem?_drop] at hi
      by_cases hc : searched ≤ 2 + i
      · have := h1 l (List.mem_iff_getElem?.2 ⟨2 + i - searched, by
          rw [List.getElem?_drop, Nat.add_sub_cancel' hc]; exact hi⟩)
        simp at this; omega
      · have := h2 l (List.mem_iff_getElem?.2 ⟨i, by
          rw [List.getElem?_drop, List.getElem?_take, if_pos (by omega)]; exact hi⟩)
        simp at this; omega

end

theorem xor_cancel (x y : Nat) : x ^^^ y ^^^ x = y := by
  rw [Nat.xor_comm x y, Nat.xor_assoc, Nat.xor_self, Nat.xor_zero]

theorem xor_cancel' (x y : Nat) : x ^^^ y ^^^ y = x := by
  rw [Nat.xor_assoc, Nat.xor_self, Nat.xor_zero]

/-- The two watched literals of a clause. -/
theorem watched_split {c : Clause} {a : Nat} (hs : 3 ≤ c.lits.length) (hw : c.Watched a) :
    ∃ x y rest other, c.lits = x :: y :: rest ∧ c.lits.getD 0 0 ^^^ c.lits.getD 1 0 ^^^ a = other ∧
      (x = other ∧ y = a ∨ x = a ∧ y = other) := by
  unfold Clause.Watched at hw
  match hc : c.lits, hs with
  | x :: y :: rest, _ =>
    rw [hc] at hw
    simp only [List.getElem?_cons_zero, List.getElem?_cons_succ, Option.some.injEq] at hw
    rcases hw with rfl | rfl
    · exact ⟨x, y, rest, y, rfl, xor_cancel x y, .inr ⟨rfl, rfl⟩⟩
    · exact ⟨x, y, rest, x, rfl, xor_cancel' x y, .inl ⟨rfl, rfl⟩⟩


section
variable {orig : Base} {G : Assignment → Prop} {K : Prop} {kw lit k lv : Nat} {t : Loop}
  {ws : List Watch}

theorem virtW_cons_eq (w : Watch) (mid : List Watch) (hd : ∀ d ∈ t.delayed, d.1 ≠ neg lit) :
    virtW (neg lit) { t with kept := t.kept ++ mid } ws =
      upd (virtW (neg lit) t (w :: ws)) (neg lit) (t.kept ++ mid ++ ws) := by
  funext l
  by_cases hl : l = neg lit
  · subst hl; rw [upd_same]
    exact virtW_notLit (t := { t with kept := t.kept ++ mid }) hd ws
  · rw [upd_other _ _ hl]; unfold virtW; rw [if_neg hl, if_neg hl]

theorem LoopInvG.modify {b r : Nat} (h : LoopInvG orig G K kw lit k lv t (.large b r :: ws))
    {mid : List Watch} (hm : ∀ x ∈ mid, ∃ y z, x = .large y z)
    (hw : WatchInv { virt (neg lit) t (.large b r :: ws) with
      watches := upd (virtW (neg lit) t (.large b r :: ws)) (neg lit) (t.kept ++ mid ++ ws) })
    (hl : ∀ b r, Watch.large b r ∈ mid → t.s.Live r → ∃ x ∈ (t.s.clause r).lits, t.s.values x = 1) :
    LoopInvG orig G K kw lit k lv { t with kept := t.kept ++ mid } ws := by
  have e : virt (neg lit) { t with kept := t.kept ++ mid } ws =
      { virt (neg lit) t (.large b r :: ws) with
        watches := upd (virtW (neg lit) t (.large b r :: ws)) (neg lit) (t.kept ++ mid ++ ws) } := by
    unfold virt; rw [virtW_cons_eq (.large b r) mid h.delayed]
  have hb := mem_remove_large (W := virtW (neg lit) t (.large b r :: ws)) (a := neg lit) (r := r)
    (b := b) (pre := t.kept) (post := ws) (mid := mid) (virtW_notLit h.delayed _) hm
  refine ⟨?_, ?_, h.get, h.frames, ?_, ?_, h.delayed, h.lev, h.kwle⟩
  · rw [e]; exact h.ok.rewatch hb hw
  · rw [e]; exact h.watching.rewatch hb
  · intro hK b' r' hx
    rcases List.mem_append.1 hx with hx | hx
    · exact h.keptLarge hK b' r' hx
    · exact hl b' r' hx
  · intro hK o hx
    rcases List.mem_append.1 hx with hx | hx
    · exact h.keptBinary hK o hx
    · obtain ⟨_, _, h⟩ := hm _ hx; cases h

/-- Outcome of one step of the watch loop. -/
def StepOkG (orig : Base) (G : Assignment → Prop) (K : Prop) (kw lit k lv : Nat) (t : Loop)
    (ws : List Watch) (res : Loop × Option Conflict) : Prop :=
  Frozen t.s res.1.s ∧
  match res.2 with
  | none => LoopInvG orig G K kw lit k lv res.1 ws
  | some c => Ok orig G (virt (neg lit) res.1 ws) ∧ Watching (virt (neg lit) res.1 ws) kw ∧
      ConflictOk (virt (neg lit) res.1 ws) c ∧ LoopInvG orig G False kw lit k lv res.1 ws

/-- Forgetting that there was no conflict. -/
theorem LoopInvG.weaken (h : LoopInvG orig G K kw lit k lv t ws) :
    LoopInvG orig G False kw lit k lv t ws :=
  ⟨h.ok, h.watching, h.get, h.frames, fun h => h.elim, fun h => h.elim, h.delayed, h.lev, h.kwle⟩

theorem LoopInvG.fastAssign {o : Nat} (h : LoopInvG orig G K kw lit k lv t (.binary o :: ws))
    (h0 : t.s.values o = 0) :
    LoopInvG orig G K kw lit k lv
      { t with s := t.s.fastAssignBinary lv o (neg lit), kept := t.kept ++ [.binary o] } ws := by
  obtain ⟨hv1, hv2⟩ := h.values
  have hm := h.head
  have hok := h.ok
  generalize hv : virt (neg lit) t (.binary o :: ws) = v at hm hok
  have hbin := hok.inv.clause.bin (neg lit) o hm
  have hf : v.bins [o, neg lit] := ⟨_, _, hbin.1, rfl⟩
  have hvals : v.values = t.s.values := by rw [← hv]; rfl
  have has : v.assigned = t.s.assigned := by rw [← hv]; rfl
  have hlv : v.lev lit = lv := by rw [← h.lev]; unfold Solver.lev; rw [has]
  have key : AssignOk v lv o (.binary (jumpReason (t.s.assigned (neg lit / 2))
      (t.s.options.jumpreasons && t.s.options.bigbig) (neg lit))) := by
    refine ⟨by rw [hvals]; exact h0, hbin.2.2.2.2, ?_, ?_⟩
    · rw [← hlv]; exact hok.inv.trail.levle lit (by rw [hvals]; exact hv1)
    · have plain : ReasonOk v lv o (.binary (neg lit)) := by
        refine ⟨by rw [hvals]; exact hv2, by rw [lev_neg]; exact hlv, ?_⟩
        exact UP.binary hf (.assumed rfl)
      unfold jumpReason
      split
      · rename_i hj
        cases hre : (t.s.assigned (neg lit / 2)).reason with
        | unit => exact plain
        | decision => exact plain
        | large r => exact plain
        | binary r =>
          rw [neg_div, ← has] at hre
          obtain ⟨x1, x2, _, x4⟩ := hok.inv.reason.binary lit r (by rw [hvals]; exact hv1) hre
          refine ⟨x1, x2.trans hlv, UP.binary hf ?_⟩
          rw [neg_neg]; exact x4
      · exact plain
  rw [← hv] at key
  exact h.assign key (by simp) (fun b r e => by cases e) (fun o' e => by cases e; rfl)

theorem LoopInvG.binary {o : Nat} (h : LoopInvG orig G K kw lit k lv t (.binary o :: ws)) :
    StepOkG orig G K kw lit k lv t ws (propagateWatch lv (neg lit) (.binary o) t) := by
  have hdom := h.ok.inv.trail.dom o
  have hdom : t.s.values o = 1 ∨ t.s.values o = 0 ∨ t.s.values o = -1 := hdom
  unfold propagateWatch
  simp only
  by_cases h1 : 0 < t.s.values o
  · rw [if_pos h1]
    exact ⟨.refl _, h.keep (fun _ b r e => by cases e) (fun _ o' e => by cases e; omega)⟩
  · rw [if_neg h1]
    by_cases h2 : t.s.values o < 0
    · rw [if_pos h2]
      refine ⟨.refl _, virt_cons _ _ _ _ ▸ h.ok, virt_cons _ _ _ _ ▸ h.watching,
        ⟨virt_cons _ _ _ _ ▸ h.head, h.values.2, ?_⟩,
        h.weaken.keep (fun h => h.elim) (fun h => h.elim)⟩
      show t.s.values o = -1
      omega
    · rw [if_neg h2]
      exact ⟨Frozen.assign _ _ _ _, h.fastAssign (by omega)⟩

theorem assignmentLevel_ge (s : Solver) (lit : Nat) (lits : List Nat) {m : Nat} (hm : m ∈ lits)
    (hne : m ≠ lit) : s.lev m ≤ s.assignmentLevel lit lits := by
  unfold Solver.assignmentLevel
  have mono : ∀ (l : List Nat) (x : Nat),
      x ≤ l.foldl (fun res other => if other = lit then res else max res (s.lev other)) x := by
    intro l
    induction l with
    | nil => intro x; exact Nat.le_refl _
    | cons a l ih =>
      intro x
      simp only [List.foldl_cons]
      refine Nat.le_trans ?_ (ih _)
      split <;> omega
  have : ∀ (l : List Nat) (x : Nat), m ∈ l →
      s.lev m ≤ l.foldl (fun res other => if other = lit then res else max res (s.lev other)) x := by
    intro l
    induction l with
    | nil => intro x h; cases h
    | cons a l ih =>
      intro x h
      simp only [List.foldl_cons]
      rcases List.mem_cons.1 h with rfl | h
      · rw [if_neg hne]; exact Nat.le_trans (by omega) (mono _ _)
      · exact ih _ h
  exact this lits 0 hm

theorem assignmentLevel_le (s : Solver) (lit : Nat) (lits : List Nat) {L : Nat}
    (h : ∀ m ∈ lits, m ≠ lit → s.lev m ≤ L) : s.assignmentLevel lit lits ≤ L := by
  unfold Solver.assignmentLevel
  have : ∀ (l : List Nat) (x : Nat), (∀ m ∈ l, m ≠ lit → s.lev m ≤ L) → x ≤ L →
      l.foldl (fun res other => if other = lit then res else max res (s.lev other)) x ≤ L := by
    intro l
    induction l with
    | nil => intro x _ h; exact h
    | cons a l ih =>
      intro x h hx
      simp only [List.foldl_cons]
      refine ih _ (fun m hm => h m (.tail _ hm)) ?_
      split
      · exact hx
      · rename_i hne
        have := h a (by simp) hne
        omega
  exact this lits 0 h (Nat.zero_le _)

/-- The assignment level is the level of some literal. -/
theorem assignmentLevel_mem (s : Solver) (lit : Nat) (lits : List Nat) {m : Nat} (hm : m ∈ lits)
    (hne : m ≠ lit) : ∃ x ∈ lits, x ≠ lit ∧ s.lev x = s.assignmentLevel lit lits := by
  by_cases h : ∃ x ∈ lits, x ≠ lit ∧ s.assignmentLevel lit lits ≤ s.lev x
  · obtain ⟨x, hx, h1, h2⟩ := h
    exact ⟨x, hx, h1, Nat.le_antisymm (assignmentLevel_ge s lit lits hx h1) h2⟩
  · have h' : ∀ x ∈ lits, x ≠ lit → s.lev x < s.assignmentLevel lit lits := fun x hx hn =>
      Nat.lt_of_not_le fun hl => h ⟨x, hx, hn, hl⟩
    have h0 := h' m hm hne
    have := assignmentLevel_le s lit lits (L := s.assignmentLevel lit lits - 1)
      fun x hx hn => by have := h' x hx hn; omega
    omega

/-- A clause with at least two literals has one different from a given one. -/
theorem exists_ne {l : List Nat} (hn : l.Nodup) (h2 : 2 ≤ l.length) (x : Nat) :
    ∃ m ∈ l, m ≠ x := by
  match l, hn, h2 with
  | a :: b :: _, hn, _ =>
    by_cases e : a = x
    · refine ⟨b, by simp, fun e' => ?_⟩
      rw [e, e'] at hn; simp at hn
    · exact ⟨a, by simp, e⟩

theorem LoopInvG.assignRef {b r other : Nat} (h : LoopInvG orig G K kw lit k lv t (.large b r :: ws))
    (hr : t.s.Live r) (hw : (t.s.clause r).Watched other) (h0 : t.s.values other = 0)
    (hfalse : ∀ m ∈ (t.s.clause r).lits, m ≠ other → t.s.values m = -1) :
    LoopInvG orig G K kw lit k lv
      { t with s := t.s.assignReference other r, kept := t.kept ++ [.large b r] } ws := by
  have hok := h.ok
  have hmem : other ∈ (t.s.clause r).lits := by
    rcases hw with h | h <;> exact List.mem_iff_getElem?.2 ⟨_, h⟩
  have key : AssignOk (virt (neg lit) t (.large b r :: ws))
      (t.s.assignmentLevel other (t.s.clause r).lits) other (.large r) := by
    refine ⟨h0, hok.inv.clause.valid r hr other hmem, ?_, hr, hw, ?_, ?_⟩
    · refine assignmentLevel_le _ _ _ fun m hm hne => ?_
      have := hok.inv.trail.levle (neg m) ((hok.inv.trail.neg_pos (l := m)).2 (hfalse m hm hne))
      rw [lev_neg] at this; exact this
    · intro m hm hne
      exact ⟨hfalse m hm hne, assignmentLevel_ge _ _ _ hm hne⟩
    · obtain ⟨m, hm, hne⟩ := exists_ne (hok.inv.clause.nodup r hr)
        (by have := hok.inv.clause.size r hr; omega) other
      exact assignmentLevel_mem t.s other (t.s.clause r).lits hm hne
  exact h.assign key (by simp) (fun b r e _ => by cases e; exact hmem) (fun o e => by cases e)

theorem LoopInvG.large {b r : Nat} (h : LoopInvG orig G K kw lit k lv t (.large b r :: ws)) :
    StepOkG orig G K kw lit k lv t ws (propagateLarge (neg lit) b r t) := by
  unfold propagateLarge
  simp only
  have hhead := h.head
  by_cases hg : (t.s.clause r).garbage = true
  · rw [if_pos hg]
    refine ⟨.refl _, ?_⟩
    have := h.modify (mid := []) (by simp) (by
      rw [List.append_nil]
      exact h.ok.inv.watch.drop (pre := t.kept) (post := ws) (virtW_notLit h.delayed _)
        (by show ¬ (t.s.clause r).garbage = false; rw [hg]; simp)) (by simp)
    simpa using this
  · rw [if_neg hg]
    have hlive : t.s.Live r := by simpa [Solver.Live] using hg
    have hback := h.ok.inv.watch.back _ _ _ hhead hlive
    have hsize := h.ok.inv.clause.size r hlive
    have hsea := h.ok.inv.clause.searched r hlive
    have hnd := h.ok.inv.clause.nodup r hlive
    have hdom := h.ok.inv.trail.dom
    obtain ⟨hv1, hv2⟩ := h.values
    have hc : (virt (neg lit) t (.large b r :: ws)).clause r = t.s.clause r := rfl
    rw [hc] at hback hsize hsea hnd
    obtain ⟨x, y, rest, other, hlits, hother, hxy⟩ := watched_split hsize hback.1
    rw [hother]
    have hwo : (t.s.clause r).Watched other := by
      unfold Clause.Watched
      rw [hlits]
      rcases hxy with ⟨rfl, _⟩ | ⟨_, rfl⟩ <;> simp
    have hmo : other ∈ (t.s.clause r).lits := by
      rcases hwo with h | h <;> exact List.mem_iff_getElem?.2 ⟨_, h⟩
    have hold : ∀ w, (t.s.clause r).Watched w → w = other ∨ w = neg lit := by
      unfold Clause.Watched
      rw [hlits]
      intro w hw
      simp only [List.getElem?_cons_zero, List.getElem?_cons_succ, Option.some.injEq] at hw
      rcases hxy with ⟨rfl, rfl⟩ | ⟨rfl, rfl⟩ <;> rcases hw with rfl | rfl <;> simp
    by_cases hpos : 0 < t.s.values other
    · rw [if_pos hpos]
      refine ⟨.refl _, h.modify (mid := [.large other r]) (by simp) ?_ ?_⟩
      · rw [List.append_assoc]
        exact h.ok.inv.watch.block (pre := t.kept) (post := ws) (b' := other)
          (virtW_notLit h.delayed _) hmo
      · intro b' r' hm hr'
        simp only [List.mem_singleton] at hm
        injection hm with _ hm; subst hm
        have hd : t.s.values other = 1 ∨ t.s.values other = 0 ∨ t.s.values other = -1 :=
          hdom other
        exact ⟨other, hmo, by omega⟩
    · rw [if_neg hpos]
      have hno : other ≠ neg lit := by
        rw [hlits] at hnd
        simp only [List.nodup_cons, List.mem_cons, not_or] at hnd
        rcases hxy with ⟨rfl, rfl⟩ | ⟨rfl, rfl⟩
        · exact hnd.1.1
        · exact fun e => hnd.1.1 e.symm
      cases hfr : findReplacement t.s.values (t.s.clause r).lits (t.s.clause r).searched with
      | some p =>
        simp only
        obtain ⟨hp2, hplt, hpv⟩ := findReplacement_some hfr hsea.1
        generalize hrep : (t.s.clause r).lits.getD p 0 = rep at hpv
        obtain ⟨i, rfl⟩ : ∃ i, p = 2 + i := ⟨p - 2, by omega⟩
        have hget : rest[i]? = some rep := by
          rw [hlits, List.getD_eq_getElem?_getD, show 2 + i = i + 1 + 1 by omega,
            List.getElem?_cons_succ, List.getElem?_cons_succ] at hrep
          rw [hlits] at hplt
          simp only [List.length_cons] at hplt
          rw [List.getElem?_eq_getElem (by omega)] at hrep ⊢
          simpa using hrep
        have hrm : rep ∈ rest := List.mem_iff_getElem?.2 ⟨i, hget⟩
        generalize hc' : ({ t.s.clause r with
          lits := (((t.s.clause r).lits.set 0 other).set 1 rep).set (2 + i) (neg lit),
          searched := 2 + i } : Clause) = c'
        have hl' : c'.lits = other :: rep :: rest.set i (neg lit) := by
          rw [← hc', hlits]
          simp [show 2 + i = i + 1 + 1 by omega]
        have hperm : Permuted (virt (neg lit) t (.large b r :: ws)) r c' := by
          have hp : c'.lits.Perm (t.s.clause r).lits := by
            rw [← hc']
            show (List.set _ _ _).Perm _
            rw [hlits]; exact replace_perm hxy hget
          refine ⟨hlive, hp, ?_, ?_, ?_⟩
          · rw [← hc']; exact hlive
          · rw [← hc']; rfl
          · rw [hp.length_eq]; rw [← hc']; exact ⟨hp2, hplt⟩
        have hrepne : rep ≠ other ∧ rep ≠ neg lit := by
          rw [hlits] at hnd
          simp only [List.nodup_cons, List.mem_cons, not_or] at hnd
          rcases hxy with ⟨rfl, rfl⟩ | ⟨rfl, rfl⟩
          · exact ⟨fun e => hnd.1.2 (e ▸ hrm), fun e => hnd.2.1 (e ▸ hrm)⟩
          · exact ⟨fun e => hnd.2.1 (e ▸ hrm), fun e => hnd.1.2 (e ▸ hrm)⟩
        have hnew : ∀ w, c'.Watched w ↔ w = other ∨ w = rep := by
          intro w
          unfold Clause.Watched
          rw [hl']
          simp only [List.getElem?_cons_zero, List.getElem?_cons_succ, Option.some.injEq]
          constructor
          · rintro (rfl | rfl) <;> simp
          · rintro (rfl | rfl) <;> simp
        have hmove := h.ok.inv.watch.move (pre := t.kept) (post := ws) hperm
          (virtW_notLit h.delayed _) hold hwo hnew hrepne hno
        have hbm : SameBin (upd (upd (virtW (neg lit) t (.large b r :: ws)) (neg lit)
            (t.kept ++ ws)) rep (virtW (neg lit) t (.large b r :: ws) rep ++ [.large other r]))
            (virtW (neg lit) t (.large b r :: ws)) := by
          intro a o
          by_cases ha : a = rep
          · subst ha; rw [upd_same, List.count_append]; simp
          · rw [upd_other _ _ ha]
            have := mem_remove_large (W := virtW (neg lit) t (.large b r :: ws)) (a := neg lit)
              (r := r) (b := b) (pre := t.kept) (post := ws) (mid := [])
              (virtW_notLit h.delayed _) (by simp) a o
            simpa using this
        have hW : virtW (neg lit) { t with
            s := t.s.setClause r c', delayed := t.delayed ++ [(rep, other, r)] } ws =
            upd (upd (virtW (neg lit) t (.large b r :: ws)) (neg lit) (t.kept ++ ws)) rep
              (virtW (neg lit) t (.large b r :: ws) rep ++ [.large other r]) := by
          funext l
          by_cases hl : l = rep
          · subst hl; rw [upd_same]
            unfold virtW
            rw [if_neg hrepne.2, if_neg hrepne.2]
            simp [Solver.setClause]
          · rw [upd_other _ _ hl]
            by_cases hln : l = neg lit
            · subst hln; rw [upd_same]
              refine virtW_notLit ?_ ws
              intro d hd
              rcases List.mem_append.1 hd with hd | hd
              · exact h.delayed d hd
              · simp only [List.mem_singleton] at hd; rw [hd]; exact hrepne.2
            · rw [upd_other _ _ hln]
              unfold virtW
              rw [if_neg hln, if_neg hln]
              simp [Solver.setClause, Ne.symm hl]
        have hok' := hperm.ok h.ok hbm (by
          intro l hv hre
          exfalso
          have hlev : (virt (neg lit) t (.large b r :: ws)).lev l <
              (virt (neg lit) t (.large b r :: ws)).level + 1 :=
            Nat.lt_succ_of_le (h.ok.inv.trail.levle l hv)
          have := (h.ok.inv.reason.large l r hv hre (.inl hlev)).2.1
          have hv : t.s.values l = 1 := hv
          rcases hold l this with rfl | rfl <;> omega) hmove
        have hcl : ∀ r', (t.s.setClause r c').clause r' =
            if r' = r then c' else t.s.clause r' := fun r' => setClause_clause r' hperm.lt
        refine ⟨Frozen.setClause _ _ _, ?_, ?_, h.get, h.frames, ?_, h.keptBinary, ?_, h.lev,
          h.kwle⟩
        · have e : virt (neg lit) { t with
              s := t.s.setClause r c', delayed := t.delayed ++ [(rep, other, r)] } ws =
              { (virt (neg lit) t (.large b r :: ws)).setClause r c' with
                watches := upd (upd (virtW (neg lit) t (.large b r :: ws)) (neg lit)
                  (t.kept ++ ws)) rep
                  (virtW (neg lit) t (.large b r :: ws) rep ++ [.large other r]) } := by
            unfold virt; rw [hW]; rfl
          rw [e]; exact hok'
        · constructor
          · intro r' hr' w hw₀ hv hd
            have hr'' : t.s.Live r' := (hperm.live_iff r').1 hr'
            have hmem : ∀ l, l ∈ ((t.s.setClause r c').clause r').lits ↔
                l ∈ (t.s.clause r').lits := hperm.mem_iff r'
            have hw : ((t.s.setClause r c').clause r').Watched w := hw₀
            clear hw₀
            have hw' : (t.s.clause r').Watched w := by
              rw [hcl] at hw
              split at hw
              · rename_i e; subst e
                rcases (hnew w).1 hw with rfl | rfl
                · exact hwo
                · have hv : t.s.values w = -1 := hv
                  omega
              · exact hw
            refine (h.watching.large r' hr'' w hw' hv hd).imp
              (fun ⟨u, hu, hu'⟩ => ⟨u, (hmem u).2 hu, hu'⟩) ?_
            rintro ⟨e1, e2, v, e3, e4, e5, z, e6, e7, e8, e9⟩
            have e3 : (t.s.clause r').Watched v := e3
            by_cases hn : r' = r ∧ v = neg lit
            · obtain ⟨rfl, rfl⟩ := hn
              have hwr : w ≠ rep := by
                rintro rfl
                have hv : t.s.values w = -1 := hv
                omega
              refine ⟨e1, e2, rep, ?_, Ne.symm hwr, fun h' => ?_, neg lit, ?_, Ne.symm hrepne.2, e4, fun _ => ?_⟩
              · show ((t.s.setClause r' c').clause r').Watched rep
                rw [hcl, if_pos rfl]; exact (hnew rep).2 (.inr rfl)
              · have h' : t.s.values rep = -1 := h'
                omega
              · refine (hmem _).2 ?_
                rcases e3 with e3 | e3 <;> exact List.mem_of_getElem? e3
              · rw [neg_neg]; exact List.mem_of_getElem? h.get
            · refine ⟨e1, e2, v, ?_, e4, fun h1 h2 => ?_, z, (hmem z).2 e6, e7, e8, e9⟩
              · show ((t.s.setClause r c').clause r').Watched v
                rw [hcl]
                split
                · rename_i e; subst e
                  refine (hnew v).2 (.inl ?_)
                  exact (hold v e3).resolve_right fun e => hn ⟨rfl, e⟩
                · exact e3
              · obtain ⟨u, hu, hu'⟩ := e5 h1 h2
                exact ⟨u, (hmem u).2 hu, hu'⟩
          · intro w o hw hv hd
            refine h.watching.binary w o ?_ hv hd
            have hw : Watch.binary o ∈ virtW _ _ _ _ := hw
            rw [hW] at hw; exact (hbm.iff w o).1 hw
        · intro hK b' r' hm hr'
          obtain ⟨u, hu, hu'⟩ := h.keptLarge hK b' r' hm ((hperm.live_iff r').1 hr')
          exact ⟨u, (hperm.mem_iff r' u).2 hu, hu'⟩
        · intro d hd
          rcases List.mem_append.1 hd with hd | hd
          · exact h.delayed d hd
          · simp only [List.mem_singleton] at hd; rw [hd]; exact hrepne.2
      | none =>
        simp only
        have hfalse : ∀ m ∈ (t.s.clause r).lits, m ≠ other → t.s.values m = -1 := by
          have hrest := findReplacement_none hfr
          rw [hlits] at hrest ⊢
          intro m hm hne
          have hd : t.s.values m = 1 ∨ t.s.values m = 0 ∨ t.s.values m = -1 := hdom m
          simp only [List.mem_cons] at hm
          rcases hm with rfl | rfl | hm
          · rcases hxy with ⟨rfl, rfl⟩ | ⟨rfl, rfl⟩
            · exact absurd rfl hne
            · exact hv2
          · rcases hxy with ⟨rfl, rfl⟩ | ⟨rfl, rfl⟩
            · exact hv2
            · exact absurd rfl hne
          · have := hrest m hm
            omega
        have hd : t.s.values other = 1 ∨ t.s.values other = 0 ∨ t.s.values other = -1 :=
          hdom other
        by_cases hnz : t.s.values other ≠ 0
        · rw [if_pos hnz]
          refine ⟨.refl _, virt_cons _ _ _ _ ▸ h.ok, virt_cons _ _ _ _ ▸ h.watching, ⟨hlive, ?_⟩,
            h.weaken.keep (fun h => h.elim) (fun h => h.elim)⟩
          intro m hm
          by_cases hne : m = other
          · subst hne; show t.s.values m = -1; omega
          · exact hfalse m hm hne
        · rw [if_neg hnz]
          exact ⟨Frozen.assign _ _ _ _, h.assignRef hlive hwo (by omega) hfalse⟩

theorem LoopInvG.step {w : Watch} (h : LoopInvG orig G K kw lit k lv t (w :: ws)) :
    StepOkG orig G K kw lit k lv t ws (propagateWatch lv (neg lit) w t) := by
  cases w with
  | binary o => exact h.binary
  | large b r =>
    unfold propagateWatch
    simp only
    by_cases hb : 0 < t.s.values b
    · rw [if_pos hb]
      refine ⟨.refl _, h.keep (fun _ b' r' e hr => ?_) (fun _ o e => by cases e)⟩
      injection e with e1 e2; subst e1 e2
      have hd : t.s.values b = 1 ∨ t.s.values b = 0 ∨ t.s.values b = -1 :=
        h.ok.inv.trail.dom b
      exact ⟨b, (h.ok.inv.watch.back _ _ _ h.head hr).2, by omega⟩
    · rw [if_neg hb]; exact h.large

end

/-- Outcome of the watch loop. -/
theorem LoopInvG.watches {orig : Base} {G : Assignment → Prop} {lit k lv : Nat} :
    ∀ {ws : List Watch} {t : Loop}, LoopInv orig G lit k lv t ws →
    Frozen t.s (propagateWatches lv (neg lit) ws t).1.s ∧
    match (propagateWatches lv (neg lit) ws t).2 with
    | none => LoopInv orig G lit k lv (propagateWatches lv (neg lit) ws t).1 []
    | some c => Ok orig G (virt (neg lit) (propagateWatches lv (neg lit) ws t).1 []) ∧
        Watching (virt (neg lit) (propagateWatches lv (neg lit) ws t).1 []) k ∧
        ConflictOk (virt (neg lit) (propagateWatches lv (neg lit) ws t).1 []) c
  | [], t, h => ⟨.refl _, h⟩
  | w :: ws, t, h => by
    have hs := h.step
    unfold propagateWatches
    cases hp : propagateWatch lv (neg lit) w t with
    | mk t' c =>
      rw [hp] at hs
      obtain ⟨hf, hs⟩ := hs
      cases c with
      | none =>
        have := LoopInvG.watches (ws := ws) (t := t') hs
        exact ⟨hf.trans this.1, this.2⟩
      | some c =>
        have e : virt (neg lit) { t' with kept := t'.kept ++ ws } [] = virt (neg lit) t' ws := by
          unfold virt virtW; simp
        simp only
        refine ⟨hf, ?_⟩
        rw [e]; exact ⟨hs.1, hs.2.1, hs.2.2.1⟩


/-! ## Propagating a literal -/

theorem watchDelayed_eq (s : Solver) (d : List (Nat × Nat × Nat)) :
    watchDelayed s d = { s with watches := (fun l => s.watches l ++
      d.filterMap (fun d => if d.1 = l then some (Watch.large d.2.1 d.2.2) else none)) } := by
  unfold watchDelayed
  induction d generalizing s with
  | nil => simp
  | cons a d ih =>
    rw [List.foldl_cons, ih]
    unfold Solver.pushWatch
    congr 1
    funext l
    simp only [upd_apply, List.filterMap_cons]
    by_cases hl : l = a.1
    · subst hl; simp
    · rw [if_neg hl, if_neg (Ne.symm hl)]

theorem watchDelayed_virt (lit : Nat) (t : Loop) :
    watchDelayed { t.s with watches := upd t.s.watches (neg lit) t.kept } t.delayed =
      virt (neg lit) t [] := by
  rw [watchDelayed_eq]
  unfold virt virtW
  congr 1
  funext l
  simp only [upd_apply, List.append_nil]

/-- Propagating one literal. -/
theorem propagateLiteral_ok {orig : Base} {G : Assignment → Prop} {s : Solver}
    {lit k : Nat} (hok : Ok orig G s) (hw : Watching s k) (hk : s.trail[k]? = some lit)
    (hf : ∀ f ∈ s.frames, f.trail ≤ k) :
    Frozen s (propagateLiteral s lit).1 ∧ Ok orig G (propagateLiteral s lit).1 ∧
    match (propagateLiteral s lit).2 with
    | none => Watching (propagateLiteral s lit).1 (k + 1)
    | some c => Watching (propagateLiteral s lit).1 k ∧ ConflictOk (propagateLiteral s lit).1 c := by
  have e0 : virt (neg lit) ⟨s, [], []⟩ (s.watches (neg lit)) = s := by
    unfold virt virtW
    have : (fun l => (if l = neg lit then [] ++ s.watches (neg lit) else s.watches l) ++
        List.filterMap (fun d : Nat × Nat × Nat =>
          if d.1 = l then some (Watch.large d.2.1 d.2.2) else none) []) = s.watches := by
      funext l
      by_cases hl : l = neg lit
      · subst hl; simp
      · simp [hl]
    simp only at this ⊢
    rw [this]
  have h0 : LoopInv orig G lit k (s.lev lit) ⟨s, [], []⟩ (s.watches (neg lit)) :=
    ⟨e0.symm ▸ hok, e0.symm ▸ hw, hk, hf, by simp, by simp, by simp, rfl, Nat.le_refl _⟩
  have h1 := h0.watches
  unfold propagateLiteral
  simp only
  cases hp : propagateWatches (s.lev lit) (neg lit) (s.watches (neg lit)) ⟨s, [], []⟩ with
  | mk t c =>
    rw [hp] at h1
    simp only
    rw [watchDelayed_virt]
    obtain ⟨hfz, h1⟩ := h1
    have hfz : Frozen s t.s := hfz
    refine ⟨⟨hfz.1, hfz.2, hfz.3, hfz.4, hfz.5, hfz.6, hfz.7, hfz.8, hfz.9, hfz.10, hfz.11,
      hfz.12, hfz.13⟩, ?_⟩
    cases c with
    | some c =>
      simp only at h1 ⊢
      exact ⟨h1.1, h1.2.1, h1.2.2⟩
    | none =>
      simp only at h1 ⊢
      refine ⟨h1.ok, ?_⟩
      have hmem : ∀ w, neg w ∉ t.s.trail.drop (k + 1) → neg w ∉ t.s.trail.drop k ∨ w = neg lit := by
        intro w hw
        by_cases hd : neg w ∈ t.s.trail.drop k
        · right
          rw [List.drop_eq_getElem_cons h1.klt] at hd
          rcases List.mem_cons.1 hd with hd | hd
          · have := (List.getElem?_eq_some_iff.1 h1.get).2
            rw [this] at hd
            rw [← hd, neg_neg]
          · exact absurd hd hw
        · exact .inl hd
      have hvac : ∀ (j : Nat) (f : Frame), t.s.frames[j]? = some f → lit ∈ t.s.trail.drop f.trail := by
        intro j f hj
        have := h1.frames f (List.mem_iff_getElem?.2 ⟨j, hj⟩)
        refine List.mem_iff_getElem?.2 ⟨k - f.trail, ?_⟩
        rw [List.getElem?_drop, Nat.add_sub_cancel' this]; exact h1.get
      constructor
      · intro r hr w hw hv hd
        have hlit : (virt (neg lit) t []).clause r |>.Watched (neg lit) →
            (virt (neg lit) t []).Satisfying ((virt (neg lit) t []).clause r).lits (neg lit) := by
          intro hw
          rcases h1.ok.inv.watch.watched r hr _ hw with ⟨b, hb⟩ | ⟨x, hx, hxv, hx0⟩
          · have hb : Watch.large b r ∈ virtW _ _ _ _ := hb
            rw [virtW_notLit h1.delayed, List.append_nil] at hb
            obtain ⟨x, hx, hxv⟩ := h1.keptLarge trivial b r hb hr
            refine ⟨x, hx, hxv, fun j f hj hd => absurd ?_ hd⟩
            rw [neg_neg]; exact hvac j f hj
          · exact ⟨x, hx, hxv, fun j f _ _ => by omega⟩
        rcases hmem w hd with hd | rfl
        · refine (h1.watching.large r hr w hw hv hd).imp id ?_
          rintro ⟨e1, e2, v, e3, e4, e5, e6⟩
          refine ⟨e1, e2, v, e3, e4, fun g1 g2 => ?_, e6⟩
          rcases hmem v g2 with g2 | rfl
          · exact e5 g1 g2
          · exact hlit e3
        · exact .inl (hlit hw)
      · intro w o hw hv hd
        rcases hmem w hd with hd | rfl
        · exact h1.watching.binary w o hw hv hd
        · have hb : Watch.binary o ∈ virtW _ _ _ _ := hw
          rw [virtW_notLit h1.delayed, List.append_nil] at hb
          refine ⟨o, by simp, h1.keptBinary trivial o hb, fun j f hj hd => absurd ?_ hd⟩
          rw [neg_neg]; exact hvac j f hj

/-! ## The propagation loop -/

/-- The trail has at most one entry per variable. -/
theorem TrailInv.length_le {s : Solver} (h : TrailInv s) : s.trail.length ≤ s.vars := by
  have h1 : (s.trail.map (· / 2)).Nodup := by
    refine List.pairwise_map.2 ?_
    refine List.Pairwise.imp_of_mem ?_ h.nodup
    intro a b ha hb hne e
    rcases eq_or_eq_neg e with rfl | rfl
    · exact hne rfl
    · exact h.not_mem_neg hb ha
  have := nodup_length_le (m := List.range s.vars) h1 (by
    intro x hx
    obtain ⟨l, hl, rfl⟩ := List.mem_map.1 hx
    have := h.valid l (by rw [h.tval l hl]; omega)
    exact List.mem_range.2 this.1)
  simpa using this

/-- The parts of the state the propagation loop does not change. -/
structure Frozen' (s s' : Solver) : Prop where
  vars : s'.vars = s.vars
  removed : s'.removed = s.removed
  frames : s'.frames = s.frames
  level : s'.level = s.level
  options : s'.options = s.options
  inconsistent : s'.inconsistent = s.inconsistent
  iterating : s'.iterating = s.iterating
  lastLearned : s'.lastLearned = s.lastLearned
  decisions : s'.decisions = s.decisions
  loose : s'.loose = s.loose
  trail : ∃ e, s'.trail = s.trail ++ e

/-- The invariant between propagation steps. -/
structure PropInv (orig : Base) (G : Assignment → Prop) (s : Solver) : Prop where
  ok : Ok orig G s
  watching : Watching s s.propagate
  frames : ∀ f ∈ s.frames, f.trail ≤ s.propagate
  le : s.propagate ≤ s.trail.length

theorem propagateLoop_ok {orig : Base} {G : Assignment → Prop} :
    ∀ (n : Nat) {s : Solver}, PropInv orig G s → s.vars < n + s.propagate →
    Frozen' s (propagateLoop n s).1 ∧ Ok orig G (propagateLoop n s).1 ∧
    (propagateLoop n s).1.conflicts = s.conflicts ∧
    match (propagateLoop n s).2 with
    | none => (propagateLoop n s).1.propagate = (propagateLoop n s).1.trail.length ∧
        Watching (propagateLoop n s).1 (propagateLoop n s).1.trail.length
    | some c => ConflictOk (propagateLoop n s).1 c ∧ ∃ k, Watching (propagateLoop n s).1 k ∧
        ∀ f ∈ (propagateLoop n s).1.frames, f.trail ≤ k
  | 0, s, h, hn => by
    have := h.ok.inv.trail.length_le
    have := h.le
    omega
  | n + 1, s, h, hn => by
    unfold propagateLoop
    cases hk : s.trail[s.propagate]? with
    | none =>
      simp only
      have : s.propagate = s.trail.length := by
        have := List.getElem?_eq_none_iff.1 hk
        have := h.le
        omega
      exact ⟨⟨rfl, rfl, rfl, rfl, rfl, rfl, rfl, rfl, rfl, rfl, [], by simp⟩, h.ok, trivial, this,
        this ▸ h.watching⟩
    | some lit =>
      simp only
      have hok : Ok orig G { s with propagate := s.propagate + 1 } :=
        h.ok.misc (s.propagate + 1) s.iterating s.conflicts s.decisions s.options
      have hw : Watching { s with propagate := s.propagate + 1 } s.propagate :=
        h.watching.misc (s.propagate + 1) s.inconsistent s.iterating s.conflicts s.decisions
          s.proof s.options
      have hp := propagateLiteral_ok hok hw (lit := lit) hk h.frames
      cases hres : propagateLiteral { s with propagate := s.propagate + 1 } lit with
      | mk s' c =>
        rw [hres] at hp
        obtain ⟨hfz, hok', hp⟩ := hp
        simp only at hfz hok' hp
        have hfz' : Frozen' s s' := ⟨hfz.1, hfz.2, hfz.3, hfz.4, hfz.5, hfz.7, hfz.8, hfz.9,
          hfz.10, hfz.12, hfz.13⟩
        cases c with
        | some c =>
          simp only at hp ⊢
          refine ⟨hfz', hok', hfz.conflicts, hp.2, s.propagate, hp.1, ?_⟩
          rw [hfz.frames]; exact h.frames
        | none =>
          simp only at hp ⊢
          have hprop : s'.propagate = s.propagate + 1 := hfz.propagate
          have hinv : PropInv orig G s' := by
            refine ⟨hok', by rw [hprop]; exact hp, ?_, ?_⟩
            · rw [hfz.frames, hprop]; intro f hf; exact Nat.le_succ_of_le (h.frames f hf)
            · rw [hprop]
              obtain ⟨e, he⟩ := hfz.trail
              have := (List.getElem?_eq_some_iff.1 hk).1
              rw [he, List.length_append]
              show s.propagate + 1 ≤ s.trail.length + _
              omega
          have hr := propagateLoop_ok n hinv (by
            rw [hprop, hfz.vars]; show s.vars < _; omega)
          obtain ⟨f1, f2⟩ := hr
          obtain ⟨e, he⟩ := hfz'.trail
          obtain ⟨e', he'⟩ := f1.trail
          refine ⟨⟨f1.1.trans hfz'.1, f1.2.trans hfz'.2, f1.3.trans hfz'.3, f1.4.trans hfz'.4,
            f1.5.trans hfz'.5, f1.6.trans hfz'.6, f1.7.trans hfz'.7, f1.8.trans hfz'.8,
            f1.9.trans hfz'.9, f1.10.trans hfz'.10, e ++ e', by rw [he', he, List.append_assoc]⟩, f2.1, ?_, f2.2.2⟩
          rw [f2.2.1]; exact hfz.conflicts

end Verif.Core
