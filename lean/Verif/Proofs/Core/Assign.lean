import Verif.Proofs.Core.Inv

/-! # Assigning a literal preserves the invariants -/

namespace Verif.Core

open Verif.Spec

/-! ## Basic facts -/

@[simp] theorem upd_same {α : Type} (f : Nat → α) (i : Nat) (v : α) : upd f i v i = v := by
  simp [upd]

theorem upd_other {α : Type} (f : Nat → α) {i j : Nat} (v : α) (h : j ≠ i) :
    upd f i v j = f j := by
  simp [upd, h]

theorem upd_apply {α : Type} (f : Nat → α) (i j : Nat) (v : α) :
    upd f i v j = if j = i then v else f j := rfl

namespace TrailInv

variable {s : Solver} (h : TrailInv s)
include h

theorem neg_one {l : Nat} : s.values (neg l) = -1 ↔ s.values l = 1 := by
  rw [h.anti]; omega

theorem neg_pos {l : Nat} : s.values (neg l) = 1 ↔ s.values l = -1 := by
  rw [h.anti]; omega

theorem zero_of_div {l m : Nat} (e : l / 2 = m / 2) (hl : s.values l = 0) : s.values m = 0 := by
  rcases eq_or_eq_neg e with rfl | rfl
  · exact hl
  · rw [h.anti] at hl; omega

theorem div_ne {l m : Nat} (hl : s.values l ≠ 0) (hm : s.values m = 0) : l / 2 ≠ m / 2 :=
  fun e => hl (h.zero_of_div e.symm hm)

theorem not_mem_neg {l : Nat} (hl : l ∈ s.trail) : neg l ∉ s.trail := by
  intro hn
  have h1 := h.tval _ hl
  have h2 := h.tval _ hn
  rw [h.anti, h1] at h2; omega

theorem pos_lt {l : Nat} (hl : l ∈ s.trail) : s.pos l < s.trail.length := by
  obtain ⟨p, hp⟩ := List.mem_iff_getElem?.1 hl
  rw [h.tpos p l hp]
  exact (List.getElem?_eq_some_iff.1 hp).1

theorem get_pos {l : Nat} (hl : l ∈ s.trail) : s.trail[s.pos l]? = some l := by
  obtain ⟨p, hp⟩ := List.mem_iff_getElem?.1 hl
  rw [h.tpos p l hp]; exact hp

theorem mem_drop {l k : Nat} (hl : l ∈ s.trail) : l ∈ s.trail.drop k ↔ k ≤ s.pos l := by
  constructor
  · intro hd
    obtain ⟨p, hp⟩ := List.mem_iff_getElem?.1 hd
    rw [List.getElem?_drop] at hp
    rw [h.tpos _ l hp]; omega
  · intro hk
    refine List.mem_iff_getElem?.2 ⟨s.pos l - k, ?_⟩
    rw [List.getElem?_drop, Nat.add_sub_cancel' hk]
    exact h.get_pos hl

theorem mem_take {l k : Nat} (hl : l ∈ s.trail) : l ∈ s.trail.take k ↔ s.pos l < k := by
  constructor
  · intro hd
    obtain ⟨p, hp⟩ := List.mem_iff_getElem?.1 hd
    rw [List.getElem?_take] at hp
    split at hp
    · rw [h.tpos _ l hp]; omega
    · cases hp
  · intro hk
    refine List.mem_iff_getElem?.2 ⟨s.pos l, ?_⟩
    rw [List.getElem?_take, if_pos hk]
    exact h.get_pos hl

theorem not_mem_drop {l k : Nat} (hl : l ∈ s.trail) : l ∉ s.trail.drop k ↔ s.pos l < k := by
  rw [h.mem_drop hl]; omega

theorem on_trail {l : Nat} (hv : s.values l = 1) (h0 : s.lev l ≠ 0) : l ∈ s.trail := by
  by_cases hm : l ∈ s.trail
  · exact hm
  · exact absurd (h.flushed l hv hm) h0

theorem pos_eq {l m : Nat} (hl : l ∈ s.trail) (hm : m ∈ s.trail) (e : s.pos l = s.pos m) :
    l = m := by
  have h1 := h.get_pos hl
  have h2 := h.get_pos hm
  rw [e, h2] at h1; exact (Option.some.inj h1).symm

theorem frame_lt {j : Nat} {f : Frame} (hf : s.frames[j]? = some f) : f.trail < s.trail.length :=
  (List.getElem?_eq_some_iff.1 (h.decision j f hf).1).1

theorem frame_level {j : Nat} {f : Frame} (hf : s.frames[j]? = some f) : j < s.level := by
  rw [← h.frames]; exact (List.getElem?_eq_some_iff.1 hf).1

theorem frame_exists {j : Nat} (hj : j < s.level) : ∃ f, s.frames[j]? = some f := by
  rw [← h.frames] at hj; exact ⟨_, List.getElem?_eq_some_iff.2 ⟨hj, rfl⟩⟩

theorem decision_mem {j : Nat} {f : Frame} (hf : s.frames[j]? = some f) :
    f.decision ∈ s.trail := List.mem_iff_getElem?.2 ⟨_, (h.decision j f hf).1⟩

theorem decision_pos {j : Nat} {f : Frame} (hf : s.frames[j]? = some f) :
    s.pos f.decision = f.trail := h.tpos _ _ (h.decision j f hf).1

/-- Frames are strictly increasing. -/
theorem frame_mono {i j : Nat} {f g : Frame} (hf : s.frames[i]? = some f)
    (hg : s.frames[j]? = some g) (hij : i < j) : f.trail < g.trail := by
  rcases Nat.lt_trichotomy f.trail g.trail with hlt | heq | hgt
  · exact hlt
  · have h1 := h.decision i f hf
    have h2 := h.decision j g hg
    rw [heq, h2.1] at h1
    have := Option.some.inj h1.1
    rw [← this, h2.2] at h1; omega
  · have h2 := h.decision j g hg
    have := h.before i f hf g.decision ((h.mem_take (h.decision_mem hg)).2 (by
      rw [h.decision_pos hg]; exact hgt))
    omega

/-- A literal of level `j + 1` is not before the frame of that level. -/
theorem frame_le_pos {j : Nat} {f : Frame} (hf : s.frames[j]? = some f) {l : Nat}
    (hl : l ∈ s.trail) (hlev : j < s.lev l) : f.trail ≤ s.pos l := by
  by_cases hp : s.pos l < f.trail
  · have := h.before j f hf l ((h.mem_take hl).2 hp)
    omega
  · omega

/-- `before` in terms of `drop`. -/
theorem lev_le_of_not_mem_drop {j : Nat} {f : Frame} (hf : s.frames[j]? = some f) {l : Nat}
    (hv : s.values l = 1) (hl : l ∉ s.trail.drop f.trail) : s.lev l ≤ j := by
  by_cases hm : l ∈ s.trail
  · exact h.before j f hf l ((h.mem_take hm).2 ((h.not_mem_drop hm).1 hl))
  · rw [h.flushed l hv hm]; omega

end TrailInv

/-! ## Formula facts -/

theorem lev_neg (s : Solver) (l : Nat) : s.lev (neg l) = s.lev l := by simp [Solver.lev]
theorem pos_neg (s : Solver) (l : Nat) : s.pos (neg l) = s.pos l := by simp [Solver.pos]
theorem valid_neg (s : Solver) (l : Nat) : s.Valid (neg l) ↔ s.Valid l := by simp [Solver.Valid]

theorem formula_large {s : Solver} {r : Nat} (h : s.Live r) : s.formula (s.clause r).lits :=
  .inl ⟨r, h, rfl⟩

theorem formula_binary {s : Solver} {a b : Nat} (h : Watch.binary b ∈ s.watches a) :
    s.formula [a, b] := .inr (.inl ⟨a, b, h, rfl⟩)

theorem formula_unit {s : Solver} {l : Nat} (hv : s.values l = 1) (h0 : s.lev l = 0) :
    s.formula [l] := .inr (.inr ⟨l, hv, h0, rfl⟩)

theorem UP.bins {s : Solver} {A : Nat → Prop} {l : Nat} (h : UP s.bins A l) :
    UP s.formula A l :=
  h.mono (fun c hc => ⟨c, .inr (.inl hc), .refl c⟩) (fun _ h => .assumed h)

theorem irr_formula {s : Solver} {c : List Nat} (h : s.irr c) : s.formula c := by
  rcases h with ⟨r, h, _, e⟩ | h | h
  · exact .inl ⟨r, h, e⟩
  · exact .inr (.inl h)
  · exact .inr (.inr h)

theorem UP.of_unit {F : Formula} {A : Nat → Prop} {l : Nat} (h : F [l]) : UP F A l :=
  .unit h (by simp) (by simp)

theorem UP.binary {F : Formula} {A : Nat → Prop} {a b : Nat} (h : F [a, b])
    (hb : UP F A (neg b)) : UP F A a :=
  .unit h (by simp) (by
    intro m hm hne
    simp only [List.mem_cons, List.not_mem_nil, or_false] at hm
    rcases hm with rfl | rfl
    · exact absurd rfl hne
    · exact hb)

/-! ## Assignment -/

section
variable {s : Solver} {level lit : Nat} {reason : Reason}

theorem assignCore_values (x : Nat) :
    (s.assignCore level lit reason).values x =
      if x = neg lit then -1 else if x = lit then 1 else s.values x := rfl

theorem assignCore_lev (x : Nat) :
    (s.assignCore level lit reason).lev x = if x / 2 = lit / 2 then level else s.lev x := by
  simp only [Solver.lev, Solver.assignCore, upd]
  split <;> rfl

theorem assignCore_pos (x : Nat) :
    (s.assignCore level lit reason).pos x =
      if x / 2 = lit / 2 then s.trail.length else s.pos x := by
  simp only [Solver.pos, Solver.assignCore, upd]
  split <;> rfl

theorem assignCore_reason (v : Nat) :
    ((s.assignCore level lit reason).assigned v).reason =
      if v = lit / 2 then reason else (s.assigned v).reason := by
  simp only [Solver.assignCore, upd]
  split <;> rfl

/-- Values that were set do not change. -/
theorem assignCore_old (h : TrailInv s) (h0 : s.values lit = 0) {x : Nat} (hx : s.values x ≠ 0) :
    (s.assignCore level lit reason).values x = s.values x ∧
    (s.assignCore level lit reason).lev x = s.lev x ∧
    (s.assignCore level lit reason).pos x = s.pos x ∧
    ((s.assignCore level lit reason).assigned (x / 2)) = s.assigned (x / 2) := by
  have hd := h.div_ne hx h0
  have h1 : x ≠ lit := fun e => hd (by rw [e])
  have h2 : x ≠ neg lit := fun e => hd (by rw [e, neg_div])
  refine ⟨?_, ?_, ?_, ?_⟩
  · rw [assignCore_values, if_neg h2, if_neg h1]
  · rw [assignCore_lev, if_neg hd]
  · rw [assignCore_pos, if_neg hd]
  · simp [Solver.assignCore, upd, hd]

theorem free_mem (s : Solver) (v : Nat) :
    v ∈ s.free ↔ v < s.vars ∧ s.removed v = false ∧ s.values (2 * v) = 0 := by
  simp [Solver.free]

theorem free_nodup (s : Solver) : s.free.Nodup := List.filter_sublist.nodup List.nodup_range

theorem TrailInv.free_iff (h : TrailInv s) (l : Nat) :
    l / 2 ∈ s.free ↔ s.Valid l ∧ s.values l = 0 := by
  rw [free_mem]
  have : s.values (2 * (l / 2)) = 0 ↔ s.values l = 0 :=
    ⟨h.zero_of_div (by omega), h.zero_of_div (by omega)⟩
  rw [this]; simp [Solver.Valid, and_assoc]

theorem free_erase (h : TrailInv s) (h0 : s.values lit = 0) (hval : s.Valid lit)
    (s' : Solver) (hv : s'.vars = s.vars) (hr : s'.removed = s.removed)
    (hx : ∀ x, s'.values x = if x = neg lit then -1 else if x = lit then 1 else s.values x) :
    s'.free.length = s.free.length - 1 ∧ 0 < s.free.length := by
  have hm : lit / 2 ∈ s.free := (h.free_iff lit).2 ⟨hval, h0⟩
  have e : s'.free = s.free.erase (lit / 2) := by
    rw [(free_nodup s).erase_eq_filter]
    unfold Solver.free
    rw [List.filter_filter, hv, hr]
    apply List.filter_congr
    intro v _
    rw [hx]
    by_cases hvl : v = lit / 2
    · subst hvl
      rcases eq_or_eq_neg (show 2 * (lit / 2) / 2 = lit / 2 by omega) with e | e
      · rw [if_neg, if_pos e]
        · simp
        · rw [e]; exact ne_neg _
      · rw [if_pos e]; simp
    · have h1 : 2 * v ≠ neg lit := fun e => hvl (by
        have := congrArg (· / 2) e; simp at this; omega)
      have h2 : 2 * v ≠ lit := fun e => hvl (by omega)
      rw [if_neg h1, if_neg h2]
      simp [hvl]
  rw [e, List.length_erase_of_mem hm]
  exact ⟨rfl, List.length_pos_of_mem hm⟩

theorem TrailInv.assignCore (h : TrailInv s) (h0 : s.values lit = 0) (hval : s.Valid lit)
    (hlev : level ≤ s.level) : TrailInv (s.assignCore level lit reason) := by
  have hnot : lit ∉ s.trail := fun hm => by have := h.tval _ hm; omega
  have old : ∀ {x}, s.values x ≠ 0 → _ := fun {x} hx =>
    assignCore_old (level := level) (reason := reason) h h0 hx
  have told : ∀ l ∈ s.trail, (s.assignCore level lit reason).lev l = s.lev l := fun l hl =>
    (old (by rw [h.tval _ hl]; omega)).2.1
  have hneg0 : s.values (neg lit) = 0 := by rw [h.anti, h0]; rfl
  refine ⟨?_, ?_, ?_, ?_, ?_, ?_, ?_, ?_, ?_, h.frames, ?_, ?_, ?_⟩
  · intro l; rw [assignCore_values]; have := h.dom l; split
    · omega
    · split <;> omega
  · intro l; rw [assignCore_values, assignCore_values]
    by_cases e1 : l = lit
    · subst e1; simp [ne_neg]
    · by_cases e2 : l = neg lit
      · subst e2
        rw [neg_neg, if_neg (ne_neg lit)]; simp
      · rw [if_neg (by simpa using e1), if_neg (fun e => e2 (by rw [← e, neg_neg])),
          if_neg e2, if_neg e1]
        exact h.anti l
  · intro l hl
    rw [assignCore_values] at hl
    split at hl
    · rename_i e; rw [e]; exact (valid_neg _ _).2 hval
    · split at hl
      · rename_i e; rw [e]; exact hval
      · exact h.valid l hl
  · have := free_erase h h0 hval (s.assignCore level lit reason) rfl rfl
      (fun x => assignCore_values x)
    rw [this.1, ← h.count]; rfl
  · show (s.trail ++ [lit]).Nodup
    rw [List.nodup_append]
    exact ⟨h.nodup, by simp, fun a ha b hb => by
      simp at hb; subst hb; exact fun e => hnot (e ▸ ha)⟩
  · intro l hl
    rcases List.mem_append.1 (show l ∈ s.trail ++ [lit] from hl) with hl | hl
    · rw [(old (by rw [h.tval _ hl]; omega)).1]; exact h.tval _ hl
    · simp at hl; subst hl
      rw [assignCore_values, if_neg (ne_neg _), if_pos rfl]
  · intro p l hp
    have hp : (s.trail ++ [lit])[p]? = some l := hp
    rw [List.getElem?_append] at hp
    split at hp
    · rw [(old (by rw [h.tval _ (List.mem_iff_getElem?.2 ⟨_, hp⟩)]; omega)).2.2.1]
      exact h.tpos p l hp
    · have hlt := (List.getElem?_eq_some_iff.1 hp).1
      simp at hlt
      have : p = s.trail.length := by omega
      subst this
      simp at hp; subst hp
      rw [assignCore_pos, if_pos rfl]
  · intro l hl hm
    have hm : l ∉ s.trail ++ [lit] := hm
    simp only [List.mem_append, List.mem_singleton, not_or] at hm
    have hv : s.values l = 1 := by
      rw [assignCore_values] at hl
      split at hl
      · cases hl
      · rw [if_neg hm.2] at hl; exact hl
    rw [(old (by omega)).2.1]
    exact h.flushed l hv hm.1
  · intro l hl
    rw [assignCore_lev]
    split
    · exact hlev
    · rename_i hd
      rw [assignCore_values, if_neg (fun e => hd (by rw [e, neg_div])),
        if_neg (fun e => hd (by rw [e]))] at hl
      exact h.levle l hl
  · intro j f hf
    have hd := h.decision j f hf
    have hm : f.decision ∈ s.trail := h.decision_mem hf
    refine ⟨?_, ?_⟩
    · show (s.trail ++ [lit])[f.trail]? = _
      rw [List.getElem?_append_left (h.frame_lt hf)]; exact hd.1
    · rw [told _ hm]; exact hd.2
  · intro j f hf l hl
    have hl : l ∈ (s.trail ++ [lit]).take f.trail := hl
    rw [List.take_append_of_le_length (Nat.le_of_lt (h.frame_lt hf))] at hl
    rw [told _ (List.mem_of_mem_take hl)]
    exact h.before j f hf l hl
  · show (if level = 0 then s.unflushed + 1 else s.unflushed) =
      ((s.trail ++ [lit]).filter _).length
    rw [List.filter_append, List.length_append, h.unflushed]
    have e1 : s.trail.filter (fun l => decide ((s.assignCore level lit reason).lev l = 0)) =
        s.trail.filter (fun l => decide (s.lev l = 0)) :=
      List.filter_congr fun l hl => by rw [told l hl]
    rw [e1]
    have e2 : (s.assignCore level lit reason).lev lit = level := by
      rw [assignCore_lev, if_pos rfl]
    by_cases hl0 : level = 0
    · rw [if_pos hl0, List.filter_cons_of_pos (by rw [e2]; simp [hl0])]; rfl
    · rw [if_neg hl0, List.filter_cons_of_neg (by rw [e2]; simp [hl0])]; rfl

/-- What a reason has to satisfy when a literal is assigned. -/
def ReasonOk (s : Solver) (level lit : Nat) : Reason → Prop
  | .unit => level = 0
  | .decision => False
  | .binary o => s.values o = -1 ∧ s.lev o = level ∧ UP s.bins (fun x => x = neg o) lit
  | .large r => s.Live r ∧ (s.clause r).Watched lit ∧ (∀ m ∈ (s.clause r).lits, m ≠ lit →
      s.values m = -1 ∧ s.lev m ≤ level) ∧ ∃ m ∈ (s.clause r).lits, m ≠ lit ∧ s.lev m = level

theorem formula_assignCore (h : TrailInv s) (h0 : s.values lit = 0) {c : List Nat}
    (hc : s.formula c) : (s.assignCore level lit reason).formula c := by
  rcases hc with hc | hc | ⟨l, hv, hl, e⟩
  · exact .inl hc
  · exact .inr (.inl hc)
  · have := assignCore_old (level := level) (reason := reason) h h0 (x := l) (by omega)
    exact .inr (.inr ⟨l, by rw [this.1]; exact hv, by rw [this.2.1]; exact hl, e⟩)

theorem ReasonInv.assignCore {L k : Nat} (h : ReasonInv s L k) (ht : TrailInv s)
    (h0 : s.values lit = 0)
    (hr : ReasonOk s level lit reason) (hu : level = 0 → reason = .unit) :
    ReasonInv (s.assignCore level lit reason) L k := by
  have old : ∀ {x}, s.values x ≠ 0 → _ := fun {x} hx =>
    assignCore_old (level := level) (reason := reason) ht h0 hx
  have split : ∀ l, (s.assignCore level lit reason).values l = 1 →
      l = lit ∨ s.values l = 1 := by
    intro l hl
    rw [assignCore_values] at hl
    split at hl
    · cases hl
    · split at hl
      · left; assumption
      · right; exact hl
  have up : ∀ {A l}, UP s.bins A l → UP (s.assignCore level lit reason).bins A l :=
    fun hup => hup
  have newlev : (s.assignCore level lit reason).lev lit = level := by
    rw [assignCore_lev, if_pos rfl]
  have newreason : ((s.assignCore level lit reason).assigned (lit / 2)).reason = reason := by
    rw [assignCore_reason, if_pos rfl]
  have newpos : (s.assignCore level lit reason).pos lit = s.trail.length := by
    rw [assignCore_pos, if_pos rfl]
  refine ⟨?_, ?_, ?_, ?_, ?_⟩
  · intro l hl hlev
    rcases split l hl with rfl | hv
    · rw [newreason]; exact hu (by rw [← newlev]; exact hlev)
    · have o := old (x := l) (by omega)
      rw [o.2.2.2]; exact h.root l hv (by rw [← o.2.1]; exact hlev)
  · intro l hl hlev
    rcases split l hl with rfl | hv
    · rw [newreason]; rintro rfl
      rw [newlev] at hlev; exact hlev hr
    · have o := old (x := l) (by omega)
      rw [o.2.2.2]; exact h.unit l hv (by rw [← o.2.1]; exact hlev)
  · intro l hl hre
    rcases split l hl with rfl | hv
    · rw [newreason] at hre; subst hre; exact hr.elim
    · have o := old (x := l) (by omega)
      rw [o.2.2.2] at hre
      rw [o.2.1]; exact h.decision l hv hre
  · intro l o hl hre
    rcases split l hl with rfl | hv
    · rw [newreason] at hre; subst hre
      obtain ⟨h1, h2, h3⟩ := hr
      have oo := old (x := o) (by omega)
      have hlev0 : level ≠ 0 := fun e => by have := hu e; cases this
      have ho : neg o ∈ s.trail := ht.on_trail ((ht.neg_pos).2 h1) (by rw [lev_neg, h2]; exact hlev0)
      refine ⟨by rw [oo.1]; exact h1, by rw [oo.2.1, newlev]; exact h2, ?_, up h3⟩
      rw [oo.2.2.1, newpos, ← pos_neg]; exact ht.pos_lt ho
    · have ol := old (x := l) (by omega)
      rw [ol.2.2.2] at hre
      obtain ⟨h1, h2, h3, h4⟩ := h.binary l o hv hre
      have oo := old (x := o) (by omega)
      exact ⟨by rw [oo.1]; exact h1, by rw [oo.2.1, ol.2.1]; exact h2,
        by rw [oo.2.2.1, ol.2.2.1]; exact h3, up h4⟩
  · intro l r hl hre hk
    rcases split l hl with rfl | hv
    · rw [newreason] at hre; subst hre
      obtain ⟨h1, h2, h3, m', hm', hne', hl'⟩ := hr
      refine ⟨h1, h2, fun m hm hne => ?_, m', hm', hne', by
        rw [(old (by have := (h3 m' hm' hne').1; omega)).2.1, newlev]; exact hl'⟩
      obtain ⟨h4, h5⟩ := h3 m hm hne
      have om := old (x := m) (by omega)
      refine ⟨by rw [om.1]; exact h4, by rw [om.2.1, newlev]; exact h5, ?_⟩
      rw [om.2.1, om.2.2.1, newpos]
      by_cases hm0 : s.lev m = 0
      · exact .inl hm0
      · right
        rw [← pos_neg]
        exact ht.pos_lt (ht.on_trail (ht.neg_pos.2 h4) (by rw [lev_neg]; exact hm0))
    · have ol := old (x := l) (by omega)
      rw [ol.2.2.2] at hre
      rw [ol.2.1, ol.2.2.1] at hk
      obtain ⟨h1, h2, h3, m', hm', hne', hl'⟩ := h.large l r hv hre hk
      refine ⟨h1, h2, fun m hm hne => ?_, m', hm', hne', by
        rw [(old (by have := (h3 m' hm' hne').1; omega)).2.1, ol.2.1]; exact hl'⟩
      obtain ⟨h4, h5, h6⟩ := h3 m hm hne
      have om := old (x := m) (by omega)
      exact ⟨by rw [om.1]; exact h4, by rw [om.2.1, ol.2.1]; exact h5,
        by rw [om.2.1, om.2.2.1, ol.2.2.1]; exact h6⟩

theorem ClauseInv.assignCore (h : ClauseInv s) : ClauseInv (s.assignCore level lit reason) :=
  ⟨h.size, h.nodup, h.taut, h.valid, h.searched, h.bin, h.last⟩

theorem RootSat.assignCore (ht : TrailInv s) (h0 : s.values lit = 0) {c : List Nat}
    (h : s.RootSat c) : (s.assignCore level lit reason).RootSat c := by
  obtain ⟨t, hm, hv, hl⟩ := h
  have o := assignCore_old (level := level) (reason := reason) ht h0 (x := t) (by omega)
  exact ⟨t, hm, by rw [o.1]; exact hv, by rw [o.2.1]; exact hl⟩

theorem WatchInv.assignCore (h : WatchInv s) (ht : TrailInv s) (h0 : s.values lit = 0) :
    WatchInv (s.assignCore level lit reason) :=
  ⟨fun r hr w hw => (h.watched r hr w hw).imp id (RootSat.assignCore ht h0), h.inarena, h.back, h.once⟩

theorem Satisfying.assignCore (ht : TrailInv s) (h0 : s.values lit = 0) {c : List Nat} {w : Nat}
    (h : s.Satisfying c w) : (s.assignCore level lit reason).Satisfying c w := by
  obtain ⟨t, hm, hv, hf⟩ := h
  have o := assignCore_old (level := level) (reason := reason) ht h0 (x := t) (by omega)
  refine ⟨t, hm, by rw [o.1]; exact hv, fun j f hj hd => ?_⟩
  rw [o.2.1]
  refine hf j f hj fun hd' => hd ?_
  show _ ∈ (s.trail ++ [lit]).drop f.trail
  rw [List.drop_append_of_le_length (Nat.le_of_lt (ht.frame_lt hj))]
  exact List.mem_append_left _ hd'

theorem assign_processed (ht : TrailInv s) (h0 : s.values lit = 0) {k w : Nat}
    (hk : k ≤ s.trail.length) (hw : (s.assignCore level lit reason).values w = -1)
    (hd : neg w ∉ (s.assignCore level lit reason).trail.drop k) :
    s.values w = -1 ∧ neg w ∉ s.trail.drop k := by
  have e : (s.assignCore level lit reason).trail.drop k = s.trail.drop k ++ [lit] := by
    show (s.trail ++ [lit]).drop k = _
    rw [List.drop_append_of_le_length hk]
  rw [e] at hd
  simp only [List.mem_append, List.mem_singleton, not_or] at hd
  refine ⟨?_, hd.1⟩
  rw [assignCore_values] at hw
  split at hw
  · rename_i e; rw [e] at hd; simp at hd
  · split at hw
    · cases hw
    · exact hw

theorem Excused.assignCore (ht : TrailInv s) (h0 : s.values lit = 0) {k w : Nat} {c : Clause}
    (hk : k ≤ s.trail.length) (hw : s.values w = -1) (h : s.Excused k c w) :
    (s.assignCore level lit reason).Excused k c w := by
  obtain ⟨h1, h2, v, h3, h4, h5, t, h6, h7, h8, h9⟩ := h
  have o := assignCore_old (level := level) (reason := reason) ht h0 (x := w) (by omega)
  refine ⟨h1, by rw [o.2.1]; exact h2, v, h3, h4, fun hv hd => ?_, t, h6, h7, h8, fun hv => ?_⟩
  · obtain ⟨a, b⟩ := assign_processed ht h0 hk hv hd
    exact Satisfying.assignCore ht h0 (h5 a b)
  · show neg t ∈ s.trail ++ [lit]
    rw [assignCore_values] at hv
    split at hv
    · rename_i e; rw [e, neg_neg]; simp
    · split at hv
      · cases hv
      · exact List.mem_append_left _ (h9 hv)

theorem Watching.assignCore {k : Nat} (h : Watching s k) (ht : TrailInv s)
    (h0 : s.values lit = 0) (hk : k ≤ s.trail.length) :
    Watching (s.assignCore level lit reason) k := by
  constructor
  · intro r hr w hw hv hd
    obtain ⟨h1, h2⟩ := assign_processed ht h0 hk hv hd
    exact (h.large r hr w hw h1 h2).imp (Satisfying.assignCore ht h0) (Excused.assignCore ht h0 hk h1)
  · intro w o hw hv hd
    obtain ⟨h1, h2⟩ := assign_processed ht h0 hk hv hd
    exact Satisfying.assignCore ht h0 (h.binary w o hw h1 h2)

end

/-! ## Emission of proof lines does not matter -/

theorem Inv.emit {s : Solver} (h : Inv s) (l : Line) : Inv (s.emit l) := by
  obtain ⟨h1, h2, h3, h4⟩ := h
  exact ⟨⟨h1.1, h1.2, h1.3, h1.4, h1.5, h1.6, h1.7, h1.8, h1.9, h1.10, h1.11, h1.12, h1.13⟩,
    ⟨h2.1, h2.2, h2.3, h2.4, h2.5⟩, ⟨h3.1, h3.2, h3.3, h3.4, h3.5, h3.6, h3.7⟩,
    ⟨h4.1, h4.2, h4.3, h4.4⟩⟩

theorem Watching.emit {s : Solver} {k : Nat} (h : Watching s k) (l : Line) :
    Watching (s.emit l) k := ⟨h.1, h.2⟩

/-- Condition under which a literal may be assigned. -/
structure AssignOk (s : Solver) (level lit : Nat) (reason : Reason) : Prop where
  zero : s.values lit = 0
  valid : s.Valid lit
  le : level ≤ s.level
  ok : ReasonOk s level lit reason

theorem assign_eq (s : Solver) (level lit : Nat) (reason : Reason) :
    ∃ reason', (level = 0 → reason' = .unit) ∧ (level ≠ 0 → reason' = reason) ∧
      (s.assign level lit reason = s.assignCore level lit reason' ∨
       s.assign level lit reason = (s.assignCore level lit reason').emit (.add [lit])) := by
  unfold Solver.assign
  by_cases h0 : level = 0
  · rw [if_pos h0]
    refine ⟨.unit, fun _ => rfl, fun h => absurd h0 h, ?_⟩
    split
    · left; rfl
    · right; rfl
  · rw [if_neg h0]
    exact ⟨reason, fun h => absurd h h0, fun _ => rfl, .inl rfl⟩

theorem Inv.assign {s : Solver} (h : Inv s) {level lit : Nat} {reason : Reason}
    (ha : AssignOk s level lit reason) : Inv (s.assign level lit reason) := by
  obtain ⟨r', h1, h2, he⟩ := assign_eq s level lit reason
  have key : Inv (s.assignCore level lit r') := by
    refine ⟨h.trail.assignCore ha.zero ha.valid ha.le,
      h.reason.assignCore h.trail ha.zero ?_ h1, h.clause.assignCore, h.watch.assignCore h.trail ha.zero⟩
    by_cases h0 : level = 0
    · rw [h1 h0]; exact h0
    · rw [h2 h0]; exact ha.ok
  rcases he with e | e
  · rw [e]; exact key
  · rw [e]; exact key.emit _

theorem Watching.assign {s : Solver} {k : Nat} (h : Watching s k) (ht : TrailInv s)
    {level lit : Nat} {reason : Reason} (h0 : s.values lit = 0) (hk : k ≤ s.trail.length) :
    Watching (s.assign level lit reason) k := by
  obtain ⟨r', _, _, he⟩ := assign_eq s level lit reason
  rcases he with e | e
  · rw [e]; exact h.assignCore ht h0 hk
  · rw [e]; exact (h.assignCore ht h0 hk).emit _

end Verif.Core
