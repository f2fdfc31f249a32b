import Verif.Model.Decide
import Verif.Proofs.Queue
import Verif.Proofs.Heap

/-!
# Decisions pick the right variable
-/

namespace Verif.Model.Decide

open Verif.Core (upd)
open Verif.Model.Queue (Queue QInv After)
open Verif.Model.Heap (Heap upd_same upd_ne)

variable {α : Type} [LinearOrder α]

/-- The invariant; `l` is the content of the queue. -/
structure DInv (zero : α) (s : State α) (l : List Nat) : Prop where
  queue : QInv s.queue l
  mem : ∀ v, v ∈ l ↔ s.active v = true
  heap : Heap.Inv zero s.heap
  size : s.queue.vars ≤ s.heap.size
  inHeap : ∀ v, s.heap.contains v = true → s.active v = true
  focused : s.stable = false → After s.queue s.assigned l
  stable : s.stable = true → ∀ v, s.active v = true → s.assigned v = false →
    s.heap.contains v = true

theorem DInv.lt {zero : α} {s : State α} {l : List Nat} (h : DInv zero s l) {v : Nat}
    (hv : s.active v = true) : v < s.queue.vars := h.queue.holds.vars v ((h.mem v).2 hv)

theorem activate_spec {zero : α} {s : State α} {l : List Nat} (h : DInv zero s l) {v : Nat}
    (hv : v < s.queue.vars) (ha : s.assigned v = false) (x : α) :
    ∃ s' l', s.activate zero v x = some s' ∧ DInv zero s' l' ∧
      (∀ w, s'.active w = true ↔ s.active w = true ∨ w = v) ∧ s'.assigned = s.assigned ∧
      l' = if s.active v then l else l ++ [v] := by
  unfold State.activate
  by_cases hact : s.active v = true
  · rw [if_pos hact]
    refine ⟨s, l, rfl, h, fun w => ⟨.inl, fun hw => ?_⟩, rfl, by rw [if_pos hact]⟩
    rcases hw with hw | rfl
    · exact hw
    · exact hact
  · rw [if_neg hact]
    have hvl : v ∉ l := fun hm => hact ((h.mem v).1 hm)
    obtain ⟨q1, q2, q3⟩ := Queue.enqueue_spec h.queue hvl hv ha
    have hsz := h.size
    obtain ⟨g, e, gi, gs, gc, gsc⟩ := Heap.update_spec h.heap (idx := v) (by omega) x
    simp only [e]
    have hmem : ∀ w, w ∈ l ++ [v] ↔ upd s.active v true w = true := by
      intro w
      by_cases hw : w = v
      · subst hw; rw [upd_same]; simp
      · rw [upd_ne hw, ← h.mem w]; simp [hw]
    have hact' : ∀ w, upd s.active v true w = true ↔ s.active w = true ∨ w = v := by
      intro w
      rw [← hmem w, List.mem_append, List.mem_singleton, h.mem]
    have hnc : g.contains v = false := by
      rw [gc]
      cases hc : s.heap.contains v with
      | false => rfl
      | true => exact absurd (h.inHeap v hc) hact
    split
    · rename_i hst
      obtain ⟨k, ek, ki, ks, kc, ksc⟩ := Heap.push_spec gi (idx := v) (by omega) hnc
      rw [ek]
      refine ⟨_, l ++ [v], rfl, ⟨q1, hmem, ki, ?_, fun w hw => ?_, fun _ => q2, fun _ w hw hwa => ?_⟩, hact', rfl,
        rfl⟩
      · show Queue.vars _ ≤ k.size
        rw [q3]; omega
      · refine (hact' w).2 ?_
        rcases (kc w).1 hw with hw | hw
        · rw [gc] at hw; exact .inl (h.inHeap w hw)
        · exact .inr hw
      · refine (kc w).2 ?_
        rcases (hact' w).1 hw with hw | hw
        · rw [gc]; exact .inl (h.stable hst.1 w hw hwa)
        · exact .inr hw
    · rename_i hst
      have hf : s.stable = false := by
        cases hs : s.stable with
        | false => rfl
        | true => exact absurd ⟨hs, ha⟩ hst
      refine ⟨_, l ++ [v], rfl, ⟨q1, hmem, gi, ?_, fun w hw => ?_, fun _ => q2, fun hs => ?_⟩, hact', rfl,
        rfl⟩
      · show Queue.vars _ ≤ g.size
        rw [q3]; omega
      · rw [gc] at hw
        exact (hact' w).2 (.inl (h.inHeap w hw))
      · have hs : s.stable = true := hs
        rw [hf] at hs; cases hs

theorem deactivate_spec {zero : α} {s : State α} {l : List Nat} (h : DInv zero s l) {v : Nat}
    (hv : s.active v = true) :
    ∃ s' l', s.deactivate v = some s' ∧ DInv zero s' l' ∧
      (∀ w, s'.active w = true ↔ s.active w = true ∧ w ≠ v) ∧ s'.assigned = s.assigned ∧
      l' = l.erase v := by
  obtain ⟨a, b, rfl⟩ := List.append_of_mem ((h.mem v).2 hv)
  obtain ⟨q1, q2, q3⟩ := Queue.dequeue_spec h.queue
  have hs := h.queue.stamps.sorted
  have hact' : ∀ w, upd s.active v false w = true ↔ s.active w = true ∧ w ≠ v := by
    intro w
    by_cases hw : w = v
    · subst hw; rw [upd_same]; simp
    · rw [upd_ne hw]; simp [hw]
  have hmem : ∀ w, w ∈ a ++ b ↔ upd s.active v false w = true := by
    intro w
    rw [hact', ← h.mem w]
    simp only [List.mem_append, List.mem_cons]
    constructor
    · rintro (hw | hw)
      · exact ⟨.inl hw, by rintro rfl; have := hs.1 w hw; omega⟩
      · exact ⟨.inr (.inr hw), by rintro rfl; have := hs.2 w hw; omega⟩
    · rintro ⟨hw | hw | hw, hne⟩
      · exact .inl hw
      · exact absurd hw hne
      · exact .inr hw
  have hsz := h.size
  have hab : a ++ b = (a ++ v :: b).erase v := by
    rw [List.erase_append_right _ (fun hm => by have := hs.1 v hm; omega), List.erase_cons_head]
  unfold State.deactivate
  split
  · rename_i hc
    obtain ⟨g, e, gi, gs, gc, gsc⟩ := Heap.pop_spec h.heap hc
    rw [e]
    refine ⟨_, a ++ b, rfl, ⟨q1, hmem, gi, ?_, fun w hw => ?_, fun hf => q3 _ (h.focused hf),
      fun hst w hw hwa => ?_⟩, hact', rfl, hab⟩
    · show Queue.vars _ ≤ g.size
      rw [q2]; omega
    · have := (gc w).1 hw
      exact (hact' w).2 ⟨h.inHeap w this.1, this.2⟩
    · have hw := (hact' w).1 hw
      exact (gc w).2 ⟨h.stable hst w hw.1 hwa, hw.2⟩
  · rename_i hc
    refine ⟨_, a ++ b, rfl, ⟨q1, hmem, h.heap, ?_, fun w hw => ?_, fun hf => q3 _ (h.focused hf),
      fun hst w hw hwa => ?_⟩, hact', rfl, hab⟩
    · show Queue.vars _ ≤ s.heap.size
      rw [q2]; omega
    · refine (hact' w).2 ⟨h.inHeap w hw, ?_⟩
      rintro rfl; exact hc hw
    · have hw := (hact' w).1 hw
      exact h.stable hst w hw.1 hwa

theorem assign_spec {zero : α} {s : State α} {l : List Nat} (h : DInv zero s l) (v : Nat) :
    DInv zero (s.assign v) l := by
  refine ⟨h.queue, h.mem, h.heap, h.size, h.inHeap, fun hf w hw hlt => ?_, fun hst w hw hwa => ?_⟩
  · show upd _ _ _ _ = _
    by_cases e : w = v
    · rw [e, upd_same]
    · rw [upd_ne e]; exact h.focused hf w hw hlt
  · have hwa : upd s.assigned v true w = false := hwa
    by_cases e : w = v
    · rw [e, upd_same] at hwa; cases hwa
    · rw [upd_ne e] at hwa; exact h.stable hst w hw hwa

theorem unassign_spec {zero : α} {s : State α} {l : List Nat} (h : DInv zero s l) {v : Nat}
    (hv : s.active v = true) : ∃ s', s.unassign zero v = some s' ∧ DInv zero s' l ∧
      s'.active = s.active ∧ s'.assigned = upd s.assigned v false := by
  have hsz := h.size
  have hlt := h.lt hv
  unfold State.unassign
  simp only
  split
  · rename_i hst
    split
    · rename_i hc
      refine ⟨_, rfl, ⟨h.queue, h.mem, h.heap, h.size, h.inHeap, fun hf => ?_, fun _ w hw hwa => ?_⟩, rfl, rfl⟩
      · have hf : s.stable = false := hf
        rw [hst] at hf; cases hf
      · by_cases e : w = v
        · rw [e]; exact hc
        · have hwa : upd s.assigned v false w = false := hwa
          rw [upd_ne e] at hwa
          exact h.stable hst w hw hwa
    · rename_i hc
      obtain ⟨g, e, gi, gs, gc, gsc⟩ := Heap.push_spec h.heap (idx := v) (by omega) (by simpa using hc)
      rw [e]
      refine ⟨_, rfl, ⟨h.queue, h.mem, gi, ?_, fun w hw => ?_, fun hf => ?_, fun _ w hw hwa => ?_⟩, rfl, rfl⟩
      · show s.queue.vars ≤ g.size
        omega
      · rcases (gc w).1 hw with hw | rfl
        · exact h.inHeap w hw
        · exact hv
      · have hf : s.stable = false := hf
        rw [hst] at hf; cases hf
      · refine (gc w).2 ?_
        by_cases e : w = v
        · exact .inr e
        · have hwa : upd s.assigned v false w = false := hwa
          rw [upd_ne e] at hwa
          exact .inl (h.stable hst w hw hwa)
  · rename_i hst
    obtain ⟨q1, q2, q3⟩ := Queue.unassign_spec h.queue ((h.mem v).2 hv)
    refine ⟨_, rfl, ⟨q1, h.mem, h.heap, ?_, h.inHeap, fun hf => q3 _ (h.focused hf), fun hs => ?_⟩, rfl, rfl⟩
    · show Queue.vars _ ≤ s.heap.size
      rw [q2]; exact hsz
    · exact absurd hs hst

theorem moveToFront_spec {zero : α} {s : State α} {l : List Nat} (h : DInv zero s l) {v : Nat}
    (hv : s.active v = true) : ∃ s' l', s.moveToFront v = some s' ∧ DInv zero s' l' ∧
      s'.active = s.active ∧ s'.assigned = s.assigned ∧ l' = l.erase v ++ [v] := by
  obtain ⟨a, b, rfl⟩ := List.append_of_mem ((h.mem v).2 hv)
  obtain ⟨q', e, q1, q2, q3⟩ := Queue.moveToFront_spec h.queue s.assigned
  unfold State.moveToFront
  rw [e]
  have hs := h.queue.stamps.sorted
  refine ⟨_, a ++ b ++ [v], rfl, ⟨q1, fun w => ?_, h.heap, ?_, h.inHeap, fun hf => q3 (h.focused hf),
    h.stable⟩, rfl, rfl, ?_⟩
  · show _ ↔ s.active w = true
    rw [← h.mem w]
    simp only [List.mem_append, List.mem_cons, List.not_mem_nil, or_false]
    constructor
    · rintro ((hw | hw) | hw)
      · exact .inl hw
      · exact .inr (.inr hw)
      · exact .inr (.inl hw)
    · rintro (hw | hw | hw)
      · exact .inl (.inl hw)
      · exact .inr hw
      · exact .inl (.inr hw)
  · show q'.vars ≤ _
    rw [q2]; exact h.size
  · rw [List.erase_append_right _ (fun hm => by have := hs.1 v hm; omega), List.erase_cons_head]

theorem setScore_spec {zero : α} {s : State α} {l : List Nat} (h : DInv zero s l) {v : Nat}
    (hv : v < s.queue.vars) (x : α) : ∃ s', s.setScore zero v x = some s' ∧ DInv zero s' l := by
  have hsz := h.size
  obtain ⟨g, e, gi, gs, gc, gsc⟩ := Heap.update_spec h.heap (idx := v) (by omega) x
  unfold State.setScore
  rw [e]
  refine ⟨_, rfl, ⟨h.queue, h.mem, gi, ?_, fun w hw => ?_, h.focused, fun hst w hw hwa => ?_⟩⟩
  · show s.queue.vars ≤ g.size
    omega
  · exact h.inHeap w (by rw [← gc]; exact hw)
  · show g.contains w = true
    rw [gc]; exact h.stable hst w hw hwa

theorem rescale_spec {zero : α} {s : State α} {l : List Nat} (h : DInv zero s l) {f : α → α}
    (hf : ∀ a b, a ≤ b → f a ≤ f b) (h0 : f zero = zero) : DInv zero (s.rescale f) l := by
  obtain ⟨gi, gs, gc, gsc⟩ := Heap.rescale_spec h.heap hf h0
  refine ⟨h.queue, h.mem, gi, ?_, fun w hw => ?_, h.focused, fun hst w hw hwa => ?_⟩
  · show s.queue.vars ≤ (s.heap.rescale f).size
    rw [gs]; exact h.size
  · exact h.inHeap w (by rw [← gc]; exact hw)
  · show (s.heap.rescale f).contains w = true
    rw [gc]; exact h.stable hst w hw hwa

theorem pushActive_spec {zero : α} {active : Nat → Bool} : ∀ (m : List Nat) {h : Heap α},
    Heap.Inv zero h → (∀ v ∈ m, v < h.size) →
    ∃ h', pushActive zero active m h = some h' ∧ Heap.Inv zero h' ∧ h'.size = h.size ∧
      (∀ v, h'.contains v = true ↔ h.contains v = true ∨ (v ∈ m ∧ active v = true)) ∧
      ∀ v, h'.getScore zero v = h.getScore zero v := by
  intro m
  induction m with
  | nil => intro h hi _; exact ⟨h, rfl, hi, rfl, fun v => by simp, fun _ => rfl⟩
  | cons x m ih =>
    intro h hi hm
    unfold pushActive
    by_cases hc : active x = true ∧ h.contains x = false
    · rw [if_pos hc]
      obtain ⟨g, e, gi, gs, gc, gsc⟩ := Heap.push_spec hi (hm x List.mem_cons_self) hc.2
      rw [e]
      simp only
      obtain ⟨k, ek, ki, ks, kc, ksc⟩ := ih gi (fun v hv => by
        rw [gs]; exact hm v (List.mem_cons_of_mem _ hv))
      refine ⟨k, ek, ki, by rw [ks, gs], fun v => ?_, fun v => by rw [ksc, gsc]⟩
      rw [kc, gc, List.mem_cons]
      constructor
      · rintro ((h1 | h1) | ⟨h1, h2⟩)
        · exact .inl h1
        · exact .inr ⟨.inl h1, h1 ▸ hc.1⟩
        · exact .inr ⟨.inr h1, h2⟩
      · rintro (h1 | ⟨h1 | h1, h2⟩)
        · exact .inl (.inl h1)
        · exact .inl (.inr h1)
        · exact .inr ⟨h1, h2⟩
    · rw [if_neg hc]
      obtain ⟨k, ek, ki, ks, kc, ksc⟩ := ih hi (fun v hv => hm v (List.mem_cons_of_mem _ hv))
      refine ⟨k, ek, ki, ks, fun v => ?_, ksc⟩
      rw [kc, List.mem_cons]
      constructor
      · rintro (h1 | ⟨h1, h2⟩)
        · exact .inl h1
        · exact .inr ⟨.inr h1, h2⟩
      · rintro (h1 | ⟨rfl | h1, h2⟩)
        · exact .inl h1
        · refine .inl ?_
          cases hcx : h.contains v with
          | true => rfl
          | false => exact absurd ⟨h2, hcx⟩ hc
        · exact .inr ⟨h1, h2⟩

theorem toStable_spec {zero : α} {s : State α} {l : List Nat} (h : DInv zero s l) :
    ∃ s', s.toStable zero = some s' ∧ DInv zero s' l ∧ s'.active = s.active ∧
      s'.assigned = s.assigned := by
  have hsz := h.size
  obtain ⟨k, ek, ki, ks, kc, ksc⟩ := pushActive_spec (zero := zero) (active := s.active)
    (List.range s.queue.vars) h.heap (fun v hv => by have := List.mem_range.1 hv; omega)
  unfold State.toStable
  rw [ek]
  refine ⟨_, rfl, ⟨h.queue, h.mem, ki, ?_, fun w hw => ?_, fun hf => (by cases hf),
    fun _ w hw _ => (kc w).2 (.inr ⟨List.mem_range.2 (h.lt hw), hw⟩)⟩, rfl, rfl⟩
  · show s.queue.vars ≤ k.size
    omega
  · rcases (kc w).1 hw with hw | hw
    · exact h.inHeap w hw
    · exact hw.2

theorem toFocused_spec {zero : α} {s : State α} {l : List Nat} (h : DInv zero s l)
    (hex : ∃ v, s.active v = true) :
    ∃ s', s.toFocused = some s' ∧ DInv zero s' l ∧ s'.active = s.active ∧
      s'.assigned = s.assigned := by
  obtain ⟨v, hv⟩ := hex
  have hne : l ≠ [] := by
    rintro rfl
    exact absurd ((h.mem v).2 hv) List.not_mem_nil
  obtain ⟨q', e, q1, q2, q3⟩ := Queue.resetSearch_spec h.queue hne
  unfold State.toFocused
  rw [e]
  refine ⟨_, rfl, ⟨q1, h.mem, h.heap, ?_, h.inHeap, fun _ => q3 _, fun hs => (by cases hs)⟩, rfl, rfl⟩
  show q'.vars ≤ _
  rw [q2]; exact h.size

theorem enlarge_spec {zero : α} {s : State α} {l : List Nat} (h : DInv zero s l) {n : Nat}
    (hn : n ≤ 2 ^ 30 - 1) (js : Nat → α) (jp : Nat → Option Nat) :
    DInv zero (s.enlarge zero js jp n) l := by
  unfold State.enlarge
  split
  · rename_i hle
    obtain ⟨gi, g1, g2, g3, gc, gsc⟩ := Heap.resize_spec h.heap js jp n
    have hq := h.queue
    refine ⟨⟨⟨hq.holds.first, hq.holds.last, hq.holds.seg, hq.holds.nodup, fun v hv => ?_⟩,
      hq.stamps.congr rfl rfl, ?_, hq.inside, hq.outside⟩, h.mem, gi, g2, fun w hw => ?_, h.focused,
      fun hst w hw hwa => ?_⟩
    · exact Nat.lt_of_lt_of_le (hq.holds.vars v hv) hle
    · show n ≤ _
      omega
    · exact h.inHeap w (by rw [← gc]; exact hw)
    · show (s.heap.resize zero js jp n).contains w = true
      rw [gc]; exact h.stable hst w hw hwa
  · exact h

theorem clearScores_spec {zero : α} : ∀ (m : List Nat) {h : Heap α},
    Heap.Inv zero h → (∀ v ∈ m, v < h.size) →
    ∃ h', clearScores zero m h = some h' ∧ Heap.Inv zero h' ∧ h'.size = h.size ∧
      (∀ v, h'.contains v = h.contains v) := by
  intro m
  induction m with
  | nil => intro h hi _; exact ⟨h, rfl, hi, rfl, fun v => rfl⟩
  | cons x m ih =>
    intro h hi hm
    unfold clearScores
    obtain ⟨g, e, gi, gs, gc, gsc⟩ := Heap.update_spec hi (hm x List.mem_cons_self) zero
    rw [e]
    simp only
    obtain ⟨k, ek, ki, ks, kc⟩ := ih gi (fun v hv => by
      rw [gs]; exact hm v (List.mem_cons_of_mem _ hv))
    exact ⟨k, ek, ki, by rw [ks, gs], fun v => by rw [kc, gc]⟩

theorem fresh_spec {zero : α} {s : State α} {l : List Nat} (h : DInv zero s l) {vs : List Nat}
    (hv : ∀ v ∈ vs, s.active v = true) (hone : vs.length ≤ 1) :
    ∃ s' l', s.fresh zero vs = some s' ∧ DInv zero s' l' ∧ s'.active = s.active ∧
      s'.assigned = s.assigned ∧ l' = vs ++ l.filter (fun v => !vs.contains v) := by
  have hsz := h.size
  obtain ⟨k, ek, ki, ks, kc⟩ := clearScores_spec vs h.heap (fun v hm => by
    have := h.lt (hv v hm); omega)
  unfold State.fresh
  rw [ek]
  have fin : ∀ l', (∀ v, v ∈ l' ↔ v ∈ l) → QInv (s.queue.addFresh vs) l' →
      (s.queue.addFresh vs).vars = s.queue.vars →
      (∀ assigned, After (s.queue.addFresh vs) assigned l') →
      DInv zero { s with heap := k, queue := s.queue.addFresh vs } l' := by
    intro l' hm q1 q2 q3
    refine ⟨q1, fun v => by rw [hm, h.mem], ki, ?_, fun w hw => ?_, fun _ => q3 _,
      fun hst w hw hwa => ?_⟩
    · show (s.queue.addFresh vs).vars ≤ k.size
      rw [q2]; omega
    · exact h.inHeap w (by rw [← kc]; exact hw)
    · show k.contains w = true
      rw [kc]; exact h.stable hst w hw hwa
  match vs, hone, hv, fin with
  | [], _, _, fin =>
    obtain ⟨q1, q2, q3⟩ := Queue.addFresh_nil h.queue
    exact ⟨_, l, rfl, fin l (fun _ => Iff.rfl) q1 q2 q3, rfl, rfl,
      (List.filter_eq_self.2 fun _ _ => rfl).symm⟩
  | [v], _, hv, fin =>
    obtain ⟨a, b, rfl⟩ := List.append_of_mem ((h.mem v).2 (hv v (List.mem_singleton.2 rfl)))
    obtain ⟨q1, q2, q3⟩ := Queue.addFresh_one h.queue
    have hs := h.queue.stamps.sorted
    have he : a ++ b = (a ++ v :: b).filter (fun w => ![v].contains w) := by
      rw [List.filter_append, List.filter_cons]
      simp only [List.contains_cons, List.contains_nil, beq_self_eq_true, Bool.true_or,
        Bool.or_false, Bool.not_true, Bool.false_eq_true, if_false]
      rw [List.filter_eq_self.2, List.filter_eq_self.2]
      · intro w hw
        have := hs.2 w hw
        have hne : w ≠ v := by rintro rfl; omega
        simpa using hne
      · intro w hw
        have := hs.1 w hw
        have hne : w ≠ v := by rintro rfl; omega
        simpa using hne
    refine ⟨_, v :: (a ++ b), rfl, fin _ (fun w => ?_) q1 q2 q3, rfl, rfl, by rw [he]; rfl⟩
    simp only [List.mem_cons, List.mem_append]
    constructor
    · rintro (h1 | h1 | h1)
      · exact .inr (.inl h1)
      · exact .inl h1
      · exact .inr (.inr h1)
    · rintro (h1 | h1 | h1)
      · exact .inr (.inl h1)
      · exact .inl h1
      · exact .inr (.inr h1)

theorem largestLoop_spec {zero : α} {assigned : Nat → Bool} : ∀ (n : Nat) {h : Heap α},
    Heap.Inv zero h → h.count < n → (∃ v, h.contains v = true ∧ assigned v = false) →
    ∃ r h', largestLoop assigned n h = some (r, h') ∧ Heap.Inv zero h' ∧ h'.size = h.size ∧
      assigned r = false ∧ h'.contains r = true ∧
      (∀ v, h.contains v = true → assigned v = false → h'.contains v = true) ∧
      (∀ v, h'.contains v = true → h.contains v = true) ∧
      (∀ v, h'.contains v = true → h'.getScore zero v ≤ h'.getScore zero r) ∧
      (∀ v, h'.getScore zero v = h.getScore zero v) := by
  intro n
  induction n with
  | zero => intro h _ hc; exact absurd hc (Nat.not_lt_zero _)
  | succ n ih =>
    intro h hi hn ⟨v, hv, hva⟩
    obtain ⟨p, _, hpc, _⟩ := Heap.contains_pos hi hv
    have hc : h.count ≠ 0 := by omega
    unfold largestLoop
    rw [if_neg hc]
    obtain ⟨m1, m2⟩ := Heap.max_spec hi hc
    cases hm : assigned h.max with
    | false => exact ⟨h.max, h, rfl, hi, rfl, hm, m1, fun _ h1 _ => h1, fun _ h1 => h1, m2, fun _ => rfl⟩
    | true =>
      obtain ⟨g, e, gi, gs, gc, gsc⟩ := Heap.popMax_spec hi hc
      have hcount : g.count < n := by
        have : g.count = h.count - 1 := by
          unfold Heap.Heap.popMax at e
          rw [if_neg hc] at e
          simp only at e
          split at e <;> (cases e; rfl)
        omega
      rw [e]
      simp only [if_true]
      have hvm : v ≠ h.max := by rintro rfl; rw [hm] at hva; cases hva
      obtain ⟨r, k, r1, r2, r3, r4, r5, r6, r7, r8, r9⟩ := ih gi hcount ⟨v, (gc v).2 ⟨hv, hvm⟩, hva⟩
      refine ⟨r, k, r1, r2, by rw [r3, gs], r4, r5, fun w hw hwa => ?_, fun w hw => ((gc w).1 (r7 w hw)).1,
        r8, fun w => by rw [r9, gsc]⟩
      refine r6 w ((gc w).2 ⟨hw, ?_⟩) hwa
      rintro rfl; rw [hm] at hwa; cases hwa

/-- `kissat_next_decision_variable`. -/
theorem next_spec {zero : α} {s : State α} {l : List Nat} (h : DInv zero s l)
    (hex : ∃ v, s.active v = true ∧ s.assigned v = false) :
    ∃ r s', s.next = some (r, s') ∧ DInv zero s' l ∧ s.active r = true ∧ s.assigned r = false ∧
      s'.active = s.active ∧ s'.assigned = s.assigned ∧
      (s.stable = true → ∀ v, s.active v = true → s.assigned v = false →
        s.heap.getScore zero v ≤ s.heap.getScore zero r) ∧
      (s.stable = false → ∃ a b, l = a ++ r :: b ∧ ∀ w ∈ b, s.assigned w = true) := by
  obtain ⟨v, hv, hva⟩ := hex
  unfold State.next
  cases hst : s.stable with
  | true =>
    obtain ⟨r, k, r1, r2, r3, r4, r5, r6, r7, r8, r9⟩ :=
      largestLoop_spec (zero := zero) (assigned := s.assigned) (s.heap.count + 1) h.heap
        (Nat.lt_succ_self _) ⟨v, h.stable hst v hv hva, hva⟩
    simp only [if_true, r1, Option.map_some]
    refine ⟨r, _, rfl, ⟨h.queue, h.mem, r2, ?_, fun w hw => h.inHeap w (r7 w hw),
      fun hf => ?_, fun _ w hw hwa => r6 w (h.stable hst w hw hwa) hwa⟩, h.inHeap r (r7 r r5), r4, rfl, rfl,
      fun _ w hw hwa => ?_, fun hf => (by cases hf)⟩
    · show s.queue.vars ≤ k.size
      rw [r3]; exact h.size
    · have hf : true = false := hf
      cases hf
    · have := r8 w (r6 w (h.stable hst w hw hwa) hwa)
      rwa [r9, r9] at this
  | false =>
    obtain ⟨r, q', a, b, e1, e2, e3, e4, e5, e6, e7⟩ :=
      Queue.lastUnassigned_spec h.queue (h.focused hst) ⟨v, (h.mem v).2 hv, hva⟩
    simp only [Bool.false_eq_true, if_false, e1, Option.map_some]
    refine ⟨r, _, rfl, ⟨e5, h.mem, h.heap, ?_, h.inHeap, fun _ => e6, fun hs => (by cases hs)⟩,
      (h.mem r).1 (by rw [e2]; simp), e3, rfl, rfl, fun hs => (by cases hs), fun _ => ⟨a, b, e2, e4⟩⟩
    show q'.vars ≤ _
    rw [e7]; exact h.size

theorem init_inv (zero : α) (prev next : Nat → Option Nat) (stampOf : Nat → Nat)
    (score : Nat → α) (pos : Nat → Option Nat) (stack : Nat → Nat) :
    DInv zero (State.init prev next stampOf score pos stack) [] :=
  ⟨Queue.init_inv _ _ _, fun v => by simp [State.init], Heap.init_inv _ _ _ _, Nat.le_refl _,
   fun v hv => by simp [State.init, Heap.Heap.contains, Heap.Heap.init] at hv,
   fun _ w hw => absurd hw List.not_mem_nil, fun hs => by cases hs⟩

/-- Effect of a call on the order of the variables. -/
def reorder (s : State α) (l : List Nat) : Op α → List Nat
  | .activate v _ => if s.active v then l else l ++ [v]
  | .deactivate v => l.erase v
  | .moveToFront v => l.erase v ++ [v]
  | .fresh vs => vs ++ l.filter (fun v => !vs.contains v)
  | _ => l

/-- Legal calls succeed and keep the invariant. -/
theorem exec_spec {zero : α} {s : State α} {l : List Nat} (h : DInv zero s l) {op : Op α}
    (hl : Legal zero false s op) :
    ∃ s', exec zero s op = some s' ∧ DInv zero s' (reorder s l op) := by
  cases op with
  | enlarge n js jp => exact ⟨_, rfl, enlarge_spec h hl js jp⟩
  | activate v x =>
    obtain ⟨s', l', e, hi, _, _, hl'⟩ := activate_spec h hl.1 hl.2 x
    exact ⟨s', e, by subst hl'; exact hi⟩
  | deactivate v =>
    obtain ⟨s', l', e, hi, _, _, hl'⟩ := deactivate_spec h hl
    exact ⟨s', e, by subst hl'; exact hi⟩
  | assign v => exact ⟨_, rfl, assign_spec h v⟩
  | unassign v =>
    obtain ⟨s', e, hi, _⟩ := unassign_spec h hl
    exact ⟨s', e, hi⟩
  | moveToFront v =>
    obtain ⟨s', l', e, hi, _, _, hl'⟩ := moveToFront_spec h hl.1
    exact ⟨s', e, by subst hl'; exact hi⟩
  | setScore v x =>
    obtain ⟨s', e, hi⟩ := setScore_spec h hl x
    exact ⟨s', e, hi⟩
  | rescale f => exact ⟨_, rfl, rescale_spec h hl.1 hl.2⟩
  | toStable =>
    obtain ⟨s', e, hi, _⟩ := toStable_spec h
    exact ⟨s', e, hi⟩
  | toFocused =>
    obtain ⟨s', e, hi, _⟩ := toFocused_spec h hl.2
    exact ⟨s', e, hi⟩
  | fresh vs =>
    obtain ⟨s', l', e, hi, _, _, hl'⟩ := fresh_spec h hl.1 (hl.2.2 rfl)
    exact ⟨s', e, by subst hl'; exact hi⟩
  | decide =>
    obtain ⟨r, s', e, hi, _⟩ := next_spec h hl
    exact ⟨s'.assign r, by simp [exec, e], assign_spec hi r⟩
  | decideRandom v =>
    exact ⟨_, if_pos hl, assign_spec h v⟩

theorem reaches_inv {zero : α} {s : State α} (h : Reaches zero false s) : ∃ l, DInv zero s l := by
  induction h with
  | init => exact ⟨[], init_inv _ _ _ _ _ _ _⟩
  | step _ hl e ih =>
    obtain ⟨l, hi⟩ := ih
    obtain ⟨s', e', hi'⟩ := exec_spec hi hl
    rw [e] at e'
    cases e'
    exact ⟨_, hi'⟩

end Verif.Model.Decide
