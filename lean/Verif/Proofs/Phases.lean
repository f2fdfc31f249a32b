import Verif.Spec.Phases

/-! # Phases -/

namespace Verif.Proofs.Phases

open Verif.Model.Phases Verif.Spec.Phases

/-- Sizes of arrays. -/
structure Sized (s : State) : Prop where
  values : s.values.length = 2 * s.vars
  best : s.best.length = s.vars
  saved : s.saved.length = s.vars
  target : s.target.length = s.vars

theorem saveLoop_spec : ∀ {ps vs : List Int}, vs.length = 2 * ps.length →
    ∃ r, saveLoop ps vs = some r ∧ r.length = ps.length ∧
      ∀ v x, vs[2 * v]? = some x → r[v]? = if x ≠ 0 then some x else ps[v]?
  | [], [], _ => ⟨[], rfl, rfl, fun v x h => by simp at h⟩
  | [], _ :: _, h => by simp at h
  | p :: ps, [], h => by simp at h
  | p :: ps, [_], h => by simp at h; omega
  | p :: ps, a :: b :: vs, h => by
    obtain ⟨r, e, hl, hr⟩ := @saveLoop_spec ps vs (by simp at h; omega)
    refine ⟨(if a ≠ 0 then a else p) :: r, by rw [saveLoop, e]; rfl, by simp [hl], fun v x hx => ?_⟩
    cases v with
    | zero =>
      have : a = x := by simpa using hx
      subst this
      simp only [List.getElem?_cons_zero]
      by_cases h0 : a = 0 <;> simp [h0]
    | succ v =>
      rw [show 2 * (v + 1) = 2 * v + 1 + 1 by omega, List.getElem?_cons_succ, List.getElem?_cons_succ] at hx
      rw [List.getElem?_cons_succ, hr v x hx, List.getElem?_cons_succ]

theorem bestLoop_spec : ∀ {ss bs : List Int}, ss.length = bs.length →
    ∃ r : List Int, bestLoop ss bs = some r ∧ r.length = ss.length ∧
      ∀ (v : Nat) (x : Int), bs[v]? = some x → r[v]? = if x ≠ 0 then some x else ss[v]?
  | [], [], _ => ⟨[], rfl, rfl, fun v x h => by simp at h⟩
  | [], _ :: _, h => by simp at h
  | s :: ss, [], h => by simp at h
  | s :: ss, b :: bs, h => by
    obtain ⟨r, e, hl, hr⟩ := @bestLoop_spec ss bs (by simpa using h)
    refine ⟨(if b ≠ 0 then b else s) :: r, by rw [bestLoop, e]; rfl, by simp [hl], fun v x hx => ?_⟩
    cases v with
    | zero =>
      have : b = x := by simpa using hx
      subst this
      simp only [List.getElem?_cons_zero]
      by_cases h0 : b = 0 <;> simp [h0]
    | succ v =>
      rw [List.getElem?_cons_succ] at hx
      rw [List.getElem?_cons_succ, hr v x hx, List.getElem?_cons_succ]

/-- The effect of saving phases if this takes place. -/
structure Saved (old new values : List Int) : Prop where
  length : new.length = old.length
  get : ∀ v x, values[2 * v]? = some x → new[v]? = if x ≠ 0 then some x else old[v]?

theorem updateTarget_spec {s : State} (h : Sized s) : ∃ n t, s.updateTarget =
      some { s with targetAssigned := n, target := t } ∧ t.length = s.vars ∧
    if s.targetAssigned < s.assigned then n = s.assigned ∧ Saved s.target t s.values
    else n = s.targetAssigned ∧ t = s.target := by
  obtain ⟨t, et, lt, gt⟩ := saveLoop_spec (ps := s.target) (vs := s.values) (by rw [h.values, h.target])
  unfold State.updateTarget
  by_cases h1 : s.targetAssigned < s.assigned
  · rw [if_pos h1, et]
    exact ⟨_, t, rfl, lt.trans h.target, by rw [if_pos h1]; exact ⟨rfl, lt, gt⟩⟩
  · rw [if_neg h1]
    exact ⟨_, s.target, rfl, h.target, by rw [if_neg h1]; exact ⟨rfl, rfl⟩⟩

theorem updateBest_spec {s : State} (h : Sized s) : ∃ n t, s.updateBest =
      some { s with bestAssigned := n, best := t } ∧ t.length = s.vars ∧
    if s.bestAssigned < s.assigned then n = s.assigned ∧ Saved s.best t s.values
    else n = s.bestAssigned ∧ t = s.best := by
  obtain ⟨t, et, lt, gt⟩ := saveLoop_spec (ps := s.best) (vs := s.values) (by rw [h.values, h.best])
  unfold State.updateBest
  by_cases h1 : s.bestAssigned < s.assigned
  · rw [if_pos h1, et]
    exact ⟨_, t, rfl, lt.trans h.best, by rw [if_pos h1]; exact ⟨rfl, lt, gt⟩⟩
  · rw [if_neg h1]
    exact ⟨_, s.best, rfl, h.best, by rw [if_neg h1]; exact ⟨rfl, rfl⟩⟩

theorem update_spec {s : State} (h : Sized s) : ∃ s', s.update = some s' ∧ Sized s' ∧
    s'.vars = s.vars ∧ s'.initial = s.initial ∧ s'.values = s.values ∧ s'.saved = s.saved ∧ s'.rephased = s.rephased ∧
    s'.stable = s.stable ∧ s'.probing = s.probing ∧ s'.unassigned = s.unassigned ∧
    (if s.stable = true ∧ s.probing = false ∧ s.targetAssigned < s.assigned then
      s'.targetAssigned = s.assigned ∧ Saved s.target s'.target s.values
    else s'.targetAssigned = s.targetAssigned ∧ s'.target = s.target) ∧
    (if s.stable = true ∧ s.probing = false ∧ s.bestAssigned < s.assigned then
      s'.bestAssigned = s.assigned ∧ Saved s.best s'.best s.values
    else s'.bestAssigned = s.bestAssigned ∧ s'.best = s.best) := by
  unfold State.update
  by_cases hp : s.probing = true
  · rw [if_pos hp]
    exact ⟨s, rfl, h, rfl, rfl, rfl, rfl, rfl, rfl, rfl, rfl, by simp [hp], by simp [hp]⟩
  rw [if_neg hp]
  by_cases hs : s.stable = false
  · rw [if_pos hs]
    exact ⟨s, rfl, h, rfl, rfl, rfl, rfl, rfl, rfl, rfl, rfl, by simp [hs], by simp [hs]⟩
  rw [if_neg hs]
  have hp' : s.probing = false := by simpa using hp
  have hs' : s.stable = true := by simpa using hs
  obtain ⟨n, t, e, l, g⟩ := updateTarget_spec h
  obtain ⟨k, b, e', l', g'⟩ := updateBest_spec (s := { s with targetAssigned := n, target := t })
    ⟨h.values, h.best, h.saved, l⟩
  refine ⟨{ s with targetAssigned := n, target := t, bestAssigned := k, best := b }, by rw [e]; exact e', ⟨h.values, l', h.saved, l⟩, rfl, rfl, rfl, rfl, rfl, rfl, rfl, rfl, ?_, ?_⟩
  · simpa only [hs', hp', true_and] using g
  · simp only [hs', hp', true_and]
    exact g'

theorem rephase_spec {s : State} (h : Sized s) {walk : Option (List Int)}
    (hw : ∀ w, walk = some w → w.length = s.vars) :
    ∃ s' kind, s.rephase walk = some s' ∧ Sized s' ∧ schedule[s.rephased % 6]? = some kind ∧
      s'.vars = s.vars ∧ s'.initial = s.initial ∧ s'.values = s.values ∧ s'.unassigned = s.unassigned ∧
      s'.stable = s.stable ∧ s'.probing = s.probing ∧ s'.best = s.best ∧
      s'.rephased = s.rephased + 1 ∧ s'.targetAssigned = 0 ∧ s'.target = s'.saved ∧
      s'.bestAssigned = (if kind = .best then 0 else s.bestAssigned) ∧ Resets s walk s'.saved kind := by
  have hlen : schedule.length = 6 := rfl
  have hlt : s.rephased % 6 < schedule.length := by rw [hlen]; omega
  have hk : schedule[s.rephased % 6]? = some schedule[s.rephased % 6] := List.getElem?_eq_getElem hlt
  generalize hkk : schedule[s.rephased % 6] = kind at hk
  have hreset : ∃ saved, ({ s with rephased := s.rephased + 1 } : State).reset walk kind =
      some { s with rephased := s.rephased + 1, saved := saved } ∧ saved.length = s.vars ∧
      Resets s walk saved kind := by
    have hd : s.saved.drop s.vars = [] := by
      rw [List.drop_eq_nil_iff, h.saved]; exact Nat.le_refl _
    cases kind with
    | best =>
      obtain ⟨r, e, l, g⟩ := bestLoop_spec (ss := s.saved) (bs := s.best) (by rw [h.saved, h.best])
      exact ⟨r, by simp only [State.reset, e, Option.map_some], l.trans h.saved, g⟩
    | original =>
      refine ⟨List.replicate s.vars s.initial, by simp only [State.reset, hd, List.append_nil], by simp, fun v hv => ?_⟩
      rw [List.getElem?_replicate, if_pos hv]
    | inverted =>
      refine ⟨List.replicate s.vars (-s.initial), by simp only [State.reset, hd, List.append_nil], by simp, fun v hv => ?_⟩
      rw [List.getElem?_replicate, if_pos hv]
    | walking =>
      cases walk with
      | none => exact ⟨s.saved, rfl, h.saved, rfl⟩
      | some w =>
        refine ⟨w, ?_, hw w rfl, rfl⟩
        simp only [State.reset, hd, List.append_nil]
        rw [if_pos (hw w rfl)]
  obtain ⟨saved, e, l, g⟩ := hreset
  have ht : saved.take s.vars ++ s.target.drop s.vars = saved := by
    rw [List.take_of_length_le (by omega), List.drop_eq_nil_iff.2 (by rw [h.target]; exact Nat.le_refl _),
      List.append_nil]
  unfold State.rephase
  simp only [Nat.add_sub_cancel, hlen, hk, e, Option.map_some]
  by_cases hb : kind = .best
  · rw [if_pos hb]
    simp only [ht]
    exact ⟨_, kind, rfl, ⟨h.values, h.best, l, l⟩, rfl, rfl, rfl, rfl, rfl, rfl, rfl, rfl, rfl, rfl, rfl,
      by rw [if_pos hb], g⟩
  · rw [if_neg hb]
    simp only [ht]
    exact ⟨_, kind, rfl, ⟨h.values, h.best, l, l⟩, rfl, rfl, rfl, rfl, rfl, rfl, rfl, rfl, rfl, rfl, rfl,
      by rw [if_neg hb], g⟩

theorem exec_spec {s : State} (h : Sized s) {op : Op} (hl : Legal s op) :
    ∃ s', exec s op = some s' ∧ Sized s' ∧ s'.vars = s.vars ∧ s'.initial = s.initial := by
  have hd : s.saved.drop s.vars = [] := by
    rw [List.drop_eq_nil_iff, h.saved]; exact Nat.le_refl _
  cases op with
  | assign lit =>
    have hl : lit < 2 * s.vars := hl
    have h1 := h.values
    have h2 := h.saved
    simp only [exec, State.assign]
    rw [if_pos ⟨by omega, by split <;> omega, by omega⟩]
    exact ⟨_, rfl, ⟨by simp [h1], h.best, by simp only; split <;> simp [h2], h.target⟩, rfl, rfl⟩
  | unassign lit =>
    have hl : lit < 2 * s.vars := hl
    have h1 := h.values
    simp only [exec, State.unassign]
    rw [if_pos ⟨by omega, by split <;> omega⟩]
    exact ⟨_, rfl, ⟨by simp [h1], h.best, h.saved, h.target⟩, rfl, rfl⟩
  | update =>
    obtain ⟨s', e, hs, h1, h2, _⟩ := update_spec h
    exact ⟨s', e, hs, h1, h2⟩
  | rephase walk =>
    obtain ⟨s', _, e, hs, _, h1, h2, _⟩ := rephase_spec h hl
    exact ⟨s', e, hs, h1, h2⟩
  | walk vs =>
    have hl : vs.length = s.vars := hl
    simp only [exec]
    rw [if_pos hl, hd, List.append_nil]
    exact ⟨_, rfl, ⟨h.values, h.best, hl, h.target⟩, rfl, rfl⟩
  | remove => exact ⟨_, rfl, ⟨h.values, h.best, h.saved, h.target⟩, rfl, rfl⟩
  | insert => exact ⟨_, rfl, ⟨h.values, h.best, h.saved, h.target⟩, rfl, rfl⟩
  | mode b => exact ⟨_, rfl, ⟨h.values, h.best, h.saved, h.target⟩, rfl, rfl⟩
  | probe b => exact ⟨_, rfl, ⟨h.values, h.best, h.saved, h.target⟩, rfl, rfl⟩

/-- Successful calls keep sizes. -/
theorem exec_sized {s s' : State} (h : Sized s) {op : Op} (e : exec s op = some s') :
    Sized s' ∧ s'.vars = s.vars ∧ s'.initial = s.initial := by
  have key : Legal s op → Sized s' ∧ s'.vars = s.vars ∧ s'.initial = s.initial := fun hl => by
    obtain ⟨t, e', h1, h2, h3⟩ := exec_spec h hl
    rw [e] at e'; cases e'
    exact ⟨h1, h2, h3⟩
  cases op with
  | assign lit =>
    refine key (Classical.byContradiction fun hc => ?_)
    simp only [exec, State.assign] at e
    rw [if_neg (fun x => hc (by show lit < _; rw [← h.values]; exact x.1))] at e
    cases e
  | unassign lit =>
    refine key (Classical.byContradiction fun hc => ?_)
    simp only [exec, State.unassign] at e
    rw [if_neg (fun x => hc (by show lit < _; rw [← h.values]; exact x.1))] at e
    cases e
  | rephase walk =>
    by_cases hw : ∀ w, walk = some w → w.length = s.vars
    · exact key hw
    · -- only the walk reads the assignment
      have hn : ∃ w, walk = some w ∧ w.length ≠ s.vars := by
        apply Classical.byContradiction
        intro hc
        exact hw fun w hwe => Classical.byContradiction fun hne => hc ⟨w, hwe, hne⟩
      obtain ⟨w, rfl, hne⟩ := hn
      obtain ⟨t, kind, e', h1, hk, h2, h3, _⟩ := rephase_spec h (walk := none) (by simp)
      have hk' : schedule[(s.rephased + 1 - 1) % schedule.length]? = some kind := hk
      cases hkind : kind with
      | walking =>
        subst hkind
        simp only [exec, State.rephase, hk', State.reset, if_neg hne, Option.map_none] at e
        cases e
      | best =>
        subst hkind
        simp only [exec, State.rephase, hk', State.reset] at e e'
        rw [e] at e'; cases e'
        exact ⟨h1, h2, h3⟩
      | original =>
        subst hkind
        simp only [exec, State.rephase, hk', State.reset] at e e'
        rw [e] at e'; cases e'
        exact ⟨h1, h2, h3⟩
      | inverted =>
        subst hkind
        simp only [exec, State.rephase, hk', State.reset] at e e'
        rw [e] at e'; cases e'
        exact ⟨h1, h2, h3⟩
  | walk vs =>
    refine key ?_
    simp only [exec] at e
    split at e
    · assumption
    · cases e
  | update => exact key trivial
  | remove => exact key trivial
  | insert => exact key trivial
  | mode b => exact key trivial
  | probe b => exact key trivial

/-! ## Histories -/

theorem run_append : ∀ (a : List Op) {b : List Op} {s : State},
    run s (a ++ b) = (run s a).bind fun t => run t b
  | [], _, _ => rfl
  | op :: a, b, s => by
    rw [List.cons_append, run, run]
    cases e : exec s op with
    | none => rfl
    | some t => exact run_append a

theorem run_sized : ∀ (a : List Op) {s s' : State}, Sized s → run s a = some s' →
    Sized s' ∧ s'.vars = s.vars ∧ s'.initial = s.initial
  | [], s, s', h, e => by cases e; exact ⟨h, rfl, rfl⟩
  | op :: a, s, s', h, e => by
    rw [run] at e
    obtain ⟨t, e1, e2⟩ := Option.bind_eq_some_iff.1 e
    obtain ⟨h1, h2, h3⟩ := exec_sized h e1
    obtain ⟨g1, g2, g3⟩ := run_sized a h1 e2
    exact ⟨g1, g2.trans h2, g3.trans h3⟩

theorem init_sized (n : Nat) (i : Int) : Sized (State.init n i) :=
  ⟨by simp [State.init], by simp [State.init], by simp [State.init], by simp [State.init]⟩

/-- Calls other than updates and rephasing leave target and best phases alone. -/
theorem exec_other {s s' : State} {op : Op} (e : exec s op = some s') (h1 : op ≠ .update)
    (h2 : ∀ w, op ≠ .rephase w) : s'.target = s.target ∧ s'.targetAssigned = s.targetAssigned ∧ s'.best = s.best ∧
      s'.bestAssigned = s.bestAssigned ∧ s'.rephased = s.rephased := by
  cases op with
  | assign lit =>
    simp only [exec, State.assign] at e
    by_cases hc : lit < s.values.length ∧ (if lit % 2 = 0 then lit + 1 else lit - 1) < s.values.length ∧
        lit / 2 < s.saved.length
    · rw [if_pos hc] at e; cases e; exact ⟨rfl, rfl, rfl, rfl, rfl⟩
    · rw [if_neg hc] at e; cases e
  | unassign lit =>
    simp only [exec, State.unassign] at e
    by_cases hc : lit < s.values.length ∧ (if lit % 2 = 0 then lit + 1 else lit - 1) < s.values.length
    · rw [if_pos hc] at e; cases e; exact ⟨rfl, rfl, rfl, rfl, rfl⟩
    · rw [if_neg hc] at e; cases e
  | update => exact absurd rfl h1
  | rephase w => exact absurd rfl (h2 w)
  | walk vs =>
    simp only [exec] at e
    split at e
    · cases e; exact ⟨rfl, rfl, rfl, rfl, rfl⟩
    · cases e
  | remove => cases e; exact ⟨rfl, rfl, rfl, rfl, rfl⟩
  | insert => cases e; exact ⟨rfl, rfl, rfl, rfl, rfl⟩
  | mode b => cases e; exact ⟨rfl, rfl, rfl, rfl, rfl⟩
  | probe b => cases e; exact ⟨rfl, rfl, rfl, rfl, rfl⟩

theorem during_tail {P : State → Prop} {s t : State} {op : Op} {ops : List Op} (h : During P s (op :: ops))
    (e : exec s op = some t) : During P t ops := fun a b u e1 e2 hc =>
  h (op :: a) b u (by rw [e1]; rfl) (by rw [run, e]; exact e2) hc

theorem during_head {P : State → Prop} {s : State} {ops : List Op} (h : During P s (.update :: ops))
    (hc : Counted s) : P s := h [] ops s rfl rfl hc

theorem target_below {N : Nat} : ∀ (ops : List Op) {s s' : State}, Sized s → run s ops = some s' →
    (∀ w, Op.rephase w ∉ ops) → During (fun t => t.assigned < N) s ops → s.targetAssigned < N →
    s'.targetAssigned < N
  | [], s, s', _, e, _, _, h0 => by cases e; exact h0
  | op :: ops, s, s', hs, e, hr, hd, h0 => by
    rw [run] at e
    obtain ⟨t, e1, e2⟩ := Option.bind_eq_some_iff.1 e
    obtain ⟨hs', -⟩ := exec_sized hs e1
    refine target_below ops hs' e2 (fun w hw => hr w (List.mem_cons_of_mem _ hw)) (during_tail hd e1) ?_
    by_cases hu : op = .update
    · subst hu
      obtain ⟨t', e3, -, -, -, -, -, -, -, -, -, h1, -⟩ := update_spec hs
      have e1 : s.update = some t := e1
      rw [e1] at e3; cases e3
      split at h1
      · rename_i hc
        rw [h1.1]; exact during_head hd ⟨hc.1, hc.2.1⟩
      · rw [h1.1]; exact h0
    · rw [(exec_other e1 hu fun w hw => hr w (hw ▸ List.mem_cons_self)).2.1]; exact h0

theorem target_kept {N : Nat} : ∀ (ops : List Op) {s s' : State}, Sized s → run s ops = some s' →
    (∀ w, Op.rephase w ∉ ops) → During (fun t => t.assigned ≤ N) s ops → s.targetAssigned = N →
    s'.targetAssigned = N ∧ s'.target = s.target
  | [], s, s', _, e, _, _, h0 => by cases e; exact ⟨h0, rfl⟩
  | op :: ops, s, s', hs, e, hr, hd, h0 => by
    rw [run] at e
    obtain ⟨t, e1, e2⟩ := Option.bind_eq_some_iff.1 e
    obtain ⟨hs', -⟩ := exec_sized hs e1
    have key : t.targetAssigned = s.targetAssigned ∧ t.target = s.target := by
      by_cases hu : op = .update
      · subst hu
        obtain ⟨t', e3, -, -, -, -, -, -, -, -, -, h1, -⟩ := update_spec hs
        have e1 : s.update = some t := e1
        rw [e1] at e3; cases e3
        split at h1
        · rename_i hc
          have : s.assigned ≤ N := during_head hd ⟨hc.1, hc.2.1⟩
          omega
        · exact h1
      · have := exec_other e1 hu fun w hw => hr w (hw ▸ List.mem_cons_self)
        exact ⟨this.2.1, this.1⟩
    obtain ⟨g1, g2⟩ := target_kept ops hs' e2 (fun w hw => hr w (List.mem_cons_of_mem _ hw)) (during_tail hd e1)
      (key.1.trans h0)
    exact ⟨g1, g2.trans key.2⟩

theorem schedule_eq (n : Nat) : schedule[n % 6]? = some (kindOf n) := by
  have h : n % 6 < 6 := Nat.mod_lt _ (by omega)
  unfold kindOf
  have h3 : n % 3 = n % 6 % 3 := by omega
  have h2 : n % 2 = n % 6 % 2 := by omega
  rw [h3, h2]
  generalize n % 6 = k at h
  match k, h with
  | 0, _ => rfl
  | 1, _ => rfl
  | 2, _ => rfl
  | 3, _ => rfl
  | 4, _ => rfl
  | 5, _ => rfl

theorem noBest_cons {n : Nat} {op : Op} {ops : List Op} (h : NoBest n (op :: ops)) :
    NoBest (n + rephasings [op]) ops ∧ ∀ w, op = .rephase w → kindOf n ≠ .best := by
  refine ⟨fun a b w e => ?_, fun w e => ?_⟩
  · have := h (op :: a) b w (by rw [e]; rfl)
    have hr : rephasings (op :: a) = rephasings [op] + rephasings a := by
      cases op <;> simp [rephasings] <;> omega
    rwa [hr, ← Nat.add_assoc] at this
  · exact h [] ops w (by rw [e]; rfl)

theorem exec_rephase {s s' : State} {w : Option (List Int)} (e : s.rephase w = some s') :
    ∃ kind, kind = kindOf s.rephased ∧ s'.rephased = s.rephased + 1 ∧ s'.best = s.best ∧
      s'.bestAssigned = if kind = .best then 0 else s.bestAssigned := by
  unfold State.rephase at e
  simp only [Nat.add_sub_cancel] at e
  have hlen : schedule.length = 6 := rfl
  rw [hlen] at e
  cases hk : schedule[s.rephased % 6]? with
  | none => rw [hk] at e; cases e
  | some kind =>
    rw [hk] at e
    simp only at e
    obtain ⟨t, e1, e2⟩ := Option.map_eq_some_iff.1 e
    refine ⟨kind, by rw [schedule_eq] at hk; exact (Option.some.inj hk).symm, ?_⟩
    have ht : t.rephased = s.rephased + 1 ∧ t.best = s.best ∧ t.bestAssigned = s.bestAssigned := by
      cases kind with
      | best =>
        obtain ⟨r, -, rfl⟩ := Option.map_eq_some_iff.1 e1
        exact ⟨rfl, rfl, rfl⟩
      | original => cases e1; exact ⟨rfl, rfl, rfl⟩
      | inverted => cases e1; exact ⟨rfl, rfl, rfl⟩
      | walking =>
        cases w with
        | none => cases e1; exact ⟨rfl, rfl, rfl⟩
        | some vs =>
          simp only [State.reset] at e1
          split at e1
          · cases e1; exact ⟨rfl, rfl, rfl⟩
          · cases e1
    by_cases hb : kind = .best
    · rw [if_pos hb] at e2
      subst e2
      rw [if_pos hb]
      exact ⟨ht.1, ht.2.1, rfl⟩
    · rw [if_neg hb] at e2
      subst e2
      rw [if_neg hb]
      exact ⟨ht.1, ht.2.1, ht.2.2⟩

theorem exec_rephased {s t : State} (hs : Sized s) {op : Op} (e : exec s op = some t) :
    t.rephased = s.rephased + rephasings [op] := by
  by_cases hu : op = .update
  · subst hu
    obtain ⟨t', e3, -, -, -, -, -, h1, -⟩ := update_spec hs
    have e : s.update = some t := e
    rw [e] at e3; cases e3
    exact h1
  · by_cases hr : ∃ w, op = .rephase w
    · obtain ⟨w, rfl⟩ := hr
      obtain ⟨kind, hk, h1, h2, h3⟩ := exec_rephase (s' := t) (w := w) e
      exact h1
    · have := (exec_other e hu fun w hw => hr ⟨w, hw⟩).2.2.2.2
      cases op with
      | rephase w => exact absurd ⟨w, rfl⟩ hr
      | _ => exact this

theorem run_rephased : ∀ (ops : List Op) {s t : State}, Sized s → run s ops = some t →
    t.rephased = s.rephased + rephasings ops
  | [], s, t, _, e => by cases e; rfl
  | op :: ops, s, t, hs, e => by
    rw [run] at e
    obtain ⟨u, e1, e2⟩ := Option.bind_eq_some_iff.1 e
    obtain ⟨hs', -⟩ := exec_sized hs e1
    rw [run_rephased ops hs' e2, exec_rephased hs e1]
    cases op <;> simp [rephasings] <;> omega

theorem noBest_step {s t : State} (hs : Sized s) {op : Op} {ops : List Op} (e : exec s op = some t)
    (h : NoBest s.rephased (op :: ops)) : NoBest t.rephased ops ∧ (op = .update ∨
      (t.best = s.best ∧ t.bestAssigned = s.bestAssigned)) := by
  obtain ⟨h1, h2⟩ := noBest_cons h
  refine ⟨by rw [exec_rephased hs e]; exact h1, ?_⟩
  by_cases hu : op = .update
  · exact .inl hu
  · by_cases hr : ∃ w, op = .rephase w
    · obtain ⟨w, rfl⟩ := hr
      obtain ⟨kind, hk, -, h4, h3⟩ := exec_rephase (s' := t) (w := w) e
      rw [if_neg (by rw [hk]; exact h2 w rfl)] at h3
      exact .inr ⟨h4, h3⟩
    · have := exec_other e hu fun w hw => hr ⟨w, hw⟩
      exact .inr ⟨this.2.2.1, this.2.2.2.1⟩

theorem best_below {N : Nat} : ∀ (ops : List Op) {s s' : State}, Sized s → run s ops = some s' →
    NoBest s.rephased ops → During (fun t => t.assigned < N) s ops → s.bestAssigned < N →
    s'.bestAssigned < N
  | [], s, s', _, e, _, _, h0 => by cases e; exact h0
  | op :: ops, s, s', hs, e, hr, hd, h0 => by
    rw [run] at e
    obtain ⟨t, e1, e2⟩ := Option.bind_eq_some_iff.1 e
    obtain ⟨hs', -⟩ := exec_sized hs e1
    obtain ⟨hn, hcase⟩ := noBest_step hs e1 hr
    refine best_below ops hs' e2 hn (during_tail hd e1) ?_
    rcases hcase with rfl | ⟨-, h2⟩
    · obtain ⟨t', e3, -, -, -, -, -, -, -, -, -, -, h1⟩ := update_spec hs
      have e1 : s.update = some t := e1
      rw [e1] at e3; cases e3
      split at h1
      · rename_i hc
        rw [h1.1]; exact during_head hd ⟨hc.1, hc.2.1⟩
      · rw [h1.1]; exact h0
    · rw [h2]; exact h0

theorem best_kept {N : Nat} : ∀ (ops : List Op) {s s' : State}, Sized s → run s ops = some s' →
    NoBest s.rephased ops → During (fun t => t.assigned ≤ N) s ops → s.bestAssigned = N →
    s'.bestAssigned = N ∧ s'.best = s.best
  | [], s, s', _, e, _, _, h0 => by cases e; exact ⟨h0, rfl⟩
  | op :: ops, s, s', hs, e, hr, hd, h0 => by
    rw [run] at e
    obtain ⟨t, e1, e2⟩ := Option.bind_eq_some_iff.1 e
    obtain ⟨hs', -⟩ := exec_sized hs e1
    obtain ⟨hn, hcase⟩ := noBest_step hs e1 hr
    have key : t.bestAssigned = s.bestAssigned ∧ t.best = s.best := by
      rcases hcase with rfl | ⟨h1, h2⟩
      · obtain ⟨t', e3, -, -, -, -, -, -, -, -, -, -, h1⟩ := update_spec hs
        have e1 : s.update = some t := e1
        rw [e1] at e3; cases e3
        split at h1
        · rename_i hc
          have : s.assigned ≤ N := during_head hd ⟨hc.1, hc.2.1⟩
          omega
        · exact h1
      · exact ⟨h2, h1⟩
    obtain ⟨g1, g2⟩ := best_kept ops hs' e2 hn (during_tail hd e1) (key.1.trans h0)
    exact ⟨g1, g2.trans key.2⟩

/-- Values are one, minus one or zero. -/
theorem exec_dom {s t : State} {op : Op} (hs : Sized s) (e : exec s op = some t)
    (h : ∀ x ∈ s.values, x = 1 ∨ x = 0 ∨ x = -1) : ∀ x ∈ t.values, x = 1 ∨ x = 0 ∨ x = -1 := by
  cases op with
  | assign lit =>
    simp only [exec, State.assign] at e
    by_cases hc : lit < s.values.length ∧ (if lit % 2 = 0 then lit + 1 else lit - 1) < s.values.length ∧
        lit / 2 < s.saved.length
    · rw [if_pos hc] at e; cases e
      intro x hx
      rcases List.mem_or_eq_of_mem_set hx with hx | rfl
      · rcases List.mem_or_eq_of_mem_set hx with hx | rfl
        · exact h x hx
        · exact .inl rfl
      · exact .inr (.inr rfl)
    · rw [if_neg hc] at e; cases e
  | unassign lit =>
    simp only [exec, State.unassign] at e
    by_cases hc : lit < s.values.length ∧ (if lit % 2 = 0 then lit + 1 else lit - 1) < s.values.length
    · rw [if_pos hc] at e; cases e
      intro x hx
      rcases List.mem_or_eq_of_mem_set hx with hx | rfl
      · rcases List.mem_or_eq_of_mem_set hx with hx | rfl
        · exact h x hx
        · exact .inr (.inl rfl)
      · exact .inr (.inl rfl)
    · rw [if_neg hc] at e; cases e
  | update =>
    obtain ⟨t', e3, -, -, -, h1, -⟩ := update_spec hs
    have e : s.update = some t := e
    rw [e] at e3; cases e3
    rw [h1]; exact h
  | rephase w =>
    have hv : t.values = s.values := by
      have e : s.rephase w = some t := e
      unfold State.rephase at e
      simp only at e
      split at e
      · cases e
      · rename_i kind _
        obtain ⟨u, e1, e2⟩ := Option.map_eq_some_iff.1 e
        have hu : u.values = s.values := by
          cases kind with
          | best =>
            obtain ⟨r, -, rfl⟩ := Option.map_eq_some_iff.1 e1
            rfl
          | original => cases e1; rfl
          | inverted => cases e1; rfl
          | walking =>
            cases w with
            | none => cases e1; rfl
            | some vs =>
              simp only [State.reset] at e1
              split at e1
              · cases e1; rfl
              · cases e1
        split at e2 <;> (subst e2; exact hu)
    rw [hv]; exact h
  | walk vs =>
    simp only [exec] at e
    split at e
    · cases e; exact h
    · cases e
  | remove => cases e; exact h
  | insert => cases e; exact h
  | mode b => cases e; exact h
  | probe b => cases e; exact h

theorem run_dom : ∀ (ops : List Op) {s t : State}, Sized s → run s ops = some t →
    (∀ x ∈ s.values, x = 1 ∨ x = 0 ∨ x = -1) → ∀ x ∈ t.values, x = 1 ∨ x = 0 ∨ x = -1
  | [], s, t, _, e, h => by cases e; exact h
  | op :: ops, s, t, hs, e, h => by
    rw [run] at e
    obtain ⟨u, e1, e2⟩ := Option.bind_eq_some_iff.1 e
    exact run_dom ops (exec_sized hs e1).1 e2 (exec_dom hs e1 h)

theorem countP_flip {p q : Nat → Bool} {n v : Nat} (hv : v < n) (hp : p v = false) (hq : q v = true)
    (h : ∀ w, w ≠ v → p w = q w) : (List.range n).countP q = (List.range n).countP p + 1 := by
  have hperm := List.perm_cons_erase (List.mem_range.2 hv)
  have hnd : v ∉ (List.range n).erase v := fun hm => (List.nodup_range.mem_erase_iff.1 hm).1 rfl
  rw [hperm.countP_eq, hperm.countP_eq p, List.countP_cons, List.countP_cons, if_pos hq, if_neg (by rw [hp]; decide)]
  have : ((List.range n).erase v).countP q = ((List.range n).erase v).countP p :=
    List.countP_congr fun w hw => by rw [h w (fun e => hnd (e ▸ hw))]
  omega

theorem set_pair {l : List Int} {lit m : Nat} {x y : Int} (hl : lit < l.length)
    (hn : (if lit % 2 = 0 then lit + 1 else lit - 1) < l.length) :
    ((l.set lit x).set (if lit % 2 = 0 then lit + 1 else lit - 1) y).getD (2 * m) 0 =
      if m = lit / 2 then (if lit % 2 = 0 then x else y) else l.getD (2 * m) 0 := by
  simp only [List.getD_eq_getElem?_getD]
  by_cases hm : m = lit / 2
  · rw [if_pos hm]
    by_cases he : lit % 2 = 0
    · rw [if_pos he, if_pos he, List.getElem?_set_ne (by omega), show 2 * m = lit by omega,
        List.getElem?_set_self hl]; rfl
    · rw [if_neg he] at hn
      rw [if_neg he, if_neg he, show 2 * m = lit - 1 by omega,
        List.getElem?_set_self (by rw [List.length_set]; exact hn)]; rfl
  · rw [if_neg hm, List.getElem?_set_ne (by split <;> omega), List.getElem?_set_ne (by omega)]

theorem rephase_keeps {s s' : State} {w : Option (List Int)} (e : s.rephase w = some s') :
    s'.vars = s.vars ∧ s'.values = s.values ∧ s'.unassigned = s.unassigned := by
  unfold State.rephase at e
  simp only at e
  split at e
  · cases e
  · rename_i kind hk
    obtain ⟨t, e1, e2⟩ := Option.map_eq_some_iff.1 e
    have ht : t.vars = s.vars ∧ t.values = s.values ∧ t.unassigned = s.unassigned := by
      cases kind with
      | best =>
        simp only [State.reset] at e1
        obtain ⟨r, -, e3⟩ := Option.map_eq_some_iff.1 e1
        cases e3; exact ⟨rfl, rfl, rfl⟩
      | original => cases e1; exact ⟨rfl, rfl, rfl⟩
      | inverted => cases e1; exact ⟨rfl, rfl, rfl⟩
      | walking =>
        cases w with
        | none => cases e1; exact ⟨rfl, rfl, rfl⟩
        | some vs =>
          simp only [State.reset] at e1
          split at e1
          · cases e1; exact ⟨rfl, rfl, rfl⟩
          · cases e1
    rw [← e2]
    split <;> exact ht

theorem exec_count {s s' : State} {op : Op} {g : Int} (hs : Sized s) (hp : Proper s op)
    (h : exec s op = some s') (hg : 0 ≤ g) (hc : (s.unassigned : Int) + valued s + g = s.vars) :
    0 ≤ gone [op] + g ∧ (s'.unassigned : Int) + valued s' + (gone [op] + g) = s'.vars := by
  cases op with
  | assign lit =>
    simp only [exec, State.assign] at h
    by_cases hb : lit < s.values.length ∧ (if lit % 2 = 0 then lit + 1 else lit - 1) < s.values.length ∧
        lit / 2 < s.saved.length
    · rw [if_pos hb] at h
      cases h
      obtain ⟨h1, h2, h3⟩ := hp
      have hv : valued { s with
          values := (s.values.set lit 1).set (if lit % 2 = 0 then lit + 1 else lit - 1) (-1)
          unassigned := s.unassigned - 1
          saved := if s.probing then s.saved else s.saved.set (lit / 2) (if lit % 2 = 1 then -1 else 1) } =
          valued s + 1 := by
        refine countP_flip (v := lit / 2) (by show _ < s.vars; omega) (by simpa using h2) ?_ fun w hw => ?_
        · simp only [set_pair hb.1 hb.2.1, if_true]
          split <;> decide
        · simp only [set_pair hb.1 hb.2.1, if_neg hw]
      refine ⟨by simpa [gone] using hg, ?_⟩
      rw [hv]
      simp only [gone]
      omega
    · rw [if_neg hb] at h; cases h
  | unassign lit =>
    simp only [exec, State.unassign] at h
    by_cases hb : lit < s.values.length ∧ (if lit % 2 = 0 then lit + 1 else lit - 1) < s.values.length
    · rw [if_pos hb] at h
      cases h
      obtain ⟨h1, h2⟩ := hp
      have hv : valued s = valued { s with
          values := (s.values.set lit 0).set (if lit % 2 = 0 then lit + 1 else lit - 1) 0
          unassigned := s.unassigned + 1 } + 1 := by
        refine countP_flip (v := lit / 2) (by show _ < s.vars; omega) ?_ (by simpa using h2) fun w hw => ?_
        · simp only [set_pair hb.1 hb.2, if_true]
          split <;> decide
        · simp only [set_pair hb.1 hb.2, if_neg hw]
      refine ⟨by simpa [gone] using hg, ?_⟩
      rw [hv] at hc
      simp only [gone]
      push_cast at hc ⊢
      omega
    · rw [if_neg hb] at h; cases h
  | update =>
    obtain ⟨t, e, -, h1, -, h2, -, -, -, -, h3, -⟩ := update_spec hs
    have h : s.update = some s' := h
    rw [h] at e; cases e
    refine ⟨by simpa [gone] using hg, ?_⟩
    simp only [gone, valued, h1, h2, h3, Int.zero_add]
    exact hc
  | rephase w =>
    obtain ⟨h1, h2, h3⟩ := rephase_keeps h
    refine ⟨by simpa [gone] using hg, ?_⟩
    simp only [gone, valued, h1, h2, h3, Int.zero_add]
    exact hc
  | walk vs =>
    simp only [exec] at h
    split at h
    · cases h
      exact ⟨by simpa [gone] using hg, by simpa [gone, valued] using hc⟩
    · cases h
  | remove =>
    cases h
    have hp : 0 < s.unassigned := hp
    refine ⟨by simp only [gone]; omega, ?_⟩
    have hv : valued { s with unassigned := s.unassigned - 1 } = valued s := rfl
    rw [hv]
    simp only [gone]
    omega
  | insert =>
    cases h
    have hp : s.unassigned + valued s < s.vars := hp
    refine ⟨by simp only [gone]; omega, ?_⟩
    have hv : valued { s with unassigned := s.unassigned + 1 } = valued s := rfl
    rw [hv]
    simp only [gone]
    push_cast
    omega
  | mode b => cases h; exact ⟨by simpa [gone] using hg, by simpa [gone, valued] using hc⟩
  | probe b => cases h; exact ⟨by simpa [gone] using hg, by simpa [gone, valued] using hc⟩

theorem gone_cons (op : Op) (ops : List Op) : gone (op :: ops) = gone [op] + gone ops := by
  cases op <;> simp only [gone] <;> omega

theorem run_count : ∀ (ops : List Op) {s t : State} {g : Int}, Sized s → ProperRun s ops → run s ops = some t →
    0 ≤ g → (s.unassigned : Int) + valued s + g = s.vars →
    0 ≤ gone ops + g ∧ (t.unassigned : Int) + valued t + (gone ops + g) = t.vars
  | [], s, t, g, _, _, h, hg, hc => by cases h; exact ⟨by simpa [gone] using hg, by simpa [gone] using hc⟩
  | op :: ops, s, t, g, hs, hp, h, hg, hc => by
    rw [run] at h
    obtain ⟨s', e1, e2⟩ := Option.bind_eq_some_iff.1 h
    obtain ⟨h1, h2⟩ := exec_count hs hp.1 e1 hg hc
    obtain ⟨h3, h4⟩ := run_count ops (exec_sized hs e1).1 (hp.2 s' e1) e2 h1 h2
    rw [gone_cons]
    exact ⟨by omega, by omega⟩

end Verif.Proofs.Phases
