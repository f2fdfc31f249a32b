import Verif.Proofs.Handle

/-!
# Signals (C55)

`Steps s t` is any execution in which signals arrive at any time; `inherited` are the actions for the
signals before the program installs its own.
-/

namespace Verif.Props

open Verif.Model.Handle Verif.Proofs.Handle

/-- Without signals the installation ends in the state `installed`. -/
theorem C55_installed (inherited : Nat → Action) : Steps (start inherited) (installed inherited) := by
  have step : ∀ {s : State} {i code}, Steps (start inherited) s → s.ended = false → s.pending = [] → s.frames = [⟨none, i :: code⟩] →
      Steps (start inherited) (s.exec none i code []) := by
    intro s i code h he hp hf
    refine .tail h (.exec he (fun n hn => ?_) hf)
    have := hn.1
    rw [hp] at this
    cases this
  have h := step (step (step (step (step (step (step (step (step (step (step (step
    (.refl _) rfl rfl rfl) rfl rfl rfl) rfl rfl rfl) rfl rfl rfl) rfl rfl rfl) rfl rfl rfl) rfl rfl rfl)
    rfl rfl rfl) rfl rfl rfl) rfl rfl rfl) rfl rfl rfl) rfl rfl rfl
  refine cast ?_ h
  congr 1
  unfold installed
  simp only [State.exec, State.mk.injEq, true_and]
  repeat' apply And.intro
  any_goals rfl
  all_goals funext n
  · unfold update signals
    by_cases h1 : n = 15
    · subst h1; rfl
    by_cases h2 : n = 11
    · subst h2; rfl
    by_cases h3 : n = 2
    · subst h3; rfl
    by_cases h4 : n = 7
    · subst h4; rfl
    by_cases h5 : n = 6
    · subst h5; rfl
    simp [h1, h2, h3, h4, h5, start]
  · unfold update signals
    by_cases h1 : n = 15
    · subst h1; rfl
    by_cases h2 : n = 11
    · subst h2; rfl
    by_cases h3 : n = 2
    · subst h3; rfl
    by_cases h4 : n = 7
    · subst h4; rfl
    by_cases h5 : n = 6
    · subst h5; rfl
    simp [h1, h2, h3, h4, h5, start]

/-- When `main` has reset the handlers the inherited actions are back, whatever signals came meanwhile. -/
theorem C55_restored {inherited : Nat → Action} {t : State} (h : Steps (installed inherited) t) (hf : t.frames = []) :
    ∀ n, t.action n = inherited n := by
  have hi := (Inv.start inherited).steps h
  rcases hi.main with ⟨f, hm, -⟩ | hset
  · rw [hf] at hm; cases hm
  · exact hi.unset hset

/-- When a caught signal is raised again the inherited actions are back and the callback has run. -/
theorem C55_raise {inherited : Nat → Action} {t : State} (h : Steps (installed inherited) t) (he : t.ended = false)
    {sig : Option Nat} {n : Nat} {code : List Instr} {fs : List Frame} (hf : t.frames = ⟨sig, .raise n :: code⟩ :: fs) :
    (∀ m, t.action m = inherited m) ∧ .callback n ∈ t.log := by
  have hi := (Inv.start inherited).steps h
  have hok := hi.frames ⟨sig, .raise n :: code⟩ (by rw [hf]; exact List.mem_cons_self)
  generalize hfr : (⟨sig, .raise n :: code⟩ : Frame) = f at hok
  cases hok with
  | checking m => cases hfr
  | setting m => cases hfr
  | calling m => cases hfr
  | finished m => cases hfr
  | resetting o j i1 i2 i3 i4 =>
    injection hfr with e1 e2
    subst e1
    have hj : j = 0 ∨ j = 1 ∨ j = 2 ∨ j = 3 ∨ j = 4 ∨ j = 5 ∨ j = 6 ∨ j = 7 ∨ j = 8 := by omega
    rcases hj with rfl | rfl | rfl | rfl | rfl | rfl | rfl | rfl | rfl
    any_goals cases e2
    cases sig with
    | none => cases e2
    | some m =>
      have e2 : Instr.raise n :: code = [.raise m] := e2
      injection e2 with e2 e3
      injection e2 with e2
      subst e2
      refine ⟨hi.unset (i3 (by omega)), ?_⟩
      rcases i4 n rfl with h' | h'
      · exact h'
      · rw [hi.crash h'] at he; cases he

/-- Whatever is done for a signal besides the callback is the inherited action for it. -/
theorem C55_actions {inherited : Nat → Action} {t : State} (h : Steps (installed inherited) t) {n : Nat} {a : Action}
    (ha : .acted n a ∈ t.log) : a = inherited n :=
  ((Inv.start inherited).steps h).log n a ha

/-- The callback runs at most once and is not null when called.  Partial: after installation and if the inherited actions are the default
ones, which end the process; see `C55_null_call` and `C55_installation_race`. -/
theorem C55_once_partial {inherited : Nat → Action} (hd : ∀ n ∈ signals, inherited n = .default) {t : State}
    (h : Steps (installed inherited) t) :
    (t.log.filter fun e => e matches .callback _).length ≤ 1 ∧ .crash ∉ t.log := by
  have ho := Once.steps hd h
  refine ⟨?_, ho.crash⟩
  have : ∀ l : List Event, (l.filter fun e => e matches .callback _).length = calls l := by
    intro l
    induction l with
    | nil => rfl
    | cons e l ih => cases e <;> simp [calls, ih]
  rw [this]
  exact ho.count

/-! Executions given as lists of commands. -/

inductive Command
  | arrive (n : Nat)
  | deliver (n : Nat)
  | exec
  | back

/-- Some signal is waiting which is not blocked. -/
def anyDue (s : State) : Bool := s.pending.any fun n => !s.blocked n

def play : List Command → State → Option State
  | [], s => some s
  | .arrive n :: cs, s => if n ∈ signals ∧ s.ended = false then play cs (s.arrive n) else none
  | .deliver n :: cs, s =>
    if s.ended = false ∧ n ∈ s.pending ∧ s.blocked n = false then
      play cs (State.deliver { s with pending := s.pending.filter (· ≠ n) } n)
    else none
  | .exec :: cs, s =>
    match s.frames with
    | ⟨sig, i :: code⟩ :: fs => if s.ended = false ∧ anyDue s = false then play cs (s.exec sig i code fs) else none
    | _ => none
  | .back :: cs, s =>
    match s.frames with
    | ⟨_, []⟩ :: fs => if s.ended = false ∧ anyDue s = false then play cs { s with frames := fs } else none
    | _ => none

theorem not_due {s : State} (h : anyDue s = false) : ∀ n, ¬ s.due n := by
  rintro n ⟨h1, h2⟩
  unfold anyDue at h
  rw [List.any_eq_false] at h
  have := h n h1
  rw [h2] at this
  exact this rfl

theorem play_sound {s0 : State} : ∀ (cs : List Command) {s t : State}, Steps s0 s → play cs s = some t → Steps s0 t
  | [], s, t, h, hp => by
    cases hp; exact h
  | .arrive n :: cs, s, t, h, hp => by
    unfold play at hp
    split at hp
    · rename_i hc
      exact play_sound cs (.tail h (.arrives hc.1 hc.2)) hp
    · cases hp
  | .deliver n :: cs, s, t, h, hp => by
    unfold play at hp
    split at hp
    · rename_i hc
      exact play_sound cs (.tail h (.waiting hc.1 hc.2)) hp
    · cases hp
  | .exec :: cs, s, t, h, hp => by
    unfold play at hp
    split at hp
    · rename_i hf
      split at hp
      · rename_i hc
        exact play_sound cs (.tail h (.exec hc.1 (not_due hc.2) hf)) hp
      · cases hp
    · cases hp
  | .back :: cs, s, t, h, hp => by
    unfold play at hp
    split at hp
    · rename_i hf
      split at hp
      · rename_i hc
        exact play_sound cs (.tail h (.return hc.1 (not_due hc.2) hf rfl)) hp
      · cases hp
    · cases hp

/-- What is seen after an execution: the log, whether the process has ended, the number of running functions and the
actions for the signals. -/
def seen (cs : List Command) (s : State) : Option (List Event × Bool × Nat × List Action) :=
  (play cs s).map fun t => (t.log, t.ended, t.frames.length, signals.map t.action)

theorem seen_sound {s : State} {cs : List Command} {x : List Event × Bool × Nat × List Action} (h : seen cs s = some x) :
    ∃ t, Steps s t ∧ t.log = x.1 ∧ t.ended = x.2.1 ∧ t.frames.length = x.2.2.1 ∧ signals.map t.action = x.2.2.2 := by
  unfold seen at h
  cases hp : play cs s with
  | none => rw [hp] at h; cases h
  | some t =>
    rw [hp] at h
    cases h
    exact ⟨t, play_sound cs (.refl _) hp, rfl, rfl, rfl, rfl⟩

/-- SIGINT arrives, is interrupted by SIGTERM before `caught_signal` is set, and the process ends with the default
action for SIGTERM after one callback. -/
example : seen ([.arrive 2, .exec, .arrive 15] ++ List.replicate 12 .exec ++ [.back, .deliver 15])
    (installed fun _ => .default) = some ([.callback 15, .acted 15 .default], true, 2, List.replicate 5 .default) := by
  decide +kernel

/-- No signal: `main` resets the handlers. -/
example : seen (List.replicate 8 .exec ++ [.back]) (installed fun n => if n = 2 then .ignore else .default) =
    some ([], false, 0, [.default, .default, .ignore, .default, .default]) := by
  decide +kernel

/-- If SIGTERM was ignored when the program was started and arrives when the handler for SIGINT has just tested `caught_signal`, then
that handler calls a null pointer: the nested handler has cleared it. -/
theorem C55_null_call : ∃ t, Steps (installed fun n => if n = 15 then .ignore else .default) t ∧
    t.log = [.callback 15, .acted 15 .ignore, .crash] := by
  have h : seen ([.arrive 2, .exec, .arrive 15] ++ List.replicate 12 .exec ++ [.back, .deliver 15, .exec, .exec])
      (installed fun n => if n = 15 then .ignore else .default) =
      some ([.callback 15, .acted 15 .ignore, .crash], true, 2, [.default, .default, .default, .default, .ignore]) := by
    decide +kernel
  obtain ⟨t, h1, h2, -⟩ := seen_sound h
  exact ⟨t, h1, h2⟩

/-- If a signal inherited as ignored (SIGABRT) arrives during the installation the other signals are caught for ever, even
after `main` has reset the handlers: further signals are then dropped as `caught_signal` is set. -/
theorem C55_installation_race : ∃ t, Steps (start fun n => if n = 6 then .ignore else .default) t ∧ t.frames = [] ∧ t.ended = false ∧
    signals.map t.action = [.ignore, .catch, .catch, .catch, .catch] := by
  have h : seen (List.replicate 4 .exec ++ [.arrive 6] ++ List.replicate 12 .exec ++ [.back, .deliver 6] ++ List.replicate 9 .exec ++ [.back])
      (start fun n => if n = 6 then .ignore else .default) =
      some ([.callback 6, .acted 6 .ignore], false, 0, [.ignore, .catch, .catch, .catch, .catch]) := by
    decide +kernel
  obtain ⟨t, h1, -, h3, h4, h5⟩ := seen_sound h
  exact ⟨t, h1, List.eq_nil_of_length_eq_zero h4, h3, h5⟩

/-! The alarm. -/

namespace AlarmCase

open Verif.Model.Handle.Alarm

/-- Number of callbacks. -/
def callbacks (s : Alarm.State) : Nat := (s.log.filter fun e => e matches .callback).length

structure AInv (inh : Action) (s : Alarm.State) : Prop where
  once : callbacks s ≤ if s.caught then 1 else 0
  fine : s.ended = false → s.action = .catch → s.handler = true ∨ s.caught = true
  crash : .crash ∉ s.log

theorem AInv.alarm {inh : Action} {s : Alarm.State} (h : AInv inh s) : AInv inh s.alarm := by
  unfold State.alarm
  by_cases he : s.ended = true
  · rw [if_pos he]; exact h
  · rw [if_neg he]
    have key : ∀ (a : Action) (b : Bool), s.action ≠ .catch → AInv inh { s with log := s.log ++ [.acted a], ended := b } := by
      intro a b ha
      refine ⟨?_, fun _ h' => absurd h' ha, ?_⟩
      · have := h.once
        unfold callbacks at this ⊢
        simpa using this
      · intro h'
        rcases List.mem_append.1 h' with h' | h'
        · exact h.crash h'
        · have := List.mem_singleton.1 h'
          cases this
    cases ha : s.action with
    | default => have := key .default true (by rw [ha]; decide); rw [ha] at this; exact this
    | ignore => have := key .ignore s.ended (by rw [ha]; decide); rw [ha] at this; exact this
    | other f => have := key (.other f) s.ended (by rw [ha]; intro h; cases h); rw [ha] at this; exact this
    | «catch» =>
      show AInv inh s.catchAlarm
      unfold State.catchAlarm
      by_cases hc : s.caught = true
      · rw [if_pos hc]; exact h
      · rw [if_neg hc]
        have hh : s.handler = true := by
          rcases h.fine (by simpa using he) ha with h' | h'
          · exact h'
          · exact absurd h' hc
        dsimp only
        rw [if_pos hh]
        refine ⟨?_, fun _ _ => .inl hh, ?_⟩
        · have := h.once
          rw [if_neg hc] at this
          unfold callbacks at this ⊢
          simp only [List.filter_append, List.length_append]
          show _ ≤ 1
          simp
          simpa using this
        · intro h'
          rcases List.mem_append.1 h' with h' | h'
          · exact h.crash h'
          · have := List.mem_singleton.1 h'
            cases this

theorem AInv.alarms {inh : Action} : ∀ (n : Nat) {s : Alarm.State}, AInv inh s → AInv inh (s.alarms n)
  | 0, _, h => h
  | n + 1, _, h => AInv.alarms n h.alarm

theorem alarm_same (s : Alarm.State) : s.alarm.handler = s.handler ∧ s.alarm.saved = s.saved ∧ s.alarm.action = s.action := by
  unfold State.alarm
  split
  · exact ⟨rfl, rfl, rfl⟩
  · split
    · unfold State.catchAlarm
      split
      · exact ⟨rfl, rfl, rfl⟩
      · dsimp only
        split <;> exact ⟨rfl, rfl, rfl⟩
    · exact ⟨rfl, rfl, rfl⟩
    · exact ⟨rfl, rfl, rfl⟩

theorem alarms_same : ∀ (n : Nat) (s : Alarm.State),
    (s.alarms n).handler = s.handler ∧ (s.alarms n).saved = s.saved ∧ (s.alarms n).action = s.action
  | 0, _ => ⟨rfl, rfl, rfl⟩
  | n + 1, s => by
    obtain ⟨h1, h2, h3⟩ := alarms_same n s.alarm
    obtain ⟨i1, i2, i3⟩ := alarm_same s
    exact ⟨h1.trans i1, h2.trans i2, h3.trans i3⟩

/-- An instruction which changes neither the log nor `caught_alarm`. -/
theorem AInv.do {inh : Action} {s : Alarm.State} (h : AInv inh s) {f : Alarm.State → Alarm.State}
    (h1 : (f s).log = s.log) (h2 : (f s).caught = s.caught)
    (h3 : s.ended = false → (f s).action = .catch → (f s).handler = true ∨ (f s).caught = true) : AInv inh (s.do f) := by
  unfold State.do
  split
  · exact h
  · rename_i he
    refine ⟨?_, fun _ => h3 (by simpa using he), by rw [h1]; exact h.crash⟩
    have := h.once
    unfold callbacks at this ⊢
    rw [h1, h2]; exact this

theorem alarm_ended (s : Alarm.State) (h : s.alarm.ended = false) : s.ended = false := by
  rcases Bool.eq_false_or_eq_true s.ended with he | he
  · unfold State.alarm at h
    rw [if_pos he, he] at h
    cases h
  · exact he

theorem alarms_ended : ∀ (n : Nat) (s : Alarm.State), (s.alarms n).ended = false → s.ended = false
  | 0, _, h => h
  | n + 1, s, h => alarm_ended s (alarms_ended n s.alarm h)

/-- What holds as long as the process runs. -/
def While (s : Alarm.State) (P : Alarm.State → Prop) : Prop := s.ended = false → P s

theorem While.do {s : Alarm.State} {P Q : Alarm.State → Prop} {f : Alarm.State → Alarm.State} (h : While s P) (hf : P s → Q (f s)) :
    While (s.do f) Q := by
  intro he
  unfold State.do at he ⊢
  by_cases hs : s.ended = true
  · rw [if_pos hs, hs] at he; cases he
  · rw [if_neg hs]
    exact hf (h (by simpa using hs))

theorem While.alarms {s : Alarm.State} (n : Nat) {b : Bool} {x y : Action} (h : While s fun s => s.handler = b ∧ s.saved = x ∧ s.action = y) :
    While (s.alarms n) fun s => s.handler = b ∧ s.saved = x ∧ s.action = y := by
  intro he
  obtain ⟨h1, h2, h3⟩ := h (alarms_ended n s he)
  obtain ⟨i1, i2, i3⟩ := alarms_same n s
  exact ⟨i1.trans h1, i2.trans h2, i3.trans h3⟩

theorem do_do (s : Alarm.State) {f g : Alarm.State → Alarm.State} (h : (f s).ended = s.ended) : (s.do f).do g = s.do fun s => g (f s) := by
  unfold State.do
  by_cases hs : s.ended = true
  · rw [if_pos hs, if_pos hs, if_pos hs]
  · rw [if_neg hs, if_neg hs, if_neg (by rw [h]; exact hs)]

end AlarmCase

open AlarmCase Verif.Model.Handle.Alarm in
/-- The callback for the alarm runs at most once and is not null when called, whatever the number of alarms between the instructions of
`kissat_init_alarm` and `kissat_reset_alarm`.  Partial: no alarm between the last two instructions of the latter, see `C55_alarm_null_call`. -/
theorem C55_alarm_partial {inherited : Action} (hne : inherited ≠ .catch) (a0 a1 a2 a3 a4 a6 : Nat) :
    (((Alarm.run inherited a0 a1 a2 a3 a4 0 a6).log.filter fun e => e matches .callback).length ≤ 1 ∧
      .crash ∉ (Alarm.run inherited a0 a1 a2 a3 a4 0 a6).log) := by
  have h0 : AInv inherited ⟨false, false, false, .default, inherited, [], false⟩ :=
    ⟨Nat.le_refl 0, fun _ h => absurd h hne, fun h => (by cases h)⟩
  have w0 : While ⟨false, false, false, .default, inherited, [], false⟩ (fun s => s.handler = false ∧ s.saved = .default ∧ s.action = inherited) :=
    fun _ => ⟨rfl, rfl, rfl⟩
  unfold Alarm.run
  generalize (⟨false, false, false, .default, inherited, [], false⟩ : Alarm.State) = s0 at h0 w0
  dsimp only
  have k0 := h0.alarms a0
  have v0 := w0.alarms a0
  generalize s0.alarms a0 = t0 at k0 v0
  have h1 := k0.do (f := fun s => { s with handler := true }) rfl rfl (fun _ _ => .inl rfl)
  have w1 := v0.do (f := fun s => { s with handler := true })
    (Q := fun s => s.handler = true ∧ s.saved = .default ∧ s.action = inherited) (fun h => ⟨rfl, h.2⟩)
  generalize (t0.do fun s => { s with handler := true }) = s1 at h1 w1
  have k1 := h1.alarms a1
  have v1 := w1.alarms a1
  generalize s1.alarms a1 = t1 at k1 v1
  have h2 := k1.do (f := fun s => { s with set := true }) rfl rfl k1.fine
  have w2 := v1.do (f := fun s => { s with set := true })
    (Q := fun s => s.handler = true ∧ s.saved = .default ∧ s.action = inherited) (fun h => h)
  generalize (t1.do fun s => { s with set := true }) = s2 at h2 w2
  have k2 := h2.alarms a2
  have v2 := w2.alarms a2
  generalize s2.alarms a2 = t2 at k2 v2
  have h3 := k2.do (f := fun s => { s with saved := s.action, action := .catch }) rfl rfl (fun he _ => .inl (v2 he).1)
  have w3 := v2.do (f := fun s => { s with saved := s.action, action := .catch })
    (Q := fun s => s.handler = true ∧ s.saved = inherited ∧ s.action = .catch) (fun h => ⟨h.1, h.2.2, rfl⟩)
  generalize (t2.do fun s => { s with saved := s.action, action := .catch }) = s3 at h3 w3
  have k3 := h3.alarms a3
  have v3 := w3.alarms a3
  generalize s3.alarms a3 = t3 at k3 v3
  have h4 := k3.do (f := fun s => { s with set := false }) rfl rfl k3.fine
  have w4 := v3.do (f := fun s => { s with set := false })
    (Q := fun s => s.handler = true ∧ s.saved = inherited ∧ s.action = .catch) (fun h => h)
  generalize (t3.do fun s => { s with set := false }) = s4 at h4 w4
  have k4 := h4.alarms a4
  have v4 := w4.alarms a4
  generalize s4.alarms a4 = t4 at k4 v4
  show ((State.alarms ((t4.do fun s => { s with handler := false }).do fun s => { s with action := s.saved }) a6).log.filter _).length ≤ 1 ∧
    _ ∉ (State.alarms ((t4.do fun s => { s with handler := false }).do fun s => { s with action := s.saved }) a6).log
  rw [do_do t4 rfl]
  have h5 := k4.do (f := fun s => { s with handler := false, action := s.saved }) rfl rfl
    (fun he ha => absurd ((v4 he).2.1.symm.trans ha) hne)
  have k5 := h5.alarms a6
  refine ⟨Nat.le_trans k5.once ?_, k5.crash⟩
  split <;> omega

open Verif.Model.Handle in
example : (Alarm.run .default 0 0 0 1 2 0 0).log = [.callback] ∧ (Alarm.run .default 0 0 0 1 2 0 0).action = .default := by decide

open Verif.Model.Handle in
/-- An alarm after `kissat_reset_alarm` has cleared the pointer to the callback and before it has restored the action
calls the null pointer. -/
theorem C55_alarm_null_call : (Alarm.run .default 0 0 0 0 0 1 0).log = [.crash] := by decide

end Verif.Props
