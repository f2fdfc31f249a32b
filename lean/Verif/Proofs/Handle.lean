import Verif.Model.Handle

namespace Verif.Proofs.Handle

open Verif.Model.Handle

/-- The end of the functions which reset the handlers. -/
def tail : Option Nat → List Instr
  | some n => [.raise n]
  | none => []

/-- Where a function is. -/
inductive FrameOk (inh action : Nat → Action) (set : Bool) (log : List Event) : Frame → Prop
  | checking (n : Nat) : FrameOk inh action set log ⟨some n, catchCode n⟩
  | setting (n : Nat) : FrameOk inh action set log ⟨some n, .setCaught n :: .callback n :: (resetCode ++ [.raise n])⟩
  | calling (n : Nat) : FrameOk inh action set log ⟨some n, .callback n :: (resetCode ++ [.raise n])⟩
  | resetting (o : Option Nat) (j : Nat) : j ≤ 8 → (∀ n ∈ signals.take (j - 1), action n = inh n) →
      (7 ≤ j → set = false) → (∀ n, o = some n → .callback n ∈ log ∨ .crash ∈ log) →
      FrameOk inh action set log ⟨o, resetCode.drop j ++ tail o⟩
  | finished (n : Nat) : FrameOk inh action set log ⟨some n, []⟩

theorem FrameOk.mono {inh action action' : Nat → Action} {set set' : Bool} {log log' : List Event} {f : Frame}
    (h : FrameOk inh action set log f) (h1 : ∀ n, action n = inh n → action' n = inh n)
    (h2 : set = false → set' = false) (h3 : ∀ e ∈ log, e ∈ log') : FrameOk inh action' set' log' f := by
  cases h with
  | checking n => exact .checking n
  | setting n => exact .setting n
  | calling n => exact .calling n
  | resetting o j i1 i2 i3 i4 =>
    exact .resetting o j i1 (fun n hn => h1 n (i2 n hn)) (fun h => h2 (i3 h)) (fun n hn => (i4 n hn).imp (h3 _) (h3 _))
  | finished n => exact .finished n

structure Inv (inh : Nat → Action) (s : State) : Prop where
  saved : ∀ n ∈ signals, s.saved n = inh n
  action : ∀ n, s.action n = inh n ∨ n ∈ signals ∧ s.action n = .catch
  unset : s.set = false → ∀ n, s.action n = inh n
  frames : ∀ f ∈ s.frames, FrameOk inh s.action s.set s.log f
  main : (∃ f ∈ s.frames, f.sig = none) ∨ s.set = false
  log : ∀ n a, .acted n a ∈ s.log → a = inh n
  crash : .crash ∈ s.log → s.ended = true

theorem Inv.start (inh : Nat → Action) : Inv inh (installed inh) where
  saved n hn := if_pos hn
  action n := by
    by_cases h : n ∈ signals
    · exact .inr ⟨h, if_pos h⟩
    · exact .inl (if_neg h)
  unset h := by cases h
  frames f hf := by
    rw [show (installed inh).frames = [⟨none, resetCode⟩] from rfl, List.mem_singleton] at hf
    subst hf
    exact .resetting none 0 (by omega) (fun n hn => (by cases hn)) (by omega) (fun n hn => (by cases hn))
  main := .inl ⟨_, List.mem_singleton.2 rfl, rfl⟩
  log n a h := by cases h
  crash h := by cases h

/-- Only frames change. -/
theorem Inv.deliver {inh : Nat → Action} {s : State} (h : Inv inh s) (n : Nat) : Inv inh (s.deliver n) := by
  have key : ∀ a b, s.action n = a → a ≠ .catch → (s.ended = true → b = true) →
      Inv inh { s with log := s.log ++ [.acted n a], ended := b } := by
    intro a b ha hne hb
    refine ⟨h.saved, h.action, h.unset, fun f hf => ?_, h.main, fun k c hc => ?_, fun hc => ?_⟩
    · exact (h.frames f hf).mono (fun _ h => h) (fun h => h) (fun e he => List.mem_append_left _ he)
    · rcases List.mem_append.1 hc with hc | hc
      · exact h.log k c hc
      · have := List.mem_singleton.1 hc
        cases this
        rcases h.action n with h' | h'
        · rw [← ha, h']
        · exact absurd (ha.symm.trans h'.2) hne
    · rcases List.mem_append.1 hc with hc | hc
      · exact hb (h.crash hc)
      · have := List.mem_singleton.1 hc
        cases this
  unfold State.deliver
  cases ha : s.action n with
  | default => exact key .default true ha (by decide) (fun _ => rfl)
  | ignore => exact key .ignore s.ended ha (by decide) (fun h => h)
  | other f => exact key (.other f) s.ended ha (fun h => (by cases h)) (fun h => h)
  | «catch» =>
    refine ⟨h.saved, h.action, h.unset, fun f hf => ?_, ?_, h.log, h.crash⟩
    · rcases List.mem_cons.1 hf with rfl | hf
      · exact .checking n
      · exact h.frames f hf
    · rcases h.main with ⟨f, hf, h'⟩ | h'
      · exact .inl ⟨f, List.mem_cons_of_mem _ hf, h'⟩
      · exact .inr h'

theorem Inv.congr {inh : Nat → Action} {s : State} (h : Inv inh s) (p : List Nat) : Inv inh { s with pending := p } :=
  ⟨h.saved, h.action, h.unset, h.frames, h.main, h.log, h.crash⟩

theorem Inv.arrive {inh : Nat → Action} {s : State} (h : Inv inh s) (n : Nat) : Inv inh (s.arrive n) := by
  unfold State.arrive
  split
  · exact h.congr _
  · exact h.deliver n

/-- Replacing the running function. -/
theorem Inv.next {inh : Nat → Action} {s s' : State} {f f' : Frame} {fs : List Frame} (h : Inv inh s)
    (hf : s.frames = f :: fs) (hs' : s'.frames = f' :: fs) (hsig : f'.sig = f.sig)
    (e1 : s'.saved = s.saved) (h2 : ∀ n, s'.action n = inh n ∨ s'.action n = s.action n)
    (h3 : s.set = false → s'.set = false) (hun : s'.set = false → ∀ n, s'.action n = inh n)
    (h4 : ∀ e ∈ s.log, e ∈ s'.log) (h5 : ∀ n a, .acted n a ∈ s'.log → .acted n a ∈ s.log)
    (h6 : .crash ∈ s'.log → .crash ∉ s.log → s'.ended = true) (h7 : s.ended = true → s'.ended = true)
    (hf' : FrameOk inh s'.action s'.set s'.log f') : Inv inh s' := by
  have hact : ∀ n, s.action n = inh n → s'.action n = inh n := by
    intro n hn
    rcases h2 n with h | h
    · exact h
    · rw [h, hn]
  refine ⟨by rw [e1]; exact h.saved, fun n => ?_, hun, fun g hg => ?_, ?_, fun n a ha => h.log n a (h5 n a ha), fun hc => ?_⟩
  · rcases h2 n with h' | h'
    · exact .inl h'
    · rw [h']; exact h.action n
  · rw [hs'] at hg
    rcases List.mem_cons.1 hg with rfl | hg
    · exact hf'
    · exact (h.frames g (by rw [hf]; exact List.mem_cons_of_mem _ hg)).mono hact h3 h4
  · rcases h.main with ⟨g, hg, h'⟩ | h'
    · rw [hf] at hg
      rw [hs']
      rcases List.mem_cons.1 hg with rfl | hg
      · exact .inl ⟨f', List.mem_cons_self, by rw [hsig, h']⟩
      · exact .inl ⟨g, List.mem_cons_of_mem _ hg, h'⟩
    · exact .inr (h3 h')
  · by_cases hc' : .crash ∈ s.log
    · exact h7 (h.crash hc')
    · exact h6 hc hc'

theorem Inv.exec {inh : Nat → Action} {s : State} (h : Inv inh s) {sig : Option Nat} {i : Instr} {code : List Instr}
    {fs : List Frame} (hf : s.frames = ⟨sig, i :: code⟩ :: fs) : Inv inh (s.exec sig i code fs) := by
  have hok := h.frames ⟨sig, i :: code⟩ (by rw [hf]; exact List.mem_cons_self)
  generalize hfr : (⟨sig, i :: code⟩ : Frame) = f at hok
  cases hok with
  | checking n =>
    injection hfr with e1 e2
    injection e2 with e2 e3
    subst e1; subst e2; subst e3
    unfold State.exec
    dsimp only
    split
    · exact h.next hf rfl rfl rfl (fun n => .inr rfl) (fun h => h) h.unset (fun _ h => h) (fun _ _ h => h) (fun h h' => absurd h h') (fun h => h) (.finished n)
    · exact h.next hf rfl rfl rfl (fun n => .inr rfl) (fun h => h) h.unset (fun _ h => h) (fun _ _ h => h) (fun h h' => absurd h h') (fun h => h) (.setting n)
  | setting n =>
    injection hfr with e1 e2
    injection e2 with e2 e3
    subst e1; subst e2; subst e3
    exact h.next hf rfl rfl rfl (fun n => .inr rfl) (fun h => h) h.unset (fun _ h => h) (fun _ _ h => h) (fun h h' => absurd h h') (fun h => h) (.calling n)
  | calling n =>
    injection hfr with e1 e2
    injection e2 with e2 e3
    subst e1; subst e2; subst e3
    unfold State.exec
    dsimp only
    have hold : ∀ e ∈ s.log, ∀ e', e ∈ s.log ++ [e'] := fun e he e' => List.mem_append_left _ he
    split
    · refine h.next hf rfl rfl rfl (fun n => .inr rfl) (fun h => h) h.unset (fun e he => hold e he _) (fun k a ha => ?_)
        (fun hc hc' => ?_) (fun h => h) ?_
      · rcases List.mem_append.1 ha with ha | ha
        · exact ha
        · have := List.mem_singleton.1 ha
          cases this
      · rcases List.mem_append.1 hc with hc | hc
        · exact absurd hc hc'
        · have := List.mem_singleton.1 hc
          cases this
      · refine .resetting (some n) 0 (by omega) (fun n hn => (by cases hn)) (by omega) (fun k hk => ?_)
        cases hk
        exact .inl (List.mem_append_right _ (List.mem_singleton.2 rfl))
    · refine h.next hf rfl rfl rfl (fun n => .inr rfl) (fun h => h) h.unset (fun e he => hold e he _) (fun k a ha => ?_)
        (fun hc hc' => rfl) (fun h => rfl) ?_
      · rcases List.mem_append.1 ha with ha | ha
        · exact ha
        · have := List.mem_singleton.1 ha
          cases this
      · exact .resetting (some n) 0 (by omega) (fun n hn => (by cases hn)) (by omega)
          (fun k hk => .inr (List.mem_append_right _ (List.mem_singleton.2 rfl)))
  | finished n =>
    injection hfr with e1 e2
    cases e2
  | resetting o j i1 i2 i3 i4 =>
    injection hfr with e1 e2
    subst e1
    have hrestore : ∀ m, j = m + 1 → m < 5 → i :: code = .restore (signals.getD m 0) :: (resetCode.drop (m + 2) ++ tail sig) →
        Inv inh (s.exec sig i code fs) := by
      intro m hm hm5 he
      injection he with e2 e3
      subst e2; subst e3
      have hmem : signals.getD m 0 ∈ signals := by
        have : m = 0 ∨ m = 1 ∨ m = 2 ∨ m = 3 ∨ m = 4 := by omega
        rcases this with rfl | rfl | rfl | rfl | rfl <;> decide
      have hact : ∀ n, update s.action (signals.getD m 0) (s.saved (signals.getD m 0)) n = inh n ∨
          update s.action (signals.getD m 0) (s.saved (signals.getD m 0)) n = s.action n := by
        intro n
        unfold update
        by_cases hn : n = signals.getD m 0
        · rw [if_pos hn, h.saved _ hmem, hn]; exact .inl rfl
        · rw [if_neg hn]; exact .inr rfl
      refine h.next hf rfl rfl rfl hact (fun h => h) (fun hs n => ?_) (fun _ h => h) (fun _ _ h => h)
        (fun h h' => absurd h h') (fun h => h) ?_
      · rcases hact n with h' | h'
        · exact h'
        · exact h'.trans (h.unset hs n)
      · refine .resetting sig (m + 2) (by omega) (fun n hn => ?_) (fun h7 => i3 (by omega)) i4
        have hn : n ∈ signals.take (j - 1) ∨ n = signals.getD m 0 := by
          have : m = 0 ∨ m = 1 ∨ m = 2 ∨ m = 3 ∨ m = 4 := by omega
          subst hm
          rcases this with rfl | rfl | rfl | rfl | rfl <;> simp [signals] at hn ⊢ <;> omega
        rcases hn with hn | hn
        · rcases hact n with h' | h'
          · exact h'
          · exact h'.trans (i2 n hn)
        · show update s.action (signals.getD m 0) (s.saved (signals.getD m 0)) n = inh n
          unfold update
          rw [if_pos hn, h.saved _ hmem, hn]
    have hj : j = 0 ∨ j = 1 ∨ j = 2 ∨ j = 3 ∨ j = 4 ∨ j = 5 ∨ j = 6 ∨ j = 7 ∨ j = 8 := by omega
    rcases hj with rfl | rfl | rfl | rfl | rfl | rfl | rfl | rfl | rfl
    · injection e2 with e2 e3
      subst e2; subst e3
      unfold State.exec
      dsimp only
      split
      · exact h.next hf rfl rfl rfl (fun n => .inr rfl) (fun h => h) h.unset (fun _ h => h) (fun _ _ h => h)
          (fun h h' => absurd h h') (fun h => h) (.resetting sig 1 (by omega) (fun n hn => (by cases hn)) (by omega) i4)
      · rename_i hset
        have hset : s.set = false := by simpa using hset
        exact h.next (f' := ⟨sig, resetCode.drop 8 ++ tail sig⟩) hf rfl rfl rfl (fun n => .inr rfl) (fun h => h) h.unset
          (fun _ h => h) (fun _ _ h => h) (fun h h' => absurd h h') (fun h => h)
          (.resetting sig 8 (by omega) (fun n _ => h.unset hset n) (fun _ => hset) i4)
    · exact hrestore 0 rfl (by omega) e2
    · exact hrestore 1 rfl (by omega) e2
    · exact hrestore 2 rfl (by omega) e2
    · exact hrestore 3 rfl (by omega) e2
    · exact hrestore 4 rfl (by omega) e2
    · injection e2 with e2 e3
      subst e2; subst e3
      have hall : ∀ n, s.action n = inh n := by
        intro n
        rcases h.action n with h' | ⟨h', -⟩
        · exact h'
        · exact i2 n h'
      exact h.next hf rfl rfl rfl (fun n => .inr rfl) (fun _ => rfl) (fun _ => hall) (fun _ h => h) (fun _ _ h => h)
        (fun h h' => absurd h h') (fun h => h) (.resetting sig 7 (by omega) (fun n _ => hall n) (fun _ => rfl) i4)
    · injection e2 with e2 e3
      subst e2; subst e3
      exact h.next hf rfl rfl rfl (fun n => .inr rfl) (fun h => h) h.unset (fun _ h => h) (fun _ _ h => h)
        (fun h h' => absurd h h') (fun h => h) (.resetting sig 8 (by omega) (fun n hn => h.unset (i3 (by omega)) n) (fun _ => i3 (by omega)) i4)
    · cases sig with
      | none => cases e2
      | some n =>
        injection e2 with e2 e3
        subst e2; subst e3
        have : Inv inh { s with frames := ⟨some n, []⟩ :: fs } :=
          h.next hf rfl rfl rfl (fun n => .inr rfl) (fun h => h) h.unset (fun _ h => h) (fun _ _ h => h)
            (fun h h' => absurd h h') (fun h => h) (.finished n)
        exact this.arrive n

theorem Inv.step {inh : Nat → Action} {s t : State} (h : Inv inh s) (hs : Step s t) : Inv inh t := by
  cases hs with
  | arrives _ _ => exact h.arrive _
  | waiting _ _ => exact (h.congr _).deliver _
  | exec _ _ hf => exact h.exec hf
  | @«return» f fs he _ hf hc =>
    refine ⟨h.saved, h.action, h.unset, fun g hg => h.frames g (by rw [hf]; exact List.mem_cons_of_mem _ hg), ?_, h.log, h.crash⟩
    rcases h.main with ⟨g, hg, h'⟩ | h'
    · rw [hf] at hg
      rcases List.mem_cons.1 hg with rfl | hg
      · have hok := h.frames g (by rw [hf]; exact List.mem_cons_self)
        cases hok with
        | checking n => cases h'
        | setting n => cases h'
        | calling n => cases h'
        | finished n => cases h'
        | resetting o j i1 i2 i3 i4 =>
          have h' : o = none := h'
          subst h'
          have hc : resetCode.drop j ++ [] = [] := hc
          refine .inr (i3 ?_)
          rw [List.append_nil, List.drop_eq_nil_iff] at hc
          have : resetCode.length = 8 := rfl
          omega
      · exact .inl ⟨g, hg, h'⟩
    · exact .inr h'

theorem Inv.steps {inh : Nat → Action} {s t : State} (h : Inv inh s) (hs : Steps s t) : Inv inh t := by
  induction hs with
  | refl => exact h
  | tail _ h2 ih => exact ih.step h2

/-! ## The callback runs at most once -/

/-- Number of times the callback ran. -/
def calls : List Event → Nat
  | [] => 0
  | .callback _ :: l => calls l + 1
  | _ :: l => calls l

theorem calls_append (l m : List Event) : calls (l ++ m) = calls l + calls m := by
  induction l with
  | nil => simp [calls]
  | cons e l ih => cases e <;> simp only [List.cons_append, calls, ih] <;> omega

/-- The code after the test of `caught_signal`. -/
def setCode (n : Nat) : List Instr := .setCaught n :: .callback n :: (resetCode ++ [.raise n])

/-- Not further than the test. -/
def Early (f : Frame) : Prop := f.sig = none ∨ ∃ n, f = ⟨some n, catchCode n⟩ ∨ f = ⟨some n, setCode n⟩

/-- The function which has set `caught_signal`. -/
inductive Committed (s : State) : Frame → Prop
  | calling (n : Nat) : calls s.log = 0 → s.handler = true → Committed s ⟨some n, .callback n :: (resetCode ++ [.raise n])⟩
  | resetting (n j : Nat) : calls s.log = 1 → j ≤ 8 → (7 ≤ j → s.set = false) → Committed s ⟨some n, resetCode.drop j ++ [.raise n]⟩
  | finished (n : Nat) : calls s.log = 1 → s.set = false → n ∈ s.pending → Committed s ⟨some n, []⟩

inductive Phase (s : State) : Prop
  | ended : s.ended = true → Phase s
  | quiet : s.caught = 0 → calls s.log = 0 → (∀ f ∈ s.frames, Early f) →
      (s.handler = true ∨ s.set = false ∧ ∀ f ∈ s.frames, f.sig = none) → Phase s
  | busy (top : List Frame) (c : Frame) (below : List Frame) : s.frames = top ++ c :: below → s.caught ≠ 0 →
      (∀ f ∈ top, ∃ n, f = ⟨some n, catchCode n⟩ ∨ f = ⟨some n, []⟩) → (∀ f ∈ below, Early f) → Committed s c → Phase s
  | over (n : Nat) : s.due n → s.set = false → Phase s

structure Once (s : State) : Prop where
  phase : Phase s
  count : calls s.log ≤ 1
  crash : .crash ∉ s.log
  nodup : (s.frames.filterMap Frame.sig).Nodup
  sigs : ∀ f ∈ s.frames, ∀ n, f.sig = some n → n ∈ signals
  pending : ∀ n ∈ s.pending, n ∈ signals
  last : ∀ pre f post, s.frames = pre ++ f :: post → f.sig = none → post = []

theorem blocked_iff {s : State} {n : Nat} : s.blocked n = true ↔ n ∈ s.frames.filterMap Frame.sig := by
  unfold State.blocked
  rw [List.any_eq_true, List.mem_filterMap]
  simp only [decide_eq_true_eq]

theorem Once.start (inh : Nat → Action) : Once (installed inh) := by
  refine ⟨.quiet rfl rfl (fun f hf => .inl ?_) (.inl rfl), Nat.zero_le 1, fun h => (by cases h), .nil, fun f hf n hn => ?_, fun n hn => (by cases hn), fun pre f post h _ => ?_⟩
  · rw [show (installed inh).frames = [⟨none, resetCode⟩] from rfl, List.mem_singleton] at hf
    subst hf
    rfl
  · rw [show (installed inh).frames = [⟨none, resetCode⟩] from rfl, List.mem_singleton] at hf
    subst hf
    cases hn
  · have := congrArg List.length h
    rw [show (installed inh).frames = [⟨none, resetCode⟩] from rfl, List.length_append, List.length_cons, List.length_cons] at this
    exact List.eq_nil_of_length_eq_zero (by simp at this; omega)

theorem Once.deliver {inh : Nat → Action} (hdef : ∀ n ∈ signals, inh n = .default) {s : State} (h : Inv inh s) (ho : Once s)
    {n : Nat} (hn : n ∈ signals) (hb : s.blocked n = false) : Once (s.deliver n) := by
  unfold State.deliver
  rcases h.action n with ha | ⟨-, ha⟩
  · rw [hdef n hn] at ha
    rw [ha]
    refine ⟨.ended rfl, ?_, ?_, ho.nodup, ho.sigs, ho.pending, ho.last⟩
    · show calls (s.log ++ [_]) ≤ 1
      rw [calls_append]
      exact ho.count
    · intro h'
      rcases List.mem_append.1 h' with h' | h'
      · exact ho.crash h'
      · have := List.mem_singleton.1 h'
        cases this
  · rw [ha]
    have hset : s.set = true := by
      rcases Bool.eq_false_or_eq_true s.set with h' | h'
      · exact h'
      · have := h.unset h' n
        rw [ha, hdef n hn] at this
        cases this
    refine ⟨?_, ho.count, ho.crash, ?_, ?_, ho.pending, ?_⟩
    · rcases ho.phase with h' | ⟨p1, p2, p3, p4⟩ | ⟨top, c, below, p1, p2, p3, p4, p5⟩ | ⟨m, p1, p2⟩
      · exact .ended h'
      · refine .quiet p1 p2 (fun f hf => ?_) (.inl ?_)
        · rcases List.mem_cons.1 hf with rfl | hf
          · exact .inr ⟨n, .inl rfl⟩
          · exact p3 f hf
        · rcases p4 with p4 | p4
          · exact p4
          · rw [hset] at p4; cases p4.1
      · refine .busy (⟨some n, catchCode n⟩ :: top) c below (by rw [p1]; rfl) p2 (fun f hf => ?_) p4 ?_
        · rcases List.mem_cons.1 hf with rfl | hf
          · exact ⟨n, .inl rfl⟩
          · exact p3 f hf
        · cases p5 with
          | calling m q1 q2 => exact .calling m q1 q2
          | resetting m j q1 q2 q3 => exact .resetting m j q1 q2 q3
          | finished m q1 q2 q3 => exact .finished m q1 q2 q3
      · rw [hset] at p2; cases p2
    · show (n :: s.frames.filterMap Frame.sig).Nodup
      refine List.nodup_cons.2 ⟨fun hm => ?_, ho.nodup⟩
      rw [← blocked_iff, hb] at hm
      cases hm
    · intro f hf m hm
      rcases List.mem_cons.1 hf with rfl | hf
      · cases hm; exact hn
      · exact ho.sigs f hf m hm
    · intro pre f post hpre hsig
      cases pre with
      | nil =>
        have hpre : _ = f :: post := hpre
        injection hpre with e1 e2
        subst e1
        cases hsig
      | cons g pre =>
        have hpre : _ = g :: (pre ++ f :: post) := hpre
        injection hpre with e1 e2
        exact ho.last pre f post e2 hsig

/-- Another signal waits. -/
theorem Once.wait {s : State} (ho : Once s) {n : Nat} (hn : n ∈ signals) : Once { s with pending := n :: s.pending } := by
  refine ⟨?_, ho.count, ho.crash, ho.nodup, ho.sigs, fun m hm => ?_, ho.last⟩
  · rcases ho.phase with h' | ⟨p1, p2, p3, p4⟩ | ⟨top, c, below, p1, p2, p3, p4, p5⟩ | ⟨m, p1, p2⟩
    · exact .ended h'
    · exact .quiet p1 p2 p3 p4
    · refine .busy top c below p1 p2 p3 p4 ?_
      cases p5 with
      | calling m q1 q2 => exact .calling m q1 q2
      | resetting m j q1 q2 q3 => exact .resetting m j q1 q2 q3
      | finished m q1 q2 q3 => exact .finished m q1 q2 (List.mem_cons_of_mem _ q3)
    · exact .over m ⟨List.mem_cons_of_mem _ p1.1, p1.2⟩ p2
  · rcases List.mem_cons.1 hm with rfl | hm
    · exact hn
    · exact ho.pending m hm

theorem Once.arrive {inh : Nat → Action} (hdef : ∀ n ∈ signals, inh n = .default) {s : State} (h : Inv inh s) (ho : Once s)
    {n : Nat} (hn : n ∈ signals) : Once (s.arrive n) := by
  unfold State.arrive
  split
  · exact ho.wait hn
  · rename_i hb
    exact ho.deliver hdef h hn (by simpa using hb)

/-- Replacing the running function. -/
theorem Once.next {s s' : State} {f f' : Frame} {fs : List Frame} (ho : Once s) (hf : s.frames = f :: fs)
    (hs' : s'.frames = f' :: fs) (hsig : f'.sig = f.sig) (hp : s'.pending = s.pending)
    (hphase : Phase s') (hcount : calls s'.log ≤ 1) (hcrash : .crash ∉ s'.log) : Once s' := by
  refine ⟨hphase, hcount, hcrash, ?_, fun g hg n hn => ?_, by rw [hp]; exact ho.pending, fun pre g post hpre hg => ?_⟩
  · have := ho.nodup
    rw [hf] at this
    rw [hs']
    have e : ∀ g : Frame, g.sig = f.sig → (g :: fs).filterMap Frame.sig = (f :: fs).filterMap Frame.sig := by
      intro g hg
      rw [List.filterMap_cons, List.filterMap_cons, hg]
    rw [e f' hsig]
    exact this
  · rw [hs'] at hg
    rcases List.mem_cons.1 hg with rfl | hg
    · exact ho.sigs f (by rw [hf]; exact List.mem_cons_self) n (by rw [← hsig]; exact hn)
    · exact ho.sigs g (by rw [hf]; exact List.mem_cons_of_mem _ hg) n hn
  · rw [hs'] at hpre
    cases pre with
    | nil =>
      have hpre : f' :: fs = g :: post := hpre
      injection hpre with e1 e2
      subst e1; subst e2
      exact ho.last [] f fs hf (by rw [← hsig]; exact hg)
    | cons k pre =>
      have hpre : f' :: fs = k :: (pre ++ g :: post) := hpre
      injection hpre with e1 e2
      exact ho.last (f :: pre) g post (by rw [hf, e2]; rfl) hg

theorem Once.exec {inh : Nat → Action} (hdef : ∀ n ∈ signals, inh n = .default) {s : State} (h : Inv inh s) (ho : Once s)
    (hend : s.ended = false) (hdue : ∀ n, ¬ s.due n) {sig : Option Nat} {i : Instr} {code : List Instr}
    {fs : List Frame} (hf : s.frames = ⟨sig, i :: code⟩ :: fs) : Once (s.exec sig i code fs) := by
  rcases ho.phase with h' | ⟨p1, p2, p3, p4⟩ | ⟨top, c, below, p1, p2, p3, p4, p5⟩ | ⟨m, q1, q2⟩
  · rw [hend] at h'; cases h'
  · -- nothing was caught
    have hE := p3 _ (by rw [hf]; exact List.mem_cons_self)
    have hrest : ∀ f ∈ fs, Early f := fun f hf' => p3 f (by rw [hf]; exact List.mem_cons_of_mem _ hf')
    rcases hE with hE | ⟨n, hE | hE⟩
    · have hE : sig = none := hE
      subst hE
      have hok := h.frames ⟨none, i :: code⟩ (by rw [hf]; exact List.mem_cons_self)
      -- whatever main executes the phase is the same
      have key : ∀ (s' : State) (c : List Instr), s'.frames = ⟨none, c⟩ :: fs → s'.caught = s.caught → s'.log = s.log →
          s'.pending = s.pending → (s'.handler = true ∨ s'.set = false ∧ ∀ f ∈ s'.frames, f.sig = none) → Once s' := by
        intro s' c e1 e2 e3 e4 e5
        refine ho.next hf e1 rfl e4 (.quiet (by rw [e2, p1]) (by rw [e3, p2]) (fun f hf' => ?_) e5) (by rw [e3]; exact ho.count)
          (by rw [e3]; exact ho.crash)
        rw [e1] at hf'
        rcases List.mem_cons.1 hf' with rfl | hf'
        · exact .inl rfl
        · exact hrest f hf'
      have hfs : fs = [] := ho.last [] ⟨none, i :: code⟩ fs hf rfl
      have p4' : ∀ c, s.handler = true ∨ s.set = false ∧ ∀ f ∈ (⟨none, c⟩ :: fs : List Frame), f.sig = none := by
        intro c
        rcases p4 with p4 | ⟨p4, -⟩
        · exact .inl p4
        · refine .inr ⟨p4, fun f hf' => ?_⟩
          rw [hfs, List.mem_singleton] at hf'
          subst hf'; rfl
      generalize hfr : (⟨none, i :: code⟩ : Frame) = f at hok
      cases hok with
      | checking n => cases hfr
      | setting n => cases hfr
      | calling n => cases hfr
      | finished n => cases hfr
      | resetting o j i1 i2 i3 i4 =>
        injection hfr with e1 e2
        subst e1
        have hj : j = 0 ∨ j = 1 ∨ j = 2 ∨ j = 3 ∨ j = 4 ∨ j = 5 ∨ j = 6 ∨ j = 7 ∨ j = 8 := by omega
        rcases hj with rfl | rfl | rfl | rfl | rfl | rfl | rfl | rfl | rfl
        · injection e2 with e2 e3
          subst e2
          unfold State.exec
          dsimp only
          split
          · exact key _ _ rfl rfl rfl rfl (p4' _)
          · exact key _ _ rfl rfl rfl rfl (p4' _)
        · injection e2 with e2 e3
          subst e2
          exact key _ _ rfl rfl rfl rfl (p4' _)
        · injection e2 with e2 e3
          subst e2
          exact key _ _ rfl rfl rfl rfl (p4' _)
        · injection e2 with e2 e3
          subst e2
          exact key _ _ rfl rfl rfl rfl (p4' _)
        · injection e2 with e2 e3
          subst e2
          exact key _ _ rfl rfl rfl rfl (p4' _)
        · injection e2 with e2 e3
          subst e2
          exact key _ _ rfl rfl rfl rfl (p4' _)
        · injection e2 with e2 e3
          subst e2
          refine key _ _ rfl rfl rfl rfl ?_
          rcases p4' code with h' | h'
          · exact .inl h'
          · exact .inr ⟨rfl, h'.2⟩
        · injection e2 with e2 e3
          subst e2
          refine key _ _ rfl rfl rfl rfl (.inr ⟨i3 (by omega), fun f hf' => ?_⟩)
          have hf' : f ∈ (⟨none, code⟩ :: fs : List Frame) := hf'
          rw [hfs, List.mem_singleton] at hf'
          subst hf'; rfl
        · cases e2
    · -- the test succeeds
      injection hE with e1 e2
      injection e2 with e2 e3
      subst e1; subst e2; subst e3
      have hh : s.handler = true := by
        rcases p4 with p4 | p4
        · exact p4
        · have := p4.2 _ (by rw [hf]; exact List.mem_cons_self)
          cases this
      unfold State.exec
      dsimp only
      rw [if_neg (by simpa using p1)]
      refine ho.next hf rfl rfl rfl (.quiet p1 p2 (fun f hf' => ?_) (.inl hh)) ho.count ho.crash
      rcases List.mem_cons.1 hf' with rfl | hf'
      · exact .inr ⟨n, .inr rfl⟩
      · exact hrest f hf'
    · injection hE with e1 e2
      injection e2 with e2 e3
      subst e1; subst e2; subst e3
      have hh : s.handler = true := by
        rcases p4 with p4 | p4
        · exact p4
        · have := p4.2 _ (by rw [hf]; exact List.mem_cons_self)
          cases this
      have hn : n ∈ signals := ho.sigs _ (by rw [hf]; exact List.mem_cons_self) n rfl
      have hn0 : n ≠ 0 := by
        intro e; subst e; revert hn; decide
      exact ho.next hf rfl rfl rfl (.busy [] _ fs rfl hn0 (fun f hf' => (by cases hf')) hrest (.calling n p2 hh)) ho.count ho.crash
  · -- something was caught
    cases top with
    | cons t top =>
      rw [hf] at p1
      have p1 : _ = t :: (top ++ c :: below) := p1
      injection p1 with e1 e2
      obtain ⟨n, ht | ht⟩ := p3 t List.mem_cons_self
      · rw [ht] at e1
        injection e1 with e1 e3
        injection e3 with e3 e4
        subst e1; subst e3; subst e4
        unfold State.exec
        dsimp only
        rw [if_pos p2]
        refine ho.next hf rfl rfl rfl (.busy (⟨some n, []⟩ :: top) c below (by rw [e2]; rfl) p2 (fun f hf' => ?_) p4 ?_)
          ho.count ho.crash
        · rcases List.mem_cons.1 hf' with rfl | hf'
          · exact ⟨n, .inr rfl⟩
          · exact p3 f (List.mem_cons_of_mem _ hf')
        · cases p5 with
          | calling m q1 q2 => exact .calling m q1 q2
          | resetting m j q1 q2 q3 => exact .resetting m j q1 q2 q3
          | finished m q1 q2 q3 => exact .finished m q1 q2 q3
      · rw [ht] at e1
        injection e1 with e1 e3
        cases e3
    | nil =>
      rw [hf] at p1
      have p1 : _ = c :: below := p1
      injection p1 with e1 e2
      subst e2
      have hnone : ∀ f ∈ ([] : List Frame), ∃ n, f = ⟨some n, catchCode n⟩ ∨ f = ⟨some n, []⟩ := fun f hf' => (by cases hf')
      cases p5 with
      | calling n q1 q2 =>
        injection e1 with e1 e2
        injection e2 with e2 e3
        subst e1; subst e2; subst e3
        have hc : calls (s.log ++ [.callback n]) = 1 := by rw [calls_append, q1]; rfl
        unfold State.exec
        dsimp only
        rw [if_pos q2]
        refine ho.next hf rfl rfl rfl (.busy [] _ fs rfl p2 hnone p4 (.resetting n 0 hc (by omega) (by omega)))
          (Nat.le_of_eq hc) ?_
        intro h'
        rcases List.mem_append.1 h' with h' | h'
        · exact ho.crash h'
        · have := List.mem_singleton.1 h'
          cases this
      | finished n q1 q2 q3 => cases e1
      | resetting n j q1 q2 q3 =>
        injection e1 with e1 e2
        subst e1
        have key : ∀ (s' : State) (k : Nat), s'.frames = ⟨some n, resetCode.drop k ++ [.raise n]⟩ :: fs → s'.caught = s.caught →
            s'.log = s.log → s'.pending = s.pending → k ≤ 8 → (7 ≤ k → s'.set = false) → Once s' := by
          intro s' k e1 e2 e3 e4 e5 e6
          exact ho.next hf e1 rfl e4 (.busy [] _ fs e1 (by rw [e2]; exact p2) hnone p4 (.resetting n k (by rw [e3]; exact q1) e5 e6))
            (by rw [e3]; exact ho.count) (by rw [e3]; exact ho.crash)
        have hj : j = 0 ∨ j = 1 ∨ j = 2 ∨ j = 3 ∨ j = 4 ∨ j = 5 ∨ j = 6 ∨ j = 7 ∨ j = 8 := by omega
        rcases hj with rfl | rfl | rfl | rfl | rfl | rfl | rfl | rfl | rfl
        · injection e2 with e2 e3
          subst e2; subst e3
          unfold State.exec
          dsimp only
          split
          · exact key _ 1 rfl rfl rfl rfl (by omega) (by omega)
          · rename_i hset
            exact key _ 8 rfl rfl rfl rfl (by omega) (fun _ => by simpa using hset)
        · injection e2 with e2 e3
          subst e2; subst e3
          exact key _ 2 rfl rfl rfl rfl (by omega) (by omega)
        · injection e2 with e2 e3
          subst e2; subst e3
          exact key _ 3 rfl rfl rfl rfl (by omega) (by omega)
        · injection e2 with e2 e3
          subst e2; subst e3
          exact key _ 4 rfl rfl rfl rfl (by omega) (by omega)
        · injection e2 with e2 e3
          subst e2; subst e3
          exact key _ 5 rfl rfl rfl rfl (by omega) (by omega)
        · injection e2 with e2 e3
          subst e2; subst e3
          exact key _ 6 rfl rfl rfl rfl (by omega) (by omega)
        · injection e2 with e2 e3
          subst e2; subst e3
          exact key _ 7 rfl rfl rfl rfl (by omega) (fun _ => rfl)
        · injection e2 with e2 e3
          subst e2; subst e3
          exact key _ 8 rfl rfl rfl rfl (by omega) (fun _ => q3 (by omega))
        · injection e2 with e2 e3
          subst e2; subst e3
          have hn : n ∈ signals := ho.sigs _ (by rw [hf]; exact List.mem_cons_self) n rfl
          show Once (State.arrive { s with frames := ⟨some n, []⟩ :: fs } n)
          unfold State.arrive
          have hb : State.blocked { s with frames := ⟨some n, []⟩ :: fs } n = true := by
            unfold State.blocked
            simp
          rw [if_pos hb]
          refine ⟨.busy [] ⟨some n, []⟩ fs rfl p2 hnone p4 (.finished n q1 (q3 (by omega)) List.mem_cons_self), ho.count, ho.crash,
            ?_, fun g hg m hm => ?_, fun m hm => ?_, fun pre g post hpre hg => ?_⟩
          · have := ho.nodup
            rw [hf] at this
            exact this
          · rcases List.mem_cons.1 hg with rfl | hg
            · cases hm; exact hn
            · exact ho.sigs g (by rw [hf]; exact List.mem_cons_of_mem _ hg) m hm
          · rcases List.mem_cons.1 hm with rfl | hm
            · exact hn
            · exact ho.pending m hm
          · cases pre with
            | nil =>
              have hpre : _ = g :: post := hpre
              injection hpre with e1 e2
              subst e1
              cases hg
            | cons k pre =>
              have hpre : _ = k :: (pre ++ g :: post) := hpre
              injection hpre with e1 e2
              exact ho.last (_ :: pre) g post (by rw [hf, e2]; rfl) hg
  · exact absurd q1 (hdue m)

theorem Once.step {inh : Nat → Action} (hdef : ∀ n ∈ signals, inh n = .default) {s t : State} (h : Inv inh s) (ho : Once s)
    (hs : Step s t) : Once t := by
  cases hs with
  | arrives hn _ => exact ho.arrive hdef h hn
  | @waiting n hend hdue =>
    have hn := ho.pending n hdue.1
    by_cases hset : s.set = false
    · have ha : s.action n = .default := by rw [h.unset hset n, hdef n hn]
      unfold State.deliver
      dsimp only
      rw [ha]
      refine ⟨.ended rfl, ?_, ?_, ho.nodup, ho.sigs, fun m hm => ho.pending m (List.mem_filter.1 hm).1, ho.last⟩
      · show calls (s.log ++ [_]) ≤ 1
        rw [calls_append]
        exact ho.count
      · intro h'
        rcases List.mem_append.1 h' with h' | h'
        · exact ho.crash h'
        · have := List.mem_singleton.1 h'
          cases this
    · have ho' : Once { s with pending := s.pending.filter (· ≠ n) } := by
        refine ⟨?_, ho.count, ho.crash, ho.nodup, ho.sigs, fun m hm => ho.pending m (List.mem_filter.1 hm).1, ho.last⟩
        rcases ho.phase with h' | ⟨p1, p2, p3, p4⟩ | ⟨top, c, below, p1, p2, p3, p4, p5⟩ | ⟨m, q1, q2⟩
        · exact .ended h'
        · exact .quiet p1 p2 p3 p4
        · refine .busy top c below p1 p2 p3 p4 ?_
          cases p5 with
          | calling m q1 q2 => exact .calling m q1 q2
          | resetting m j q1 q2 q3 => exact .resetting m j q1 q2 q3
          | finished m q1 q2 q3 => exact absurd q2 hset
        · exact absurd q2 hset
      exact ho'.deliver hdef (h.congr _) hn hdue.2
  | exec hend hdue hf => exact ho.exec hdef h hend hdue hf
  | @«return» f fs hend hdue hf hc =>
    have hnd := ho.nodup
    rw [hf] at hnd
    refine ⟨?_, ho.count, ho.crash, ?_, fun g hg => ho.sigs g (by rw [hf]; exact List.mem_cons_of_mem _ hg), ho.pending,
      fun pre g post hpre hg => ho.last (f :: pre) g post (by rw [hf]; exact congrArg (f :: ·) hpre) hg⟩
    · rcases ho.phase with h' | ⟨p1, p2, p3, p4⟩ | ⟨top, c, below, p1, p2, p3, p4, p5⟩ | ⟨m, q1, q2⟩
      · exact .ended h'
      · refine .quiet p1 p2 (fun g hg => p3 g (by rw [hf]; exact List.mem_cons_of_mem _ hg)) (p4.imp id fun p4 => ⟨p4.1, fun g hg =>
          p4.2 g (by rw [hf]; exact List.mem_cons_of_mem _ hg)⟩)
      · cases top with
        | cons t top =>
          rw [hf] at p1
          have p1 : _ = t :: (top ++ c :: below) := p1
          injection p1 with e1 e2
          refine .busy top c below e2 p2 (fun g hg => p3 g (List.mem_cons_of_mem _ hg)) p4 ?_
          cases p5 with
          | calling m q1 q2 => exact .calling m q1 q2
          | resetting m j q1 q2 q3 => exact .resetting m j q1 q2 q3
          | finished m q1 q2 q3 => exact .finished m q1 q2 q3
        | nil =>
          rw [hf] at p1
          have p1 : _ = c :: below := p1
          injection p1 with e1 e2
          subst e1; subst e2
          cases p5 with
          | calling m q1 q2 => cases hc
          | resetting m j q1 q2 q3 =>
            have hc : resetCode.drop j ++ [Instr.raise m] = [] := hc
            simp at hc
          | finished m q1 q2 q3 =>
            refine .over m ⟨q3, ?_⟩ q2
            have hnd : (m :: fs.filterMap Frame.sig).Nodup := hnd
            have := (List.nodup_cons.1 hnd).1
            rw [← blocked_iff (s := { s with frames := fs })] at this
            simpa using this
      · exact absurd q1 (hdue m)
    · cases hsig : f.sig with
      | none => rw [List.filterMap_cons, hsig] at hnd; exact hnd
      | some n => rw [List.filterMap_cons, hsig] at hnd; exact (List.nodup_cons.1 hnd).2

theorem Once.steps {inh : Nat → Action} (hdef : ∀ n ∈ signals, inh n = .default) {t : State}
    (hs : Steps (installed inh) t) : Once t := by
  generalize hst : installed inh = s at hs
  induction hs with
  | refl => subst hst; exact .start inh
  | tail h1 h2 ih => subst hst; exact ih.step hdef ((Inv.start inh).steps h1) h2

end Verif.Proofs.Handle
