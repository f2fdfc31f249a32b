import Verif.Proofs.ParseHeader

/-!
# Line numbers, ranges, blocks and embedded options of the parser
-/

namespace Verif.Model.Parse

open Verif.Spec.Dimacs

variable {m : Mode} {e : Bool}

/-- The messages returned by `NONL`. -/
def located : List String :=
  ["unexpected empty line", "expected space after 'p'", "expected 'c' after 'p '",
   "expected 'n' after 'p c'", "expected 'n' after 'p cn'", "expected space after 'p cnf'",
   "expected digit after 'p cnf '", "unexpected new-line after maximum variable",
   "unexpected new-line after '-'", "maximum variable index exceeded (try '--relaxed' parsing)"]

/-- What a step does to the line number. -/
def LineOk (s : State) (ch : Option Nat) : Outcome → Prop
  | .more s' => s'.lineno = s.lineno
  | .done (.ok _ ln _) => ln = s.lineno ∧ ch = none
  | .done (.error msg ln _) =>
    (msg ∉ located ∧ ln = 1) ∨
    (msg ∈ located ∧ ln = if ch = some 10 then s.lineno - 1 else s.lineno)

theorem lineOk_fail {s : State} {ch : Option Nat} {msg : String} (h : msg ∉ located) :
    LineOk s ch (fail s msg) := Or.inl ⟨h, rfl⟩

theorem lineOk_nonl {s : State} {ch : Option Nat} {msg : String} (h : msg ∈ located) :
    LineOk s ch (nonl s ch msg) := Or.inr ⟨h, rfl⟩

theorem lineOk_goto {s : State} {ch : Option Nat} {k : Pc} : LineOk s ch (goto s k) := rfl

theorem lineOk_complete {s : State} {ch : Option Nat} : LineOk s ch (complete s ch) := by
  unfold complete
  repeat' split
  · exact lineOk_fail (by decide)
  · exact lineOk_goto
  · exact lineOk_goto

theorem lineOk_firstArg {s : State} {ch : Option Nat} {n : List Nat} {i : Int} :
    LineOk s ch (firstArg s n i ch) := by
  unfold firstArg
  split
  · exact lineOk_goto
  · exact lineOk_complete

theorem lineOk_setOption {s : State} {ch : Option Nat} {n : List Nat} {i : Int} :
    LineOk s ch (setOption s n i) := rfl

theorem lineOk_afterArg {s : State} {ch : Option Nat} {n : List Nat} {i : Int} :
    LineOk s ch (afterArg s n i ch) := by
  unfold afterArg
  repeat' split
  · exact lineOk_goto
  · exact lineOk_complete
  · exact lineOk_setOption

theorem lineOk_expectC {s : State} {ch : Option Nat} : LineOk s ch (expectC s ch) := by
  unfold expectC
  split
  · exact lineOk_nonl (by decide)
  · exact lineOk_goto

theorem lineOk_firstVariable {s : State} {ch : Option Nat} :
    LineOk s ch (firstVariable s ch) := by
  unfold firstVariable
  split
  · exact lineOk_goto
  · exact lineOk_nonl (by decide)

theorem lineOk_firstClause {s : State} {ch : Option Nat} {n : Nat} :
    LineOk s ch (firstClause s n ch) := by
  unfold firstClause
  split
  · exact lineOk_goto
  · exact lineOk_fail (by decide)

theorem lineOk_endHeader {s : State} {ch : Option Nat} {n q : Nat} :
    LineOk s ch (endHeader s n q ch) := by
  unfold endHeader
  repeat' split
  · exact lineOk_fail (by decide)
  · exact lineOk_fail (by decide)
  · rfl

theorem lineOk_afterClauses {s : State} {ch : Option Nat} {n q : Nat} :
    LineOk s ch (afterClauses s n q ch) := by
  unfold afterClauses
  split
  · exact lineOk_goto
  · exact lineOk_endHeader

theorem lineOk_finish {s : State} : LineOk s none (finish m s) := by
  unfold finish
  repeat' split
  · exact lineOk_fail (by decide)
  · exact lineOk_fail (by decide)
  · exact lineOk_fail (by decide)
  · exact ⟨rfl, rfl⟩

theorem lineOk_addLit {s : State} {ch : Option Nat} {i : Int} {n : Nat} :
    LineOk s ch (addLit m s i n ch) := by
  unfold addLit
  repeat' split
  · exact lineOk_nonl (by decide)
  · rfl
  · exact lineOk_fail (by decide)
  · rfl

theorem after_line (s : State) (ch : Option Nat) : LineOk s ch (after m e s ch) := by
  unfold after
  repeat' split
  all_goals try dsimp only
  all_goals repeat' split
  all_goals first
    | exact lineOk_goto
    | exact lineOk_complete
    | exact lineOk_firstArg
    | exact lineOk_setOption
    | exact lineOk_afterArg
    | exact lineOk_expectC
    | exact lineOk_firstVariable
    | exact lineOk_firstClause
    | exact lineOk_endHeader
    | exact lineOk_afterClauses
    | exact lineOk_addLit
    | exact lineOk_fail (by decide)
    | exact lineOk_nonl (by decide)
    | (subst_vars; exact lineOk_finish)

/-! ## The characters consumed -/

theorem Reader.init_pending (w : List Nat) (chunks : Nat → Nat) :
    (Reader.init w chunks).pending = w := rfl

/-- How a run of the parser ends. -/
theorem drive_last (n : Nat) (r : Reader) (s : State) (h : r.pos ≤ r.chars.length)
    {res : Result} {r' : Reader} (hd : drive m e n r s = some (res, r')) :
    ∃ u ch, r.pending = u ++ ch.toList ++ r'.pending ∧ (ch = none → r'.pending = []) ∧
      r'.bytes + r'.file.length = r.bytes + r.file.length ∧
      ∃ s' : State, s'.lineno = s.lineno + u.count 10 ∧ step m e s' ch = .done res := by
  induction n generalizing r s with
  | zero => cases hd
  | succ n ih =>
    obtain ⟨h1, h2, h3, h4, -⟩ := r.next_spec h
    rw [drive] at hd
    generalize r.next = q at h1 h2 h3 h4 hd
    obtain ⟨ch, r1⟩ := q
    simp only at h1 h2 h3 h4 hd
    cases hs : step m e s ch with
    | done res' =>
      rw [hs] at hd
      simp only [Option.some.injEq, Prod.mk.injEq] at hd
      obtain ⟨rfl, rfl⟩ := hd
      refine ⟨[], ch, ?_, ?_, h4, s, by simp, hs⟩
      · rw [h1, h2]
        cases r.pending <;> rfl
      · rintro rfl
        rw [h2]
        cases hp : r.pending with
        | nil => rfl
        | cons x w => rw [hp] at h1; cases h1
    | more s1 =>
      rw [hs] at hd
      simp only at hd
      obtain ⟨u, ch', g1, g2, g3, s', g4, g5⟩ := ih r1 s1 h3 hd
      have hl : s1.lineno = s.lineno + (ch.toList).count 10 := by
        have := after_line (m := m) (e := e) (bump s ch) ch
        rw [← step_eq, hs] at this
        rw [show s1.lineno = (bump s ch).lineno from this]
        unfold bump
        cases ch with
        | none => simp
        | some x =>
          simp only [Option.some.injEq, Option.toList_some, List.count_singleton, beq_iff_eq]
          split <;> rfl
      refine ⟨ch.toList ++ u, ch', ?_, g2, by omega, s', ?_, g5⟩
      · rw [List.append_assoc, List.append_assoc, ← List.append_assoc u, ← g1, h1, h2]
        cases r.pending <;> rfl
      · rw [g4, hl, List.count_append]; omega

theorem parseBlocks_last {w : List Nat} {chunks : Nat → Nat} {res : Result} {r : Reader}
    (h : parseBlocks m e w chunks = some (res, r)) :
    ∃ u ch, w = u ++ ch.toList ++ r.pending ∧ (ch = none → r.pending = []) ∧
      r.bytes + r.file.length = w.length ∧
      ∃ s' : State, s'.lineno = 1 + u.count 10 ∧ step m e s' ch = .done res := by
  obtain ⟨u, ch, h1, h2, h3, s', h4, h5⟩ := drive_last _ (Reader.init w chunks) State.init
    (Nat.le_refl _) h
  refine ⟨u, ch, h1, h2, ?_, s', h4, h5⟩
  rw [h3]
  show 0 + w.length = w.length
  omega

/-! ## The sequence of characters -/

/-- The results of `n` calls of `next`. -/
def reads : Nat → Reader → List (Option Nat)
  | 0, _ => []
  | n + 1, r => r.next.1 :: reads n r.next.2

theorem reads_spec (n : Nat) (r : Reader) (h : r.pos ≤ r.chars.length) :
    reads n r = (r.pending.take n).map some ++ List.replicate (n - r.pending.length) none := by
  induction n generalizing r with
  | zero => simp [reads]
  | succ n ih =>
    obtain ⟨h1, h2, h3, h4, -⟩ := r.next_spec h
    rw [reads, ih _ h3, h1, h2]
    cases hp : r.pending with
    | nil => simp [List.replicate_succ]
    | cons x w => simp

/-! ## Numbers stay in range -/

/-- The numbers held at a location fit the types used. -/
def InRange : Pc → Prop
  | .arg _ _ n => n ≤ 2 ^ 31 - 1
  | .variables n => n ≤ maxVar
  | .variablesCr n => n ≤ maxVar
  | .varSpace n => n ≤ maxVar
  | .varSpaces n => n ≤ maxVar
  | .clauses n c => n ≤ maxVar ∧ c < 2 ^ 64
  | .clauseSpaces n c => n ≤ maxVar ∧ c < 2 ^ 64
  | .clausesCr n c => n ≤ maxVar ∧ c < 2 ^ 64
  | .idx _ n => n ≤ maxVar
  | .idxCr _ n => n ≤ maxVar
  | .idxComment _ n => n ≤ maxVar
  | _ => True

/-- What is read, and the counters of the header, are in range. -/
def Bounded (s : State) : Prop := InRange s.pc ∧ s.maxVar ≤ maxVar ∧ s.clauses < 2 ^ 64

def BoundedOut : Outcome → Prop
  | .more s => Bounded s
  | .done _ => True

theorem digit_le {ch : Option Nat} (h : isDigit ch = true) : ch.getD 0 - 48 ≤ 9 := by
  cases ch with
  | none => cases h
  | some x =>
    have := (isDigit_iff x).mp h
    unfold IsDigit at this
    simp only [Option.getD_some]; omega

theorem bounded_goto {s : State} {k : Pc} (h : Bounded s) (hk : InRange k) : BoundedOut (goto s k) :=
  ⟨hk, h.2⟩

theorem bounded_done {r : Result} : BoundedOut (.done r) := trivial

theorem bounded_fail {s : State} {msg : String} : BoundedOut (fail s msg) := trivial
theorem bounded_nonl {s : State} {ch : Option Nat} {msg : String} : BoundedOut (nonl s ch msg) := trivial

theorem bounded_complete {s : State} {ch : Option Nat} (h : Bounded s) : BoundedOut (complete s ch) := by
  unfold complete
  repeat' split
  · trivial
  · exact bounded_goto h trivial
  · exact bounded_goto h trivial

theorem bounded_firstArg {s : State} {ch : Option Nat} {n : List Nat} {i : Int} (h : Bounded s) :
    BoundedOut (firstArg s n i ch) := by
  unfold firstArg
  split
  · rename_i hd
    have := digit_le hd
    exact bounded_goto h (show _ ≤ _ by omega)
  · exact bounded_complete h

theorem bounded_setOption {s : State} {n : List Nat} {i : Int} (h : Bounded s) :
    BoundedOut (setOption s n i) := ⟨trivial, h.2⟩

theorem bounded_afterArg {s : State} {ch : Option Nat} {n : List Nat} {i : Int} (h : Bounded s) :
    BoundedOut (afterArg s n i ch) := by
  unfold afterArg
  repeat' split
  · exact bounded_goto h trivial
  · exact bounded_complete h
  · exact bounded_setOption h

theorem bounded_expectC {s : State} {ch : Option Nat} (h : Bounded s) : BoundedOut (expectC s ch) := by
  unfold expectC
  split
  · trivial
  · exact bounded_goto h trivial

theorem bounded_firstVariable {s : State} {ch : Option Nat} (h : Bounded s) :
    BoundedOut (firstVariable s ch) := by
  unfold firstVariable
  split
  · rename_i hd
    have := digit_le hd
    exact bounded_goto h (show _ ≤ maxVar by unfold maxVar; omega)
  · trivial

theorem bounded_firstClause {s : State} {ch : Option Nat} {n : Nat} (h : Bounded s)
    (hn : n ≤ maxVar) : BoundedOut (firstClause s n ch) := by
  unfold firstClause
  split
  · rename_i hd
    have := digit_le hd
    exact bounded_goto h ⟨hn, by omega⟩
  · trivial

theorem bounded_endHeader {s : State} {ch : Option Nat} {n q : Nat}
    (hn : n ≤ maxVar) (hq : q < 2 ^ 64) : BoundedOut (endHeader s n q ch) := by
  unfold endHeader
  repeat' split
  · trivial
  · trivial
  · exact ⟨trivial, hn, hq⟩

theorem bounded_afterClauses {s : State} {ch : Option Nat} {n q : Nat} (h : Bounded s)
    (hn : n ≤ maxVar) (hq : q < 2 ^ 64) : BoundedOut (afterClauses s n q ch) := by
  unfold afterClauses
  split
  · exact bounded_goto h ⟨hn, hq⟩
  · exact bounded_endHeader hn hq

theorem bounded_finish {s : State} : BoundedOut (finish m s) := by
  obtain ⟨r, hr⟩ := finish_done (m := m) s
  rw [hr]; trivial

theorem bounded_addLit {s : State} {ch : Option Nat} {i : Int} {n : Nat} (h : Bounded s) :
    BoundedOut (addLit m s i n ch) := by
  unfold addLit
  repeat' split
  · trivial
  · exact ⟨trivial, h.2⟩
  · trivial
  · exact ⟨trivial, h.2⟩

theorem after_bounded (s : State) (ch : Option Nat) (h : Bounded s) :
    BoundedOut (after m e s ch) := by
  have h' := h.1
  unfold after
  have num : ∀ {max n : Nat}, 9 ≤ max → isDigit ch = true → ¬ max / 10 < n →
      ¬ max - (ch.getD 0 - 48) < n * 10 → n * 10 + (ch.getD 0 - 48) ≤ max := by
    intro max n hm hd h1 h2
    have := digit_le hd
    omega
  split <;> (rename_i heq; rw [heq] at h'; try simp only [InRange] at h')
  all_goals repeat' split
  all_goals try dsimp only
  all_goals repeat' split
  all_goals first
    | exact bounded_fail
    | exact bounded_nonl
    | exact bounded_finish
    | exact bounded_goto h trivial
    | exact bounded_goto h h'
    | exact bounded_goto h h'.1
    | exact bounded_complete h
    | exact bounded_firstArg h
    | exact bounded_setOption h
    | exact bounded_afterArg h
    | exact bounded_expectC h
    | exact bounded_firstVariable h
    | exact bounded_firstClause h h'
    | exact bounded_endHeader h'.1 h'.2
    | exact bounded_afterClauses h h'.1 h'.2
    | exact bounded_addLit h
    | (apply bounded_goto h
       have hd := digit_le (ch := ch) (by
         first | assumption | (apply Decidable.not_not.mp; assumption))
       simp only [InRange, maxVar] at *
       omega)

theorem feed_bounded {s s' : State} {w : List Nat} (h : Bounded s)
    (hf : feed m e s w = .more s') : Bounded s' := by
  induction w generalizing s with
  | nil => simp only [feed, Outcome.more.injEq] at hf; rw [← hf]; exact h
  | cons x w ih =>
    rw [feed] at hf
    have hb : BoundedOut (step m e s (some x)) := after_bounded _ _ h
    cases hs : step m e s (some x) with
    | done r => rw [hs] at hf; cases hf
    | more s1 =>
      rw [hs] at hf hb
      exact ih hb hf

/-! ## Embedded options -/

/-- Locations in the code for embedded options. -/
def OptionPc : Pc → Prop
  | .dash | .name _ | .nameCr | .sign _ | .minusArg _ | .arg .. | .argSpace .. | .argCr .. => True
  | _ => False

/-- Locations before the header. -/
def PrologPc : Pc → Prop
  | .start _ | .startCr | .comment | .commentCr | .rest | .restCr => True
  | k => OptionPc k

/-- The character `c`, blanks and a dash. -/
def OptionStart (w : List Nat) : Prop :=
  ∃ u sp v, w = u ++ 99 :: sp ++ 45 :: v ∧ ∀ x ∈ sp, x = 32 ∨ x = 9

/-- Blanks and a dash. -/
def DashNext (w : List Nat) : Prop := ∃ sp v, w = sp ++ 45 :: v ∧ ∀ x ∈ sp, x = 32 ∨ x = 9

theorem after_embedded {s : State} {ch : Option Nat} (h : ¬ OptionPc s.pc)
    (hc : s.pc = .comment → ch ≠ some 45) : after m true s ch = after m false s ch := by
  by_cases hp : s.pc = .comment
  · have := hc hp
    unfold after
    rw [hp]
    simp [this]
  · unfold after
    split <;> first | rfl | (rename_i heq; exact absurd heq hp)

/-- What a step of the code without embedded options does to the location. -/
def NextPc (s : State) (ch : Option Nat) : Outcome → Prop
  | .more s' => ¬ OptionPc s'.pc ∧
      (s'.pc = .comment → ch = some 99 ∨ (s.pc = .comment ∧ isSpace ch = true))
  | .done _ => True

theorem nextPc_goto {s : State} {ch : Option Nat} {k : Pc} (h : ¬ OptionPc k) (h' : k ≠ .comment) :
    NextPc s ch (goto s k) := ⟨h, fun e => absurd e h'⟩

theorem nextPc_done {s : State} {ch : Option Nat} {r : Result} : NextPc s ch (.done r) := trivial

theorem nextPc_complete {s : State} {ch : Option Nat} : NextPc s ch (complete s ch) := by
  unfold complete
  repeat' split
  · trivial
  · exact nextPc_goto (by simp [OptionPc]) (by simp)
  · exact nextPc_goto (by simp [OptionPc]) (by simp)

theorem after_nextPc {s : State} {ch : Option Nat} (h : ¬ OptionPc s.pc) :
    NextPc s ch (after m false s ch) := by
  unfold after
  split <;> rename_i heq <;> rw [heq] at h <;> (try exact absurd trivial h)
  all_goals try unfold expectC
  all_goals try unfold firstVariable
  all_goals try unfold firstClause
  all_goals try unfold afterClauses
  all_goals try unfold endHeader
  all_goals try unfold addLit
  all_goals repeat' split
  all_goals try dsimp only
  all_goals repeat' split
  all_goals first
    | (refine nextPc_goto ?_ ?_ <;> (simp [OptionPc]; done))
    | exact nextPc_done
    | exact nextPc_complete
    | (obtain ⟨r, hr⟩ := finish_done (m := m) s; rw [hr]; exact nextPc_done)
    | (refine ⟨?_, fun _ => Or.inl ?_⟩
       · simp [OptionPc]
       · assumption)
    | (refine ⟨?_, fun _ => Or.inr ⟨?_, ?_⟩⟩
       · simp [OptionPc]
       · assumption
       · assumption)
    | (rename_i hf; cases hf.1)

theorem run_embedded {w : List Nat} (hw : ¬ OptionStart w) (s : State) (h : ¬ OptionPc s.pc)
    (hc : s.pc = .comment → ¬ DashNext w) : run m true s w = run m false s w := by
  induction w generalizing s with
  | nil =>
    have hstep : ∀ s : State, ¬ OptionPc s.pc → step m true s none = step m false s none := by
      intro s h
      exact after_embedded (s := bump s none) h (by simp)
    rw [run_nil, run_nil, atEof, atEof, hstep s h]
    have hn := after_nextPc (m := m) (s := bump s none) (ch := none) h
    rw [← step_eq] at hn
    cases hs : step m false s none with
    | done r => rfl
    | more s1 =>
      rw [hs] at hn
      simp only
      rw [hstep s1 hn.1]
  | cons x w ih =>
    rw [run_cons, run_cons]
    have hstep : step m true s (some x) = step m false s (some x) := by
      refine after_embedded (s := bump s (some x)) h ?_
      rintro hp hx
      cases hx
      exact hc hp ⟨[], w, rfl, by simp⟩
    rw [hstep]
    have hn := after_nextPc (m := m) (s := bump s (some x)) (ch := some x) h
    rw [← step_eq] at hn
    cases hs : step m false s (some x) with
    | done r => rfl
    | more s1 =>
      rw [hs] at hn
      rw [cont_more, cont_more]
      refine ih ?_ s1 hn.1 ?_
      · rintro ⟨u, sp, v, rfl, hsp⟩
        exact hw ⟨x :: u, sp, v, rfl, hsp⟩
      · rintro hp ⟨sp, v, rfl, hsp⟩
        rcases hn.2 hp with h1 | ⟨h1, h2⟩
        · cases h1
          exact hw ⟨[], sp, v, rfl, hsp⟩
        · refine hc h1 ⟨x :: sp, v, rfl, ?_⟩
          intro y hy
          rcases List.mem_cons.mp hy with h | h
          · rw [h]; exact (isSpace_iff x).mp h2
          · exact hsp y h

/-! ## Accepted files with embedded options -/

/-- An outcome before the header: an error, the start of the header, or a location before the
header; only options are added to the events. -/
def PrologOut (s : State) (ch : Option Nat) : Outcome → Prop
  | .done r => ∀ v ln ev, r ≠ .ok v ln ev
  | .more s' => (PrologPc s'.pc ∨ (s'.pc = .p ∧ ch = some 112)) ∧
      ∃ os : List (List Nat × Int), s'.events = s.events ++ os.map fun o => .option o.1 o.2

theorem prologOut_goto {s : State} {ch : Option Nat} {k : Pc} (h : PrologPc k) :
    PrologOut s ch (goto s k) := ⟨Or.inl h, [], by simp⟩

theorem prologOut_fail {s : State} {ch : Option Nat} {msg : String} :
    PrologOut s ch (fail s msg) := by intro v ln ev h; cases h

theorem prologOut_nonl {s : State} {ch : Option Nat} {msg : String} :
    PrologOut s ch (nonl s ch msg) := by intro v ln ev h; cases h

theorem prologOut_complete {s : State} {ch : Option Nat} : PrologOut s ch (complete s ch) := by
  unfold complete
  repeat' split
  · exact prologOut_fail
  · exact prologOut_goto trivial
  · exact prologOut_goto trivial

theorem prologOut_setOption {s : State} {ch : Option Nat} {n : List Nat} {i : Int} :
    PrologOut s ch (setOption s n i) := ⟨Or.inl trivial, [(n, i)], rfl⟩

theorem after_prolog {s : State} {ch : Option Nat} (h : PrologPc s.pc) :
    PrologOut s ch (after m e s ch) := by
  unfold after
  split <;> rename_i heq <;> rw [heq] at h <;> (try (exfalso; simp [PrologPc, OptionPc] at h; done))
  all_goals try unfold firstArg
  all_goals try unfold afterArg
  all_goals repeat' split
  all_goals try dsimp only
  all_goals repeat' split
  all_goals first
    | exact prologOut_goto trivial
    | exact prologOut_fail
    | exact prologOut_nonl
    | exact prologOut_complete
    | exact prologOut_setOption
    | exact ⟨Or.inr ⟨rfl, by assumption⟩, [], by simp⟩

theorem prolog_any {w : List Nat} {s : State} (hp : PrologPc s.pc) {v' : Nat} {ev' : List Event}
    (h : Ok m e s w v' ev') :
    ∃ a w' s' os, w = a ++ 112 :: w' ∧ s'.pc = .p ∧ Ok m e s' w' v' ev' ∧
      s'.events = s.events ++ List.map (fun o : List Nat × Int => Event.option o.1 o.2) os := by
  induction w generalizing s with
  | nil =>
    exfalso
    obtain ⟨j, h⟩ := h
    rw [run_nil, atEof] at h
    have h1 := after_prolog (m := m) (e := e) (s := bump s none) (ch := none) hp
    rw [← step_eq] at h1
    cases hs : step m e s none with
    | done r =>
      rw [hs] at h h1
      simp only [Option.some.injEq] at h
      exact h1 _ _ _ h
    | more s1 =>
      rw [hs] at h h1
      rcases h1.1 with h1 | h1
      · simp only at h
        have h2 := after_prolog (m := m) (e := e) (s := bump s1 none) (ch := none) h1
        rw [← step_eq] at h2
        cases hs2 : step m e s1 none with
        | done r =>
          rw [hs2] at h h2
          simp only [Option.some.injEq] at h
          exact h2 _ _ _ h
        | more s2 => rw [hs2] at h; cases h
      · cases h1.2
  | cons x w ih =>
    obtain ⟨j, h⟩ := h
    rw [run_cons] at h
    have h1 := after_prolog (m := m) (e := e) (s := bump s (some x)) (ch := some x) hp
    rw [← step_eq] at h1
    cases hs : step m e s (some x) with
    | done r =>
      exfalso
      rw [hs] at h h1
      simp only [cont_done, Option.some.injEq] at h
      exact h1 _ _ _ h
    | more s1 =>
      rw [hs] at h h1
      rw [cont_more] at h
      obtain ⟨h1, os, h2⟩ := h1
      rcases h1 with h1 | ⟨h1, h3⟩
      · obtain ⟨a, w', s', os', rfl, g1, g2, g3⟩ := ih h1 ⟨j, h⟩
        refine ⟨x :: a, w', s', os ++ os', rfl, g1, g2, ?_⟩
        rw [g3, h2, List.map_append, List.append_assoc]; rfl
      · cases h3
        exact ⟨[], w, s1, os, rfl, h1, ⟨j, h⟩, h2⟩

/-- In every build an accepted file consists of lines before the header, a header and a
body, and after setting options the parser reserves the variables of the header and adds
the integers of the body. -/
theorem parse_any {w : List Nat} {n ln : Nat} {ev : List Event}
    (h : parse m e w = some (.ok n ln ev)) :
    ∃ a hd b q ls, ∃ os : List (List Nat × Int), w = a ++ hd ++ b ∧ Header m hd n q ∧ Body m b ls ∧
      Terminated ls ∧ Agrees m n q ls ∧
      ev = os.map (fun o => .option o.1 o.2) ++ .reserve n :: ls.map .add := by
  obtain ⟨a, w', ⟨k, l1, v, c, p, l, ev1⟩, os, rfl, rfl, h2, h3⟩ :=
    prolog_any (s := State.init) (e := e) trivial (show Ok m e State.init w n ev from ⟨ln, h⟩)
  obtain ⟨hd, b, v, q, e1, h3, ln2, h4⟩ := header_sound h2
  obtain ⟨ls, h5, h6, h7, h8⟩ := body_sound b.length b (Nat.le_refl _) _ _ _ _ _ _ _ _
    (Or.inr (Nat.zero_le _)) h4
  subst h7
  obtain ⟨f1, f2⟩ := fits_iff.mp h6
  refine ⟨a, hd, b, q, ls, os, by rw [e1]; simp, h3, h5, f1, f2, ?_⟩
  simp only [State.init, List.nil_append] at *
  rw [h8]
  simp [*]

end Verif.Model.Parse
