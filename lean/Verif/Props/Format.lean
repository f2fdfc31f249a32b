import Verif.Proofs.Format
import Verif.Props.Options

/-!
# Numbers in messages (C66)

`Call.run`: a call of one of the functions of `format.c` (`Model/Format.lean`).
-/

namespace Verif.Props

open Verif.Model Verif.Model.Format Verif.Model.Options
open Verif.Proofs.Format
open Verif.Spec (NumberText.Denotes NumberText.Duration)
open Verif.Spec.OptionValue (Digits num Denotes)

/-- C66: every sequence of conversions of 64-bit numbers succeeds: no text is longer than
its string, and the index of strings stays in range. -/
theorem C66_no_overflow (cs : List Call) (h : ∀ c ∈ cs, c.Typed) :
    ∃ b ps, runAll Buffer.init cs = some (b, ps) ∧ b.pos < 16 := by
  have key : ∀ (cs : List Call) (b : Buffer), b.pos < 16 → (∀ c ∈ cs, c.Typed) →
      ∃ b' ps, runAll b cs = some (b', ps) ∧ b'.pos < 16 := by
    intro cs
    induction cs with
    | nil => intro b hb _; exact ⟨b, [], rfl, hb⟩
    | cons c cs ih =>
      intro b hb hc
      obtain ⟨b1, p, e, hd⟩ := run_done hb (hc c (by simp))
      obtain ⟨b2, ps, f, g⟩ := ih b1 hd.pos fun c h => hc c (by simp [h])
      exact ⟨b2, p :: ps, by unfold runAll; rw [e]; simp only []; rw [f]; rfl, g⟩
  exact key cs Buffer.init (by decide) h

/-- C66: the text given by a conversion stays the same during the next fifteen conversions, so up
to sixteen of them can be used in one message. -/
theorem C66_text_stays {b b' : Buffer} (hb : b.pos < 16) {c : Call} {p : Pointer} (hc : c.Typed)
    (h : c.run b = some (b', p)) {cs : List Call} (hl : cs.length ≤ 15) (hcs : ∀ c ∈ cs, c.Typed) :
    ∃ b'' ps, runAll b' cs = some (b'', ps) ∧ b''.read p = b'.read p := by
  obtain ⟨b1, p1, e, hd⟩ := run_done hb hc
  rw [h] at e
  cases e
  rcases hd.kept with ⟨rfl, t, rfl⟩ | ⟨k1, rfl, _⟩
  · obtain ⟨b2, ps, f, _⟩ := runAll_kept cs b' ((b'.pos + 15) % 16) 1 hd.pos (Nat.mod_lt _ (by decide))
      (by omega) (by omega) (Nat.le_refl _) hcs
    exact ⟨b2, ps, f, rfl⟩
  · exact runAll_kept cs b' b.pos 1 hd.pos hb (by omega) (by omega) (Nat.le_refl _) hcs

/-- Sixteen conversions later the string is used again. -/
example : (runAll Buffer.init ((List.range 17).map .count)).map
    (fun r => (r.1.str 0, r.1.str 1)) = some ([49, 54], [49]) := by decide +kernel

/-- C66: the text for a count denotes exactly this number. -/
theorem C66_count {b : Buffer} (hb : b.pos < 16) {w : Nat} (hw : w < 2 ^ 64) :
    ∃ b' p, formatCount b w = some (b', p) ∧ NumberText.Denotes (b'.read p) w := by
  obtain ⟨b', h1, _, h2⟩ := write_done hb (t := countText w) (by have := countText_len hw; omega)
  exact ⟨b', _, h1, by show NumberText.Denotes (b'.str b.pos) w; rw [h2]; exact countText_denotes hw⟩

/-- `2^40`, `12e4` and `1023`. -/
example : countText (2 ^ 40) = [50, 94, 52, 48] ∧ countText 120000 = [49, 50, 101, 52] ∧
    countText 1023 = [49, 48, 50, 51] := by decide +kernel

/-- C66: the text for a number of bytes starts with exactly this number.  From 1024 bytes on a
rounded number of kilo, mega or giga bytes follows. -/
theorem C66_bytes {b : Buffer} (hb : b.pos < 16) {n : Nat} (hn : n < 2 ^ 64 - 2 ^ 29) :
    ∃ b' p m rest, formatBytes b n = some (b', p) ∧
      b'.read p = m ++ [32, 98, 121, 116, 101, 115] ++ rest ∧ Digits m ∧ num m = n ∧
      (n < 2 ^ 10 ∧ rest = [] ∨
        ∃ k q u, ((k, u) = (10, 75) ∨ (k, u) = (20, 77) ∨ (k, u) = (30, 71)) ∧ 2 ^ k ≤ n ∧
          (k < 30 → n < 2 ^ (k + 10)) ∧ rest = [32, 40] ++ q ++ [32, u, 66, 41] ∧ Digits q ∧
          n ≤ num q * 2 ^ k + 2 ^ (k - 1) ∧ num q * 2 ^ k ≤ n + 2 ^ (k - 1)) := by
  have hn64 : n < 2 ^ 64 := by omega
  obtain ⟨b', h1, _, h2⟩ := write_done hb (t := bytesText n) (by have := bytesText_len hn64; omega)
  obtain ⟨c, d, _⟩ := printNat_num hn64
  obtain ⟨rest, e, h⟩ := bytesText_shape (n := n) (by omega)
  exact ⟨b', _, printNat n, rest, h1, h2.trans e, c, d, h⟩

/-- `1536 bytes (2 KB)`. -/
example : bytesText 1536 = [49, 53, 51, 54, 32, 98, 121, 116, 101, 115, 32, 40, 50, 32, 75, 66, 41] := by
  decide +kernel

/-- C66: ordinal numbers have the right ending. -/
theorem C66_ordinal {b : Buffer} (hb : b.pos < 16) {n : Nat} (hn : n < 2 ^ 64) :
    ∃ b' p m, formatOrdinal b n = some (b', p) ∧
      b'.read p = m ++ Spec.NumberText.ordinalEnding n ∧ Digits m ∧ num m = n := by
  have hs : ordinalSuffix n = Spec.NumberText.ordinalEnding n := by
    unfold ordinalSuffix Spec.NumberText.ordinalEnding
    have h0 : n % 100 % 10 = n % 10 := by omega
    simp only [h0]
    split
    · split
      · rfl
      split
      · omega
      split
      · omega
      split
      · omega
      · rfl
    · rw [if_neg (by omega)]
      split
      · rename_i h; rw [if_pos h]
      · rename_i h; rw [if_neg (by omega), if_pos h]
      · rename_i h; rw [if_neg (by omega), if_neg (by omega), if_pos h]
      · rename_i h1 h2 h3; rw [if_neg h1, if_neg h2, if_neg h3]
  have hl : (ordinalSuffix n).length = 2 := by
    rw [hs]; unfold Spec.NumberText.ordinalEnding
    repeat' split
    all_goals rfl
  obtain ⟨b', h1, _, h2⟩ := write_done hb (t := printNat n ++ ordinalSuffix n) (by
    have := printNat_len hn
    rw [List.length_append]; omega)
  obtain ⟨c, d, _⟩ := printNat_num hn
  exact ⟨b', _, printNat n, h1, by rw [← hs]; exact h2, c, d⟩

example : ordinalSuffix 111 = [116, 104] ∧ ordinalSuffix 121 = [115, 116] := by decide

/-- C66: the text for a time denotes the number of seconds rounded, if the next string is empty, as
in the only call in the program (resources.c:95-100). -/
theorem C66_time {b : Buffer} (hb : b.pos < 16) (he : b.str b.pos = []) {z : Bool} {r : Nat}
    (hr : r < 2 ^ 64) (hz : z = true → r = 0) :
    ∃ b' p, formatTime b z r = some (b', p) ∧ NumberText.Duration (b'.read p) r := by
  unfold formatTime
  cases z with
  | true =>
    rw [hz rfl]
    have := Spec.NumberText.Duration.one (w := [48]) (u := 115) (k := 1) ⟨by simp, by simp⟩ rfl (by simp)
    exact ⟨b, _, rfl, this⟩
  | false =>
    simp only [Bool.false_eq_true, if_false]
    by_cases h0 : r = 0
    · subst h0
      rw [next_spec hb]
      refine ⟨_, _, rfl, ?_⟩
      show NumberText.Duration (b.str b.pos) 0
      rw [he]; exact .zero
    · simp only [if_neg h0]
      obtain ⟨b', h1, _, h2⟩ := write_done hb (t := timeText r) (by have := timeText_len hr; omega)
      exact ⟨b', _, h1, by show NumberText.Duration (b'.str b.pos) r; rw [h2]; exact timeText_duration hr⟩

/-- `1d 1h 1m 1s`, and the empty text for times below half a second. -/
example : timeText 90061 = [49, 100, 32, 49, 104, 32, 49, 109, 32, 49, 115] ∧ timeText 0 = [] := by
  decide +kernel

/-- C66, negation of the full statement: in a buffer used before, times below half a second
give the text of an older conversion. -/
theorem C66_time_stale : ∃ (cs : List Call) (b b' : Buffer) (ps : List Pointer) (p : Pointer),
    runAll Buffer.init cs = some (b, ps) ∧ formatTime b false 0 = some (b', p) ∧
    b'.read p = [57, 57] := by
  have h : ((runAll Buffer.init (List.replicate 16 (.count 99))).bind fun r =>
      (formatTime r.1 false 0).map fun q => q.1.read q.2) = some [57, 57] := by decide +kernel
  cases h1 : runAll Buffer.init (List.replicate 16 (.count 99)) with
  | none => rw [h1] at h; cases h
  | some r =>
    rw [h1, Option.bind_some] at h
    cases h2 : formatTime r.1 false 0 with
    | none => rw [h2] at h; cases h
    | some q =>
      rw [h2] at h
      exact ⟨_, r.1, q.1, r.2, q.2, h1, h2, by simpa using h⟩

/-- C66 (partial: see `C66_int_max_rejected`): the text for the value of an option denotes this value
in the language of the command line (`Spec/OptionValue.lean`). -/
theorem C66_value_partial {b : Buffer} (hb : b.pos < 16) {boolean : Bool} {v : Int}
    (hl : - 2 ^ 31 < v) (hu : v < 2 ^ 31 - 1) (h01 : boolean = true → v = 0 ∨ v = 1) :
    ∃ b' p, formatValue b boolean v = some (b', p) ∧ Denotes (b'.read p) v ∧
      parseValue (b'.read p) = .valid v ∧ 0 ∉ b'.read p ∧ ¬ ZeroPower (b'.read p) ∧
      (b'.read p).length ≤ 42 := by
  suffices h : ∃ b' p, formatValue b boolean v = some (b', p) ∧ Denotes (b'.read p) v ∧
      0 ∉ b'.read p ∧ ¬ ZeroPower (b'.read p) ∧ (b'.read p).length ≤ 42 by
    obtain ⟨b', p, h1, h2, h3, h4, h5⟩ := h
    exact ⟨b', p, h1, h2, (C23_option_value_exact_partial _ h3 h4 v).2 h2, h3, h4, h5⟩
  unfold formatValue
  cases boolean with
  | true =>
    rcases h01 rfl with rfl | rfl
    · refine ⟨b, .constant [102, 97, 108, 115, 101], rfl, .false, by simp [Buffer.read], ?_, by simp [Buffer.read]⟩
      rintro ⟨sign, e, rfl | rfl, h, _⟩ <;> simp [Buffer.read] at h
    · refine ⟨b, .constant [116, 114, 117, 101], rfl, .true, by simp [Buffer.read], ?_, by simp [Buffer.read]⟩
      rintro ⟨sign, e, rfl | rfl, h, _⟩ <;> simp [Buffer.read] at h
  | false =>
    simp only [Bool.false_and, Bool.false_eq_true, if_false]
    rw [if_neg (by omega), if_neg (by omega)]
    have hw : v.natAbs < 2 ^ 31 := by omega
    have hlen : (if v < 0 then 45 :: countText v.natAbs else countText v.natAbs).length ≤ 42 := by
      have := countText_len (w := v.natAbs) (by omega)
      split
      · simp only [List.length_cons]; omega
      · omega
    obtain ⟨b', h1, _, h2⟩ := write_done hb (t := if v < 0 then 45 :: countText v.natAbs
      else countText v.natAbs) (by omega)
    have hb0 : ∀ c ∈ countText v.natAbs, (48 ≤ c ∧ c ≤ 57) ∨ c = 94 ∨ c = 101 :=
      fun c hc => countText_bytes (by omega) hc
    have hz : ∀ e, countText v.natAbs ≠ 48 :: 94 :: e := by
      intro e he
      rcases countText_cases (w := v.natAbs) (by omega) with f | ⟨k, _, _, _, f⟩ | ⟨m, x, g1, g2, _, f⟩
      · rw [f] at he
        have := (printNat_num (n := v.natAbs) (by omega)).1.2 94 (by rw [he]; simp)
        omega
      · rw [f] at he; simp at he
      · have hm : m ≤ v.natAbs := by rw [← g1]; exact Nat.le_mul_of_pos_right _ (by positivity)
        rw [f] at he
        obtain ⟨c, _, d, _⟩ := printNat_num (n := m) (by omega)
        have := d g2
        cases hp : printNat m with
        | nil => exact c.1 hp
        | cons y ys =>
          rw [hp] at he this
          simp only [List.cons_append, List.cons.injEq] at he
          exact this (by rw [he.1]; rfl)
    refine ⟨b', _, h1, ?_, ?_, ?_, ?_⟩
    all_goals
      show _
      first
      | show Denotes (b'.str b.pos) v
      | show 0 ∉ b'.str b.pos
      | show ¬ ZeroPower (b'.str b.pos)
      | show (b'.str b.pos).length ≤ 42
      rw [h2]
    · have hm := countText_magnitude hw
      split
      · have := Denotes.negative hm (by omega)
        rw [show -((v.natAbs : Nat) : Int) = v by omega] at this; exact this
      · have := Denotes.positive hm hw
        rw [show ((v.natAbs : Nat) : Int) = v by omega] at this; exact this
    · intro h
      have hx : 0 ∉ countText v.natAbs := fun h => by have := hb0 0 h; omega
      split at h
      · simp only [List.mem_cons] at h
        rcases h with h | h
        · omega
        · exact hx h
      · exact hx h
    · rintro ⟨sign, e, hs, h, _⟩
      split at h
      · rcases hs with rfl | rfl
        · simp at h
        · simp only [List.cons_append, List.nil_append, List.cons.injEq, true_and] at h
          exact hz e h
      · rcases hs with rfl | rfl
        · exact hz e h
        · have := hb0 45 (by rw [h]; simp)
          omega
    · exact hlen

/-- C66 (partial: as before): the line printed for an option fits in its buffer and is accepted as
argument on the command line, with the same meaning. -/
theorem C66_option_line_partial (b : Build) {o : Opt} (ho : o ∈ table b) {v : Int} (hl : o.low ≤ v)
    (hu : v ≤ o.high) (hmax : v ≠ 2 ^ 31 - 1) :
    ∃ text, optionLine o.name (o.low = 0 && o.high = 1) v = some text ∧
      parseArg (table b) ([45, 45] ++ text) = .accepted o.name v := by
  have hrange : - 2 ^ 31 < o.low ∧ o.high ≤ 2 ^ 31 - 1 := by
    have hr : ∀ (s u : Bool), ∀ e ∈ allOptions ⟨false, false, false, false, s, u⟩,
        - 2 ^ 31 < e.2.low ∧ e.2.high ≤ 2 ^ 31 - 1 := by
      intro s u; cases s <;> cases u <;> decide +kernel
    simp only [table, List.mem_map, List.mem_filter] at ho
    obtain ⟨e, ⟨he, _⟩, rfl⟩ := ho
    exact hr b.sat b.unsat e he
  obtain ⟨hn1, hn2⟩ := Verif.Proofs.Options.table_names b ho
  obtain ⟨_, hn3, _⟩ := table_high_nonneg b o ho
  obtain ⟨b', p, h1, h2, _, h4, h5, h6⟩ := C66_value_partial (b := Buffer.init) (by decide)
    (boolean := o.low = 0 && o.high = 1) (v := v) (by omega) (by omega) (fun h => by
      simp only [Bool.and_eq_true, decide_eq_true_eq] at h; omega)
  refine ⟨o.name ++ 61 :: b'.read p, ?_, ?_⟩
  · unfold optionLine
    rw [h1]
    simp only [Option.bind_some]
    rw [if_pos]
    simp only [List.length_append, List.length_cons]; omega
  · have hm : Means (table b) ([45, 45] ++ (o.name ++ 61 :: b'.read p)) o.name v := by
      have := Means.assign (t := table b) ho h2 hl hu
      simpa using this
    refine (C24_argument_exact_partial b _ ?_ ?_ ?_ o.name v).2 hm
    · simp only [List.mem_append, List.mem_cons]
      rintro (h | h | h | h)
      · simp at h
      · exact hn1 h
      · omega
      · exact h4 h
    · rintro ⟨n, val, h, h61, hz⟩
      have e : [45, 45] ++ o.name = n ∧ b'.read p = val := by
        have hpre : 61 ∉ [45, 45] ++ o.name := by simp [hn3]
        have h' : ([45, 45] ++ o.name) ++ 61 :: b'.read p = n ++ 61 :: val := by simpa using h
        rcases List.append_eq_append_iff.1 h' with ⟨a, h7, h8⟩ | ⟨a, h7, h8⟩
        · cases a with
          | nil => simp at h7 h8; exact ⟨by simp [h7], h8⟩
          | cons x xs =>
            simp only [List.cons_append, List.cons.injEq] at h8
            exact absurd (by rw [h7, ← h8.1]; simp) h61
        · cases a with
          | nil => simp at h7 h8; exact ⟨by simp [h7], h8.symm⟩
          | cons x xs =>
            simp only [List.cons_append, List.cons.injEq] at h8
            exact absurd (by rw [h7, ← h8.1]; simp) hpre
      rw [← e.2] at hz
      exact h5 hz
    · rintro ⟨o', ho', _, h⟩
      have := (table_high_nonneg b o' ho').2.1
      have h' : o.name ++ 61 :: b'.read p = o'.name := by simpa using h
      exact this (by rw [← h']; simp)

/-- C66, negation of the full statement: the text printed for the largest value is `INT_MAX`, which is
not accepted as value. -/
theorem C66_int_max_rejected : ∃ b p, formatValue Buffer.init false (2 ^ 31 - 1) = some (b, p) ∧
    parseValue (b.read p) = .invalid := by
  refine ⟨Buffer.init, .constant [73, 78, 84, 95, 77, 65, 88], ?_, by decide +kernel⟩
  unfold formatValue
  simp

end Verif.Props
