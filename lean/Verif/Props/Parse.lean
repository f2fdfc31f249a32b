import Verif.Proofs.ParseMore
import Verif.Props.Answers

/-!
# Reading DIMACS files (C12 - C15, C61)

`Legal m w n q ls` (`Spec/Dimacs.lean`) is the grammar: the bytes `w` are a DIMACS file
with header `p cnf n q` and the integers `ls` after it, in mode `m`.
`parse m embedded w` is the parser; `embedded` tells whether options in comments are
looked at, which is not the case in the default build.
-/

namespace Verif.Props

open Verif.Core Verif.Model.Parse
open Verif.Spec (clausesOf pendingOf ESat ESatisfiable ElitTrue)
open Verif.Spec.Dimacs (Mode Legal Header Body Terminated Agrees lineOfLast maxVar)

/-- The bytes of a string. -/
def fileBytes (s : String) : List Nat := s.toList.map Char.toNat

/-- C12.  A legal file is accepted, the variables of the header are reserved, and exactly the
integers of the file are added in this order. -/
theorem C12_adds_file {m : Mode} {w : List Nat} {n q : Nat} {ls : List Int}
    (h : Legal m w n q ls) :
    ∃ ln, parse m false w = some (.ok n ln (.reserve n :: ls.map .add)) :=
  parse_iff.mpr ⟨q, ls, h, rfl⟩

/-- C12 with embedded options switched on: the same for files without a comment starting
with a dash. -/
theorem C12_adds_file_embedded {m : Mode} {w : List Nat} {n q : Nat} {ls : List Int}
    (h : Legal m w n q ls)
    (hw : ¬ ∃ u sp v, w = u ++ 99 :: sp ++ 45 :: v ∧ ∀ x ∈ sp, x = 32 ∨ x = 9) :
    ∃ ln, parse m true w = some (.ok n ln (.reserve n :: ls.map .add)) := by
  obtain ⟨ln, h1⟩ := C12_adds_file h
  refine ⟨ln, ?_⟩
  rw [← h1]
  exact run_embedded hw State.init (fun h => h) (by simp [State.init])

/-- A file determines header and integers. -/
theorem C12_unambiguous {m : Mode} {w : List Nat} {n n' q q' : Nat} {ls ls' : List Int}
    (h : Legal m w n q ls) (h' : Legal m w n' q' ls') : n = n' ∧ ls = ls' := by
  obtain ⟨ln, h1⟩ := C12_adds_file h
  obtain ⟨ln', h2⟩ := C12_adds_file h'
  rw [h1] at h2
  injection h2 with h2
  injection h2 with h3 _ h4
  injection h4 with _ h5
  refine ⟨h3, ?_⟩
  have hinj : ∀ {a b : List Int}, a.map Event.add = b.map Event.add → a = b := by
    intro a
    induction a with
    | nil => intro b hb; cases b with | nil => rfl | cons x b => cases hb
    | cons x a ih =>
      intro b hb
      cases b with
      | nil => cases hb
      | cons y b =>
        simp only [List.map_cons, List.cons.injEq, Event.add.injEq] at hb
        rw [hb.1, ih hb.2]
  exact hinj h5

/-- A file with comments, empty lines, blanks, two clauses in a line and one in two lines. -/
def exFile : List Nat := fileBytes "c hello\r\n\np  cnf 3 \t2 \n1 -2 0 3\nc in between\n -1 0"

theorem exFile_legal : Legal .normal exFile 3 2 [1, -2, 0, 3, -1, 0] := by
  refine ⟨fileBytes "c hello\r\n\n", fileBytes "p  cnf 3 \t2 \n", fileBytes "1 -2 0 3\nc in between\n -1 0",
    by decide, ?_, ?_, ?_, Or.inr rfl, Or.inr (by decide)⟩
  · exact .comment (t := fileBytes " hello") (e := [13, 10]) (w := [10]) (by decide) (by decide)
      (Or.inr rfl) (.blank (e := [10]) (w := []) (by decide) (Or.inl rfl) .nil)
  · exact ⟨[32], [], [51], [9], [50], [32], [10], Or.inr (by decide), Or.inl rfl,
      Or.inr (by decide), Or.inr (by decide), Or.inl rfl, by unfold Verif.Spec.Dimacs.Digits Verif.Spec.Dimacs.IsDigit; decide,
      by decide, by decide, by unfold Verif.Spec.Dimacs.Digits Verif.Spec.Dimacs.IsDigit; decide, by decide, by decide, by decide⟩
  · have lit : ∀ (d : Nat) (l : Int) (s w : List Nat) (ls : List Int),
        48 ≤ d → d ≤ 57 → l = (d : Int) - 48 → Verif.Spec.Dimacs.Separator s → Body .normal w ls →
        Body .normal ([d] ++ s ++ w) (l :: ls) := by
      intro d l s w ls h1 h2 h3 hs hw
      refine .lit (Or.inl ⟨⟨by simp, ?_⟩, ?_, ?_⟩) hs hw
      · intro x hx; simp only [List.mem_singleton] at hx; rw [hx]; exact ⟨h1, h2⟩
      · rw [h3]; simp only [Verif.Spec.Dimacs.value, List.foldl_cons, List.foldl_nil]; omega
      · simp only [Verif.Spec.Dimacs.value, List.foldl_cons, List.foldl_nil, maxVar]; omega
    have neg : ∀ (d : Nat) (l : Int) (s w : List Nat) (ls : List Int),
        49 ≤ d → d ≤ 57 → l = 48 - (d : Int) → Verif.Spec.Dimacs.Separator s → Body .normal w ls →
        Body .normal ([45, d] ++ s ++ w) (l :: ls) := by
      intro d l s w ls h1 h2 h3 hs hw
      refine .lit (Or.inr ⟨d, [], rfl, ⟨by simp, ?_⟩, by omega, ?_, ?_⟩) hs hw
      · intro x hx; simp only [List.mem_singleton] at hx; rw [hx]
        unfold Verif.Spec.Dimacs.IsDigit; omega
      · rw [h3]; simp only [Verif.Spec.Dimacs.value, List.foldl_cons, List.foldl_nil]; omega
      · simp only [Verif.Spec.Dimacs.value, List.foldl_cons, List.foldl_nil, maxVar]; omega
    refine lit 49 1 [32] _ _ (by omega) (by omega) rfl (Or.inl rfl) ?_
    refine neg 50 (-2) [32] _ _ (by omega) (by omega) rfl (Or.inl rfl) ?_
    refine lit 48 0 [32] _ _ (by omega) (by omega) rfl (Or.inl rfl) ?_
    refine lit 51 3 [10] _ _ (by omega) (by omega) rfl (Or.inr (Or.inr (Or.inl (Or.inl rfl)))) ?_
    refine .comment (c := fileBytes "c in between\n") ⟨fileBytes " in between", by decide, by decide⟩ ?_
    refine .blank (x := 32) (Or.inl rfl) ?_
    refine neg 49 (-1) [32] _ _ (by omega) (by omega) rfl (Or.inl rfl) ?_
    exact .lastLit (by decide) (Or.inl ⟨⟨by decide, by unfold Verif.Spec.Dimacs.IsDigit; decide⟩, by decide, by decide⟩)

example : parse .normal false exFile =
    some (.ok 3 6 [.reserve 3, .add 1, .add (-2), .add 0, .add 3, .add (-1), .add 0]) := by
  decide

/-- The calls made for a file. -/
def loads (n : Nat) (ls : List Int) : List Call := .reserve n :: ls.map .add

theorem addedInts_loads (n : Nat) (ls : List Int) : addedInts (loads n ls) = ls := by
  unfold loads addedInts
  simp only [List.filterMap_cons]
  induction ls with
  | nil => rfl
  | cons l ls ih => simp only [List.map_cons, List.filterMap_cons, ih]

theorem pendingOf_terminated {ls : List Int} (ht : Terminated ls) : pendingOf ls = [] := by
  rcases ht with rfl | ht
  · rfl
  · obtain ⟨x, rfl⟩ : ∃ x, ls = x ++ [0] := by
      obtain ⟨x, y, rfl⟩ | h := (List.eq_nil_or_concat ls).symm
      · simp at ht; exact ⟨x, by rw [ht]; simp⟩
      · rw [h] at ht; cases ht
    exact Verif.Spec.pendingOf_zero x

/-- Every integer of a file is a valid literal or zero. -/
theorem body_valid {m : Mode} {w : List Nat} {ls : List Int} (h : Body m w ls) :
    ∀ l ∈ ls, l.natAbs ≤ 2 ^ 30 - 1 := by
  have num : ∀ {n : List Nat} {l : Int}, Verif.Spec.Dimacs.Numeral n l → l.natAbs ≤ 2 ^ 30 - 1 := by
    rintro n l (⟨_, rfl, h⟩ | ⟨d, ds, _, _, _, rfl, h⟩) <;> (unfold maxVar at h; omega)
  induction h with
  | nil => simp
  | blank _ _ ih => exact ih
  | lineEnd _ _ ih => exact ih
  | comment _ _ ih => exact ih
  | lastComment _ _ => simp
  | lit hn _ _ ih =>
    intro x hx
    rcases List.mem_cons.mp hx with h | h
    · rw [h]; exact num hn
    · exact ih x h
  | lastLit _ hn => intro x hx; rw [List.mem_singleton.mp hx]; exact num hn
  | lastLitComment _ hn _ => intro x hx; rw [List.mem_singleton.mp hx]; exact num hn

theorem add_all {options : Options} {tumble : Bool} {p q : Nat} (ls : List Int) :
    ∀ {calls : List Call} {a : Api}, Run (Api.init options tumble p q) calls a → a.searches = 0 →
      (∀ l ∈ ls, l.natAbs ≤ 2 ^ 30 - 1) →
      ∃ b, Run (Api.init options tumble p q) (calls ++ ls.map .add) b ∧ b.searches = 0 := by
  induction ls with
  | nil => intro calls a h h0 _; exact ⟨a, by simpa using h, h0⟩
  | cons l ls ih =>
    intro calls a h h0 hv
    obtain ⟨b, hb⟩ := (C09_legal_accepted h h0).1 l (hv l (by simp))
    have hr := h.snoc (c := .add l) trivial (.add hb)
    have h0b : b.searches = 0 := (add_control (run_inv h).imports hb).1.trans h0
    obtain ⟨c, hc, h0c⟩ := ih hr h0b (fun x hx => hv x (List.mem_cons_of_mem _ hx))
    exact ⟨c, by simpa using hc, h0c⟩

/-- The library accepts what the parser passes on, and no clause is left incomplete. -/
theorem C12_calls_accepted {m : Mode} {w : List Nat} {n q : Nat} {ls : List Int}
    (h : Legal m w n q ls) (options : Options) (tumble : Bool) (i j : Nat) :
    ∃ a, Run (Api.init options tumble i j) (loads n ls) a ∧ a.searches = 0 ∧
      pendingOf (addedInts (loads n ls)) = [] := by
  obtain ⟨u, hd, b, -, -, ⟨_, _, _, _, _, _, _, _, _, _, _, _, _, _, hn, _⟩, hb, ht, -⟩ := h
  have hinit : Run (Api.init options tumble i j) [] (Api.init options tumble i j) := .nil
  obtain ⟨a, ha⟩ : ∃ a, (Api.init options tumble i j).reserve n = .ok a := by
    unfold Api.reserve
    rw [if_neg (by omega), if_neg (by unfold externalMaxVar; unfold maxVar at hn; omega)]
    split
    · exact ⟨_, rfl⟩
    · simp only
      obtain ⟨-, ⟨k, imps, exps, -, hg⟩, -⟩ :=
        importAll_ok (List.range (n : Int).natAbs) (run_inv hinit).imports
      rw [hg]
      rw [if_neg]
      · exact ⟨_, rfl⟩
      · simp only [List.any_eq_true, List.mem_range, not_exists, not_and]
        intro x _ hx
        simp [Api.init] at hx
  have hr := hinit.snoc (c := .reserve n) trivial (.reserve ha)
  have h0 : a.searches = 0 := (reserve_control (run_inv hinit).imports ha).1
  obtain ⟨c, hc, h0c⟩ := add_all ls hr h0 (body_valid hb)
  refine ⟨c, by simpa [loads] using hc, h0c, ?_⟩
  rw [addedInts_loads]
  exact pendingOf_terminated ht

/-- From the file to the answer (searches without inprocessing): after parsing a legal file,
10 means that its clauses are satisfied by the values, 20 that they are unsatisfiable. -/
theorem C01_C02_search_file {m : Mode} {w : List Nat} {n q : Nat} {ls : List Int}
    (_h : Legal m w n q ls) {options : Options} {tumble : Bool} {i j : Nat} {a a' : Api}
    {os : List Oracle} {res : Nat} (hrun : Run (Api.init options tumble i j) (loads n ls) a)
    (hfair : (Call.solve os).Fair a.s) (hsolve : a.solve os = .done a' res) :
    (res = 10 → ∀ σ : Nat → Bool, (∀ e v, a'.value e = .ok v → v ≠ 0 → ElitTrue σ v) →
      ∀ c ∈ clausesOf ls, ESat σ c) ∧
    (res = 20 → ¬ ESatisfiable (clausesOf ls)) := by
  have e := addedInts_loads n ls
  constructor
  · rintro rfl σ hσ
    have := C01_search_model hrun hfair hsolve σ hσ
    rwa [e] at this
  · rintro rfl
    have := C02_search_unsatisfiable hrun hfair hsolve
    rwa [e] at this

/-! ## Rejected files -/

/-- C13.  Without embedded options only legal files are accepted, whatever the bytes are, and
what is added are the integers of the file. -/
theorem C13_accepts_legal {m : Mode} {w : List Nat} {n ln : Nat} {ev : List Event}
    (h : parse m false w = some (.ok n ln ev)) :
    ∃ q ls, Legal m w n q ls ∧ ev = .reserve n :: ls.map .add :=
  parse_iff.mp ⟨ln, h⟩

/-- C13 in every build: an accepted file has a legal header and body, and after options
exactly the integers of the body are added. -/
theorem C13_accepts_header_and_body {m : Mode} {embedded : Bool} {w : List Nat} {n ln : Nat}
    {ev : List Event} (h : parse m embedded w = some (.ok n ln ev)) :
    ∃ a hd b q ls, ∃ os : List (List Nat × Int), w = a ++ hd ++ b ∧ Header m hd n q ∧ Body m b ls ∧
      Terminated ls ∧ Agrees m n q ls ∧
      ev = os.map (fun o => .option o.1 o.2) ++ .reserve n :: ls.map .add :=
  parse_any h

/-- There are as many clauses as zeros. -/
theorem clausesOf_length (ls : List Int) : (clausesOf ls).length = ls.count 0 := by
  induction hn : ls.length generalizing ls with
  | zero =>
    rw [List.length_eq_zero_iff.mp hn]; rfl
  | succ n ih =>
    obtain ⟨x, y, rfl⟩ | h := (List.eq_nil_or_concat ls).symm
    · simp only [List.concat_eq_append, List.length_append, List.length_singleton] at hn ⊢
      have hx := ih x (by omega)
      by_cases hy : y = 0
      · subst hy
        rw [Verif.Spec.clausesOf_zero, List.length_append, hx, List.count_append]; simp
      · rw [Verif.Spec.clausesOf_lit x hy, hx, List.count_append]
        simp [hy]
    · rw [h] at hn; cases hn

/-- C13: whatever the bytes are, in strict modes no accepted file has a literal above the
header's count or another number of clauses; in every mode literals are valid and the last
clause is terminated. -/
theorem C13_strict {m : Mode} {embedded : Bool} {w : List Nat} {n ln : Nat}
    {ev : List Event} (h : parse m embedded w = some (.ok n ln ev)) :
    ∃ q ls, ev.filterMap (fun | .add l => some l | _ => none) = ls ∧
      (∀ l ∈ ls, l.natAbs ≤ 2 ^ 30 - 1) ∧ pendingOf ls = [] ∧
      (m ≠ .relaxed → (∀ l ∈ ls, l.natAbs ≤ n) ∧ (clausesOf ls).length = q ∧
        ∃ a hd b, w = a ++ hd ++ b ∧ Header m hd n q) := by
  obtain ⟨a, hd, b, q, ls, os, h1, h2, h3, h4, h5, rfl⟩ := parse_any h
  refine ⟨q, ls, ?_, body_valid h3, pendingOf_terminated h4, ?_⟩
  · have e1 : (os.map (fun o => Event.option o.1 o.2)).filterMap
        (fun | .add l => some l | _ => none) = ([] : List Int) := by
      induction os with
      | nil => rfl
      | cons o os ih => simpa using ih
    have e2 : (ls.map Event.add).filterMap (fun | .add l => some l | _ => none) = ls := by
      clear h h3 h4 h5
      induction ls with
      | nil => rfl
      | cons o ls ih => simpa using ih
    rw [List.filterMap_append, e1, List.filterMap_cons]
    exact e2
  · intro hm
    rcases h5 with h5 | h5
    · exact absurd h5 hm
    · exact ⟨h5.1, by rw [clausesOf_length]; exact h5.2, a, hd, b, h1, h2⟩

/-- C13: the numbers held while reading never exceed the maximum variable (or 2^64 - 1 for
the number of clauses, 2^31 - 1 for embedded options), so the arithmetic does not overflow. -/
theorem C13_no_overflow {m : Mode} {embedded : Bool} {u : List Nat} {s : State}
    (h : feed m embedded State.init u = .more s) :
    (∀ sg k, s.pc = .idx sg k → k ≤ 2 ^ 30 - 1) ∧ (∀ k, s.pc = .variables k → k ≤ 2 ^ 30 - 1) ∧
    (∀ k c, s.pc = .clauses k c → c < 2 ^ 64) ∧ (∀ a b k, s.pc = .arg a b k → k ≤ 2 ^ 31 - 1) := by
  have hb : Bounded s := feed_bounded (s := State.init) ⟨trivial, Nat.zero_le _, by decide⟩ h
  refine ⟨?_, ?_, ?_, ?_⟩
  · intro sg k hk
    have := hb.1; rw [hk] at this; exact this
  · intro k hk
    have := hb.1; rw [hk] at this; exact this
  · intro k c hk
    have := hb.1; rw [hk] at this; exact this.2
  · intro a b k hk
    have := hb.1; rw [hk] at this; exact this

/-- The parser always returns. -/
theorem C13_returns (m : Mode) (embedded : Bool) (w : List Nat) :
    ∃ r, parse m embedded w = some r :=
  Option.ne_none_iff_exists'.mp (run_ne_none _ _)

-- rejected: literal too large, too many clauses, too few clauses, missing zero, wrong signs
example : parse .normal false (fileBytes "p cnf 2 1\n3 0\n") =
    some (.error "maximum variable index exceeded (try '--relaxed' parsing)" 2 [.reserve 2]) := by
  decide
example : parse .normal false (fileBytes "p cnf 2 1\n1 0 2 0\n") =
    some (.error "too many clauses (try '--relaxed' parsing)" 1
      [.reserve 2, .add 1, .add 0, .add 2]) := by decide
example : parse .normal false (fileBytes "p cnf 2 2\n1 0\n") =
    some (.error "one clause missing (try '--relaxed' parsing)" 1 [.reserve 2, .add 1, .add 0]) := by
  decide
example : parse .normal false (fileBytes "p cnf 2 1\n1") =
    some (.error "trailing zero missing" 1 [.reserve 2, .add 1]) := by decide
example : parse .relaxed false (fileBytes "p cnf 2 1\n-0 0") =
    some (.error "expected non-zero digit after '-'" 1 [.reserve 2]) := by decide
example : parse .relaxed false (fileBytes "p cnf 2 1\n1073741824 0") =
    some (.error "variable index too large" 1 [.reserve 2]) := by decide

/-! ## Line numbers -/

/-- C14 (partial: only for ten of the messages).  When parsing fails with one of these messages,
the reported line is the line of the last character read, or of the end of the file. -/
theorem C14_line_partial {m : Mode} {embedded : Bool} {w : List Nat} {chunks : Nat → Nat}
    {message : String} {ln : Nat} {ev : List Event} {r : Reader}
    (h : parseBlocks m embedded w chunks = some (.error message ln ev, r))
    (hm : message ∈ ["unexpected empty line", "expected space after 'p'",
      "expected 'c' after 'p '", "expected 'n' after 'p c'", "expected 'n' after 'p cn'",
      "expected space after 'p cnf'", "expected digit after 'p cnf '",
      "unexpected new-line after maximum variable", "unexpected new-line after '-'",
      "maximum variable index exceeded (try '--relaxed' parsing)"]) :
    ∃ u, w = u ++ (r.chars.drop r.pos ++ r.file) ∧
      ((u ≠ [] ∧ ln = lineOfLast u) ∨ (u = w ∧ ln = 1 + w.count 10)) := by
  obtain ⟨u, ch, h1, h2, -, s', h4, h5⟩ := parseBlocks_last h
  have hl := after_line (m := m) (e := embedded) (bump s' ch) ch
  rw [← step_eq, h5] at hl
  refine ⟨u ++ ch.toList, h1, ?_⟩
  rcases hl with ⟨hl, -⟩ | ⟨-, hl⟩
  · exact absurd hm hl
  · have hln : ln = s'.lineno := by
      rw [hl]
      unfold bump
      simp only
      split <;> omega
    cases ch with
    | none =>
      right
      rw [h2 rfl] at h1
      simp only [Option.toList_none, List.append_nil] at h1 ⊢
      rw [h1]
      exact ⟨rfl, by omega⟩
    | some x =>
      left
      refine ⟨by simp, ?_⟩
      unfold lineOfLast
      simp only [Option.toList_some, List.dropLast_concat]
      omega

/-- With every other message line 1 is reported. -/
theorem C14_line_one {m : Mode} {embedded : Bool} {w : List Nat}
    {message : String} {ln : Nat} {ev : List Event}
    (h : parse m embedded w = some (.error message ln ev)) (hm : message ∉ located) : ln = 1 := by
  obtain ⟨r, hr, -⟩ := drive_spec (m := m) (e := embedded) (w.length + 2)
    (Reader.init w fun _ => 1) State.init (Nat.le_refl _) (Nat.le_refl _)
  rw [Reader.init_pending, ← parse_eq_run, h] at hr
  obtain ⟨u, ch, h1, h2, -, s', h4, h5⟩ := parseBlocks_last hr
  have hl := after_line (m := m) (e := embedded) (bump s' ch) ch
  rw [← step_eq, h5] at hl
  rcases hl with ⟨-, hl⟩ | ⟨hl, -⟩
  · exact hl
  · exact absurd hl hm

/-- C14 is false in general: the offending character is on line 3 but line 1 is reported. -/
theorem C14_wrong_line :
    ∃ w u ch v, w = u ++ ch :: v ∧ lineOfLast (u ++ [ch]) = 3 ∧
      (∃ s, feed .normal false State.init u = .more s ∧
        ∃ message ev, step .normal false s (some ch) = .done (.error message 1 ev)) ∧
      ∃ message ev, parse .normal false w = some (.error message 1 ev) :=
  ⟨fileBytes "p cnf 1 1\n1\nx\n", fileBytes "p cnf 1 1\n1\n", 120, [10], by decide, by decide,
    ⟨_, rfl, _, _, rfl⟩, _, _, rfl⟩

example : ∃ r, parseBlocks .normal false (fileBytes "c\np cnf 2 1\n1\n3 0") (fun _ => 2) =
    some (.error "maximum variable index exceeded (try '--relaxed' parsing)" 4
      [.reserve 2, .add 1], r) := ⟨_, rfl⟩

/-- On success the reported number of lines is right. -/
theorem C14_lines_of_file {m : Mode} {embedded : Bool} {w : List Nat} {n ln : Nat}
    {ev : List Event} (h : parse m embedded w = some (.ok n ln ev)) : ln = 1 + w.count 10 := by
  obtain ⟨r, hr, -⟩ := drive_spec (m := m) (e := embedded) (w.length + 2)
    (Reader.init w fun _ => 1) State.init (Nat.le_refl _) (Nat.le_refl _)
  rw [Reader.init_pending, ← parse_eq_run, h] at hr
  obtain ⟨u, ch, h1, h2, -, s', h4, h5⟩ := parseBlocks_last hr
  have hl := after_line (m := m) (e := embedded) (bump s' ch) ch
  rw [← step_eq, h5] at hl
  obtain ⟨hl, rfl⟩ := hl
  rw [h2 rfl] at h1
  simp only [Option.toList_none, List.append_nil] at h1
  rw [h1, hl, ← h4]
  simp [bump]

/-! ## Blocks -/

/-- C15.  However the file is split into blocks, the result is that of parsing the sequence of
its characters. -/
theorem C15_blocks_invisible (m : Mode) (embedded : Bool) (w : List Nat) (chunks : Nat → Nat) :
    (parseBlocks m embedded w chunks).map (·.1) = parse m embedded w := by
  obtain ⟨r, hr, -⟩ := drive_spec (m := m) (e := embedded) (w.length + 2)
    (Reader.init w chunks) State.init (Nat.le_refl _) (Nat.le_refl _)
  rw [parseBlocks, hr, Reader.init_pending, ← parse_eq_run]
  cases parse m embedded w <;> rfl

/-- C15: the characters delivered are those of the file, followed by end-of-file for ever. -/
theorem C15_characters (w : List Nat) (chunks : Nat → Nat) (n : Nat) :
    reads n (Reader.init w chunks) =
      (w.take n).map some ++ List.replicate (n - w.length) none :=
  reads_spec n _ (Nat.le_refl _)

/-- C15: the byte counter never exceeds the size of the file and equals it on success. -/
theorem C15_bytes {m : Mode} {embedded : Bool} {w : List Nat} {chunks : Nat → Nat}
    {res : Result} {r : Reader} (h : parseBlocks m embedded w chunks = some (res, r)) :
    r.bytes ≤ w.length ∧ (∀ n ln ev, res = .ok n ln ev → r.bytes = w.length) := by
  obtain ⟨u, ch, h1, h2, h3, s', h4, h5⟩ := parseBlocks_last h
  refine ⟨by omega, ?_⟩
  rintro n ln ev rfl
  have hl := after_line (m := m) (e := embedded) (bump s' ch) ch
  rw [← step_eq, h5] at hl
  have hp := h2 hl.2
  unfold Reader.pending at hp
  have : r.file = [] := (List.append_eq_nil_iff.mp hp).2
  rw [this] at h3
  simpa using h3

example : (parseBlocks .normal false exFile (fun _ => 3)).map (fun p => (p.1, p.2.bytes, p.2.calls)) =
    some (.ok 3 6 [.reserve 3, .add 1, .add (-2), .add 0, .add 3, .add (-1), .add 0], 50, 19) := by
  decide

/-! ## Embedded options -/

/-- C61 is false: with embedded options a comment can swallow the line after it, here the
header, so that a legal file is rejected; and a file with two header lines is accepted. -/
theorem C61_comment_swallows_line :
    (∃ w n q ls, Legal .normal w n q ls ∧
      ∃ message ln ev, parse .normal true w = some (.error message ln ev)) ∧
    (∃ w n ln ev message ln' ev', parse .normal true w = some (.ok n ln ev) ∧
      parse .normal false w = some (.error message ln' ev')) := by
  refine ⟨?_, fileBytes "c --a=\np cnf 1 1\np cnf 2 1\n2 0\n", _, _, _, _, _, _, rfl, rfl⟩
  obtain ⟨q, ls, h, -⟩ := C13_accepts_legal (show parse .normal false
    (fileBytes "c -\np cnf 1 1\n1 0\n") = some (.ok 1 4 [.reserve 1, .add 1, .add 0]) by decide)
  exact ⟨fileBytes "c -\np cnf 1 1\n1 0\n", 1, q, ls, h, _, _, _, rfl⟩

/-- C61 (partial: if no comment starts with a dash).  Comments before the header have no
effect. -/
theorem C61_comments_ignored_partial {m : Mode} {w : List Nat}
    (hw : ¬ ∃ u sp v, w = u ++ 99 :: sp ++ 45 :: v ∧ ∀ x ∈ sp, x = 32 ∨ x = 9) :
    parse m true w = parse m false w :=
  run_embedded hw State.init (fun h => h) (by simp [State.init])

end Verif.Props
