import Verif.Proofs.Options
/-
C21-C25: options, their values, command line arguments and configurations.
`b` ranges over all builds (compile time switches), `table b` is the option table of that build.
A C string has no zero byte, which is the hypothesis `0 ∉ name`.
-/
namespace Verif.Props
open Verif.Model.Options Verif.Spec.OptionValue
open Verif.Proofs.Options (InRange clamp)

/-! ### C21 -/

/-- C21: looking up a string finds table entry `i` exactly if that entry has this name.
In particular distinct entries are never confused. -/
theorem C21_lookup_finds_exactly (b : Build) (name : CStr) (h0 : 0 ∉ name) (i : Nat) :
    has (table b) name = .found i ↔ ∃ o, (table b)[i]? = some o ∧ o.name = name := by
  have hg := Verif.Proofs.Options.good_table b
  constructor
  · intro h
    rcases Verif.Proofs.Options.has_spec hg h0 with ⟨j, hj, hn, h2⟩ | ⟨_, h2⟩
    · rw [h] at h2; cases h2
      exact ⟨_, List.getElem?_eq_getElem hj, hn⟩
    · rw [h] at h2; cases h2
  · rintro ⟨o, ho, rfl⟩
    obtain ⟨hi, rfl⟩ := List.getElem?_eq_some_iff.1 ho
    exact Verif.Proofs.Options.has_found hg hi

/-- C21: every other string is reported as unknown, and the search never leaves the table. -/
theorem C21_lookup_unknown (b : Build) (name : CStr) (h0 : 0 ∉ name) :
    (has (table b) name = .notFound ↔ ∀ o ∈ table b, o.name ≠ name) ∧
    has (table b) name ≠ .outOfBounds := by
  have hg := Verif.Proofs.Options.good_table b
  rcases Verif.Proofs.Options.has_spec hg h0 with ⟨j, hj, hn, h2⟩ | ⟨h1, h2⟩
  · rw [h2]
    exact ⟨⟨fun h => (by cases h), fun h => absurd hn (h _ (List.getElem_mem hj))⟩, by simp⟩
  · rw [h2]
    refine ⟨⟨fun _ o ho => ?_, fun _ => rfl⟩, by simp⟩
    obtain ⟨i, hi, rfl⟩ := List.getElem_of_mem ho
    exact h1 i hi

/-- The default build (release build with messages). -/
def defaultBuild : Build := ⟨false, false, false, false, false, false⟩

/-- "walkeffort" is found, "walkeffor" is not. -/
example : (∃ i, has (table defaultBuild) [119,97,108,107,101,102,102,111,114,116] = .found i) ∧
    has (table defaultBuild) [119,97,108,107,101,102,102,111,114] = .notFound := by
  constructor
  · exact ⟨154, by decide +kernel⟩
  · decide +kernel

/-! ### C22 -/

/-- Histories of setting options on a fresh solver, every result being defined. -/
def setSequence (t : List Opt) (vals : List Int) (sets : List (CStr × Int)) : Option (List Int) :=
  sets.foldlM (fun vals s => (setOption t vals s.1 s.2).map (·.2)) vals

/-- C22: in every state reached by any sequence of `kissat_set_option` calls all options are in
their range (and no call reads or writes outside of the tables). -/
theorem C22_always_in_range (b : Build) (sets : List (CStr × Int)) (h0 : ∀ s ∈ sets, 0 ∉ s.1) :
    ∃ vals, setSequence (table b) (initOptions b) sets = some vals ∧ InRange (table b) vals := by
  have hg := Verif.Proofs.Options.good_table b
  have key : ∀ (sets : List (CStr × Int)) (vals : List Int), (∀ s ∈ sets, 0 ∉ s.1) →
      InRange (table b) vals →
      ∃ vals', setSequence (table b) vals sets = some vals' ∧ InRange (table b) vals' := by
    intro sets
    induction sets with
    | nil => intro vals _ hr; exact ⟨vals, rfl, hr⟩
    | cons s sets ih =>
      intro vals h0 hr
      have hs := h0 s (by simp)
      have hrest : ∀ s ∈ sets, 0 ∉ s.1 := fun x hx => h0 x (by simp [hx])
      rcases Verif.Proofs.Options.has_spec hg hs with ⟨i, hi, hn, _⟩ | ⟨_, h2⟩
      · have := Verif.Proofs.Options.setOption_found hg hr hi s.2
        rw [hn] at this
        obtain ⟨v', h1, h2⟩ := ih _ hrest (Verif.Proofs.Options.inRange_set hg hr hi s.2)
        refine ⟨v', ?_, h2⟩
        simp only [setSequence, List.foldlM_cons, this, Option.map_some]
        exact h1
      · have : setOption (table b) vals s.1 s.2 = some (0, vals) := by
          unfold setOption; rw [h2]
        obtain ⟨v', h1, h2⟩ := ih _ hrest hr
        refine ⟨v', ?_, h2⟩
        simp only [setSequence, List.foldlM_cons, this, Option.map_some]
        exact h1
  apply key sets _ h0
  refine ⟨by simp [initOptions], ?_⟩
  intro i hi hv
  simp only [initOptions, List.getElem_map]
  exact Verif.Proofs.Options.table_ranges b (List.getElem_mem hi)

/-- C22: setting a known option returns its old value, makes `kissat_get_option` return the given
value clamped into `[low, high]`, and leaves all other options unchanged. -/
theorem C22_set_known (b : Build) (vals : List Int) (hr : InRange (table b) vals) (o : Opt)
    (ho : o ∈ table b) (v : Int) :
    ∃ old vals', setOption (table b) vals o.name v = some (old, vals') ∧
      getOption (table b) vals o.name = some old ∧
      getOption (table b) vals' o.name =
        some (if v < o.low then o.low else if o.high < v then o.high else v) ∧
      InRange (table b) vals' ∧
      ∀ o' ∈ table b, o'.name ≠ o.name →
        getOption (table b) vals' o'.name = getOption (table b) vals o'.name := by
  have hg := Verif.Proofs.Options.good_table b
  obtain ⟨i, hi, rfl⟩ := List.getElem_of_mem ho
  have hv : i < vals.length := by rw [hr.1]; exact hi
  refine ⟨vals[i], vals.set i (clamp (table b)[i] v),
    Verif.Proofs.Options.setOption_found hg hr hi v, ?_, ?_,
    Verif.Proofs.Options.inRange_set hg hr hi v, ?_⟩
  · rw [Verif.Proofs.Options.getOption_found hg hi, List.getElem?_eq_getElem hv]
  · rw [Verif.Proofs.Options.getOption_found hg hi, List.getElem?_set_self hv]
    congr 1
    have := hg.range _ (List.getElem_mem hi)
    unfold clamp; split
    · omega
    · split <;> omega
  · intro o' ho' hne
    obtain ⟨j, hj, rfl⟩ := List.getElem_of_mem ho'
    rw [Verif.Proofs.Options.getOption_found hg hj, Verif.Proofs.Options.getOption_found hg hj]
    rw [List.getElem?_set_ne]
    rintro rfl
    exact hne rfl

/-- C22: setting an unknown option changes nothing and returns 0. -/
theorem C22_set_unknown (b : Build) (vals : List Int) (name : CStr) (h0 : 0 ∉ name)
    (h : ∀ o ∈ table b, o.name ≠ name) (v : Int) :
    setOption (table b) vals name v = some (0, vals) ∧
    getOption (table b) vals name = some 0 := by
  have := Verif.Proofs.Options.has_notFound (Verif.Proofs.Options.good_table b) h0 h
  simp [setOption, getOption, this]

/-- Non-vacuous: setting `tier1` (range 1 to 100, default 2) to 500 in a fresh solver. -/
example : (setOption (table defaultBuild) (initOptions defaultBuild) [116,105,101,114,49] 500).map
      (fun r => (r.1, getOption (table defaultBuild) r.2 [116,105,101,114,49])) =
    some (2, some 100) := by
  decide +kernel

/-! ### C23 -/

/-- Values on which the code divides by zero: an optional minus sign, then `0^` and an
exponent which starts with a digit larger than one. -/
def ZeroPower (s : CStr) : Prop :=
  ∃ sign e, (sign = [] ∨ sign = [45]) ∧ s = sign ++ 48 :: 94 :: e ∧ Digits e ∧
    ∃ c t, e = c :: t ∧ 50 ≤ c

/-- C23 (partial): for every string, except those with base zero and an exponent starting with
2 to 9, the parser accepts exactly the documented grammar and returns the denoted integer.
What is missing: on the excluded strings (for instance `0^2`, which denotes 0) the code divides by
zero, see `C23_zero_power_divides_by_zero`. -/
theorem C23_option_value_exact_partial (s : CStr) (h0 : 0 ∉ s) (hz : ¬ ZeroPower s) (v : Int) :
    parseValue s = .valid v ↔ Denotes s v := by
  have htrue : strcmp s [116, 114, 117, 101] = 0 ↔ s = [116, 114, 117, 101] :=
    Verif.Proofs.Options.strcmp_eq_zero h0 (by decide)
  have hfalse : strcmp s [102, 97, 108, 115, 101] = 0 ↔ s = [102, 97, 108, 115, 101] :=
    Verif.Proofs.Options.strcmp_eq_zero h0 (by decide)
  unfold parseValue
  by_cases h1 : s = [116, 114, 117, 101]
  · rw [if_pos (htrue.2 h1)]
    subst h1
    constructor
    · rintro h; cases h; exact .true
    · intro h
      cases h with
      | true => rfl
      | positive hm _ =>
        obtain ⟨c, p, h, h2⟩ := Verif.Proofs.Options.magnitude_first hm
        simp only [List.cons.injEq] at h; omega
  · rw [if_neg (fun h => h1 (htrue.1 h))]
    by_cases h2 : s = [102, 97, 108, 115, 101]
    · rw [if_pos (hfalse.2 h2)]
      subst h2
      constructor
      · rintro h; cases h; exact .false
      · intro h
        cases h with
        | false => rfl
        | positive hm _ =>
          obtain ⟨c, p, h, h2⟩ := Verif.Proofs.Options.magnitude_first hm
          simp only [List.cons.injEq] at h; omega
    · rw [if_neg (fun h => h2 (hfalse.1 h))]
      split
      · next p =>
        have h0p : 0 ∉ p := fun h => h0 (by simp [h])
        have hc : ¬ Verif.Proofs.Options.CrashString p := by
          rintro ⟨e, rfl, h⟩
          exact hz ⟨[45], e, Or.inr rfl, rfl, h⟩
        obtain ⟨_, hM, hI⟩ := Verif.Proofs.Options.parseUnsigned_spec true p h0p
        constructor
        · intro h
          by_cases hex : ∃ n, Magnitude p n
          · obtain ⟨n, hn⟩ := hex
            rw [hM n hn hc, Verif.Proofs.Options.final] at h
            simp only [if_true] at h
            split at h
            · next hle => cases h; exact .negative hn hle
            · cases h
          · rw [hI hc hex] at h; cases h
        · intro h
          cases h with
          | positive hm _ =>
            obtain ⟨c, p, h, h2⟩ := Verif.Proofs.Options.magnitude_first hm
            simp only [List.cons.injEq] at h; omega
          | negative hm hle =>
            rw [hM _ hm hc, Verif.Proofs.Options.final]
            simp only [if_true]
            rw [if_pos hle]
      · next hne =>
        have hc : ¬ Verif.Proofs.Options.CrashString s := by
          rintro ⟨e, rfl, h⟩
          exact hz ⟨[], e, Or.inl rfl, rfl, h⟩
        obtain ⟨_, hM, hI⟩ := Verif.Proofs.Options.parseUnsigned_spec false s h0
        constructor
        · intro h
          by_cases hex : ∃ n, Magnitude s n
          · obtain ⟨n, hn⟩ := hex
            rw [hM n hn hc, Verif.Proofs.Options.final] at h
            simp only [Bool.false_eq_true, if_false] at h
            split at h
            · next hle => cases h; exact .positive hn hle
            · cases h
          · rw [hI hc hex] at h; cases h
        · intro h
          cases h with
          | true => exact absurd rfl h1
          | false => exact absurd rfl h2
          | positive hm hle =>
            rw [hM _ hm hc, Verif.Proofs.Options.final]
            simp only [Bool.false_eq_true, if_false]
            rw [if_pos hle]
          | negative hm hle => exact absurd rfl (hne _)

/-- C23: the code divides by zero exactly on the excluded strings. -/
theorem C23_divides_by_zero_iff (s : CStr) (h0 : 0 ∉ s) :
    parseValue s = .divisionByZero ↔ ZeroPower s := by
  have htrue : strcmp s [116, 114, 117, 101] = 0 ↔ s = [116, 114, 117, 101] :=
    Verif.Proofs.Options.strcmp_eq_zero h0 (by decide)
  have hfalse : strcmp s [102, 97, 108, 115, 101] = 0 ↔ s = [102, 97, 108, 115, 101] :=
    Verif.Proofs.Options.strcmp_eq_zero h0 (by decide)
  have key : ∀ neg p, 0 ∉ p → parseUnsigned neg p = .divisionByZero →
      Verif.Proofs.Options.CrashString p := by
    intro neg p h0p h
    obtain ⟨_, hM, hI⟩ := Verif.Proofs.Options.parseUnsigned_spec neg p h0p
    by_contra hc
    by_cases hex : ∃ n, Magnitude p n
    · obtain ⟨n, hn⟩ := hex
      rw [hM n hn hc, Verif.Proofs.Options.final] at h
      split at h <;> split at h <;> cases h
    · rw [hI hc hex] at h; cases h
  constructor
  · intro h
    unfold parseValue at h
    split at h
    · cases h
    · split at h
      · cases h
      · split at h
        · next p =>
          obtain ⟨e, rfl, h'⟩ := key true _ (fun h => h0 (by simp [h])) h
          exact ⟨[45], e, Or.inr rfl, rfl, h'⟩
        · obtain ⟨e, rfl, h'⟩ := key false _ h0 h
          exact ⟨[], e, Or.inl rfl, rfl, h'⟩
  · rintro ⟨sign, e, hs, rfl, h⟩
    have ne1 : sign ++ 48 :: 94 :: e ≠ [116, 114, 117, 101] := by rcases hs with rfl | rfl <;> simp
    have ne2 : sign ++ 48 :: 94 :: e ≠ [102, 97, 108, 115, 101] := by
      rcases hs with rfl | rfl <;> simp
    unfold parseValue
    rw [if_neg (fun h => ne1 (htrue.1 h)), if_neg (fun h => ne2 (hfalse.1 h))]
    rcases hs with rfl | rfl
    · simp only [List.nil_append] at h0 ⊢
      exact (Verif.Proofs.Options.parseUnsigned_spec false _ h0).1 ⟨e, rfl, h⟩
    · have h0' : 0 ∉ 48 :: 94 :: e := by simpa using h0
      exact (Verif.Proofs.Options.parseUnsigned_spec true _ h0').1 ⟨e, rfl, h⟩

/-- C23, finding: `0^2` denotes 0 but makes the solver divide by zero. -/
theorem C23_zero_power_divides_by_zero :
    Denotes [48, 94, 50] 0 ∧ parseValue [48, 94, 50] = .divisionByZero := by
  refine ⟨?_, by decide⟩
  have hm : Magnitude ([48] ++ 94 :: [50]) (num [48] ^ num [50]) := by
    refine Magnitude.power ?_ ?_ ?_ ?_
    · refine ⟨⟨by simp, by simp⟩, by simp, by decide⟩
    · exact ⟨by simp, by simp⟩
    · intro h; simp [num] at h
    · intro _ h; simp at h
  exact Denotes.positive (n := num [48] ^ num [50]) hm (by decide)

/-- Non-vacuous: `-2^31`, `13e5` and `true` are accepted, `2147483648`, `00` and `2^00` are not. -/
example : parseValue [45,50,94,51,49] = .valid (-2147483648) ∧
    parseValue [49,51,101,53] = .valid 1300000 ∧ parseValue [116,114,117,101] = .valid 1 ∧
    parseValue [50,49,52,55,52,56,51,54,52,56] = .invalid ∧ parseValue [48,48] = .invalid ∧
    parseValue [50,94,48,48] = .invalid := by
  decide +kernel

/-! ### C24 -/

/-- Specification: what a long option argument means. -/
inductive Means (t : List Opt) : CStr → CStr → Int → Prop
  /-- `--name=val` -/
  | assign {o val v} : o ∈ t → Denotes val v → o.low ≤ v → v ≤ o.high →
      Means t ([45, 45] ++ o.name ++ [61] ++ val) o.name v
  /-- `--no-name` -/
  | off {o} : o ∈ t → o.low ≤ 0 → Means t ([45, 45, 110, 111, 45] ++ o.name) o.name 0
  /-- `--name` -/
  | on {o} : o ∈ t → o.low ≤ 1 → 1 ≤ o.high → Means t ([45, 45] ++ o.name) o.name 1

theorem table_name_chars :
    ∀ n ∈ (allOptions Verif.Proofs.Options.someBuild).map (·.2.name),
      61 ∉ n ∧ ¬ [110, 111, 45] <+: n := by
  decide +kernel

theorem table_high_nonneg (b : Build) : ∀ o ∈ table b, 0 ≤ o.high ∧ 61 ∉ o.name ∧
    ¬ [110, 111, 45] <+: o.name := by
  intro o ho
  have h1 : o.name ∈ (table b).map (·.name) := List.mem_map_of_mem ho
  have h2 := (Verif.Proofs.Options.table_sub b).subset h1
  rw [Verif.Proofs.Options.names_build] at h2
  have h3 := table_name_chars _ h2
  refine ⟨?_, h3⟩
  have hr : ∀ (s u : Bool), ∀ e ∈ allOptions ⟨false, false, false, false, s, u⟩, 0 ≤ e.2.high := by
    intro s u; cases s <;> cases u <;> decide +kernel
  simp only [table, List.mem_map, List.mem_filter] at ho
  obtain ⟨e, ⟨he, _⟩, rfl⟩ := ho
  exact hr b.sat b.unsat e he

/-- Arguments `--name` of options whose minimum is larger than one. -/
def BelowMinimum (t : List Opt) (arg : CStr) : Prop :=
  ∃ o ∈ t, 1 < o.low ∧ arg = [45, 45] ++ o.name

/-- Arguments whose value divides by zero (C23). -/
def ZeroPowerArg (arg : CStr) : Prop := ∃ n val, arg = n ++ 61 :: val ∧ 61 ∉ n ∧ ZeroPower val

/-- C24 (partial): except for arguments with a value on which the value parser divides by zero and
for `--name` of an option with minimum above one, an argument is accepted exactly if it has one of
the three documented forms with a known option and a value in range, and then
exactly this option gets exactly this value. -/
theorem C24_argument_exact_partial (b : Build) (arg : CStr) (h0 : 0 ∉ arg)
    (hz : ¬ ZeroPowerArg arg) (hb : ¬ BelowMinimum (table b) arg) (name : CStr) (v : Int) :
    parseArg (table b) arg = .accepted name v ↔ Means (table b) arg name v := by
  have hg := Verif.Proofs.Options.good_table b
  constructor
  · intro h
    match arg, h, h0, hz, hb with
    | 45 :: 45 :: rest, h, h0, hz, hb =>
      have h0r : 0 ∉ rest := fun h => h0 (by simp [h])
      have hsp := (Verif.Proofs.Options.splitEq_spec rest).2
      simp only [parseArg, parseLong] at h
      split at h
      · next n val hs =>
        unfold parseAssign at h
        obtain ⟨h61, rfl⟩ := (hsp.1 _ _).1 hs
        have h0n : 0 ∉ n := fun h => h0r (by simp [h])
        have h0v : 0 ∉ val := fun h => h0r (by simp [h])
        split at h
        · cases h
        · split at h
          · cases h
          · cases h
          · next i hi =>
            obtain ⟨o, ho, hon⟩ := (C21_lookup_finds_exactly b n h0n i).1 hi
            rw [ho] at h
            split at h
            · cases h
            · cases h
            · cases h
            · next w o' hw ho' =>
              cases ho'
              split at h
              · cases h
              · next hran =>
                cases h
                rw [not_or, not_lt, gt_iff_lt, not_lt] at hran
                have hzv : ¬ ZeroPower val := by
                  intro hzp
                  refine hz ⟨45 :: 45 :: name, val, rfl, ?_, hzp⟩
                  simp [h61]
                have := (C23_option_value_exact_partial val h0v hzv v).1 hw
                have hm := Means.assign (List.mem_of_getElem? ho) this hran.1 hran.2
                rw [hon] at hm
                simpa using hm
      · next n hs =>
        obtain ⟨h61, rfl⟩ := (hsp.2 _).1 hs
        split at h
        · next nm =>
          unfold parseOff at h
          have h0n : 0 ∉ nm := fun h => h0r (by simp [h])
          split at h
          · cases h
          · cases h
          · next i hi =>
            obtain ⟨o, ho, hon⟩ := (C21_lookup_finds_exactly b nm h0n i).1 hi
            rw [ho] at h
            dsimp only at h
            split at h
            · cases h
            · next hlow =>
              split at h
              · cases h
              · cases h
                have hm := Means.off (List.mem_of_getElem? ho) (by omega)
                rw [hon] at hm
                simpa using hm
        · next hno =>
          unfold parseOn at h
          split at h
          · cases h
          · cases h
          · next i hi =>
            obtain ⟨o, ho, hon⟩ := (C21_lookup_finds_exactly b rest h0r i).1 hi
            rw [ho] at h
            dsimp only at h
            split at h
            · cases h
            · next hhigh =>
              split at h
              · cases h
              · cases h
                have hlow : o.low ≤ 1 := by
                  by_contra hl
                  exact hb ⟨o, List.mem_of_getElem? ho, by omega, by rw [hon]; rfl⟩
                have hm := Means.on (List.mem_of_getElem? ho) hlow (by omega)
                rw [hon] at hm
                simpa using hm
  · intro h
    cases h with
    | @assign o val v ho hd hl hh =>
      obtain ⟨i, hi, rfl⟩ := List.getElem_of_mem ho
      have hnm := Verif.Proofs.Options.table_names b ho
      have h61 := (table_high_nonneg b _ ho).2.1
      have hs := ((Verif.Proofs.Options.splitEq_spec ((table b)[i].name ++ 61 :: val)).2.1 _ _).2
        ⟨h61, rfl⟩
      have h0v : 0 ∉ val := fun h => h0 (by simp [h])
      have hzv : ¬ ZeroPower val := by
        intro hzp
        refine hz ⟨45 :: 45 :: (table b)[i].name, val, by simp, ?_, hzp⟩
        simp [h61]
      have hv := (C23_option_value_exact_partial val h0v hzv v).2 hd
      simp only [List.cons_append, List.nil_append, List.append_assoc]
      simp only [parseArg, parseLong, hs, parseAssign]
      rw [if_neg (by omega), Verif.Proofs.Options.has_found hg hi]
      simp only [hv, List.getElem?_eq_getElem hi]
      rw [if_neg (by omega)]
    | @off o ho hl =>
      obtain ⟨i, hi, rfl⟩ := List.getElem_of_mem ho
      have hnm := Verif.Proofs.Options.table_names b ho
      have h61 := (table_high_nonneg b _ ho).2.1
      have hs := ((Verif.Proofs.Options.splitEq_spec (110 :: 111 :: 45 :: (table b)[i].name)).2.2
        (110 :: 111 :: 45 :: (table b)[i].name)).2 ⟨by simp [h61], rfl⟩
      simp only [List.cons_append, List.nil_append]
      simp only [parseArg, parseLong, hs, parseOff]
      rw [Verif.Proofs.Options.has_found hg hi]
      simp only [List.getElem?_eq_getElem hi]
      rw [if_neg (by omega), if_neg (by omega)]
    | @on o ho hl hh =>
      obtain ⟨i, hi, rfl⟩ := List.getElem_of_mem ho
      have hnm := Verif.Proofs.Options.table_names b ho
      have h61 := table_high_nonneg b _ ho
      have hs := ((Verif.Proofs.Options.splitEq_spec ((table b)[i].name)).2.2
        ((table b)[i].name)).2 ⟨h61.2.1, rfl⟩
      simp only [List.cons_append, List.nil_append]
      simp only [parseArg, parseLong, hs]
      split
      · next nm hnm2 =>
        exfalso
        apply h61.2.2
        rw [hnm2]
        exact ⟨nm, rfl⟩
      · unfold parseOn
        rw [Verif.Proofs.Options.has_found hg hi]
        simp only [List.getElem?_eq_getElem hi]
        rw [if_neg (by omega), if_neg (by omega)]

/-- C24: after an accepted argument the named option has the value and all others are unchanged;
after a rejected one the caller reports an error. -/
theorem C24_argument_effect (b : Build) (vals : List Int) (hr : InRange (table b) vals)
    (arg : CStr) (h0 : 0 ∉ arg) (hz : ¬ ZeroPowerArg arg) (hb : ¬ BelowMinimum (table b) arg)
    (o : Opt) (ho : o ∈ table b) (v : Int) (hm : Means (table b) arg o.name v) :
    ∃ vals', applyArg (table b) vals arg = some (some vals') ∧
      getOption (table b) vals' o.name = some v ∧
      ∀ o' ∈ table b, o'.name ≠ o.name →
        getOption (table b) vals' o'.name = getOption (table b) vals o'.name := by
  have hacc := (C24_argument_exact_partial b arg h0 hz hb o.name v).2 hm
  obtain ⟨old, vals', h1, _, h3, _, h5⟩ := C22_set_known b vals hr o ho v
  refine ⟨vals', ?_, ?_, h5⟩
  · simp [applyArg, hacc, h1]
  · rw [h3]
    have hname : ∀ o' ∈ table b, o'.name = o.name → o' = o := by
      intro o' ho' hn
      obtain ⟨i, hi, rfl⟩ := List.getElem_of_mem ho
      obtain ⟨j, hj, rfl⟩ := List.getElem_of_mem ho'
      have := Verif.Proofs.Options.name_inj (Verif.Proofs.Options.good_table b) hj hi hn
      subst this; rfl
    have hlv : o.low ≤ v ∧ v ≤ o.high := by
      generalize hnm : o.name = nm at hm
      cases hm with
      | assign ho' _ hl hh => have := hname _ ho' hnm.symm; subst this; exact ⟨hl, hh⟩
      | off ho' hl =>
        have := hname _ ho' hnm.symm; subst this
        exact ⟨hl, (table_high_nonneg b _ ho').1⟩
      | on ho' hl hh => have := hname _ ho' hnm.symm; subst this; exact ⟨hl, hh⟩
    rw [if_neg (by omega), if_neg (by omega)]

/-- C24, finding: `--defraglim` (minimum 50, default 75) should be rejected since 1 is out of range,
but is accepted, and the option is silently set to 50. -/
theorem C24_below_minimum_accepted :
    (applyArg (table defaultBuild) (initOptions defaultBuild)
        [45,45,100,101,102,114,97,103,108,105,109]).map (Option.map fun vals' =>
      getOption (table defaultBuild) vals' [100,101,102,114,97,103,108,105,109]) =
        some (some (some 50)) ∧
    getOption (table defaultBuild) (initOptions defaultBuild)
      [100,101,102,114,97,103,108,105,109] = some 75 ∧
    (⟨[100,101,102,114,97,103,108,105,109], 75, 50, 100⟩ : Opt) ∈ table defaultBuild := by
  decide +kernel

/-- Non-vacuous: `--tier1=7` meets the hypotheses. -/
example : parseArg (table defaultBuild) [45,45,116,105,101,114,49,61,55] =
    .accepted [116,105,101,114,49] 7 := by
  decide +kernel

example : parseArg (table defaultBuild) [45,45,110,111,45,116,105,101,114,49] = .rejected := by
  decide +kernel

/-! ### C25 -/

/-- The bytes of an ASCII string. -/
def bytes (s : String) : CStr := s.toList.map (·.toNat)

/-- Specification: plain CDCL solving without advanced techniques. -/
def plainSpec : List (CStr × Int) :=
  [("bumpreasons", 0), ("chrono", 0), ("compact", 0), ("eagersubsume", 0), ("jumpreasons", 0),
   ("otfs", 0), ("preprocess", 0), ("reorder", 0), ("rephase", 0), ("restartreusetrail", 0),
   ("simplify", 0), ("stable", (2 : Int)), ("tumble", 0)].map fun (n, v) => (bytes n, v)

/-- Specification: the settings each configuration stands for (as printed by
`kissat_configuration_usage`, config.c:24-37, for `basic`, `sat` and `unsat`). -/
def configSettings (name : CStr) : Option (List (CStr × Int)) :=
  if name = bytes "basic" then
    some (plainSpec ++ [(bytes "restart", 0), (bytes "reduce", 0), (bytes "minimize", 0)])
  else if name = bytes "default" then some []
  else if name = bytes "plain" then some plainSpec
  else if name = bytes "sat" then some [(bytes "target", 2), (bytes "restartint", 50)]
  else if name = bytes "unsat" then some [(bytes "stable", 0)]
  else none

theorem spec_eq : plainSpec = plainSettings ∧
    [(bytes "restart", 0), (bytes "reduce", 0), (bytes "minimize", 0)] = basicSettings ∧
    [(bytes "target", 2), (bytes "restartint", 50)] = satSettings ∧
    [(bytes "stable", 0)] = unsatSettings ∧ bytes "basic" = [98,97,115,105,99] ∧
    bytes "default" = [100,101,102,97,117,108,116] ∧ bytes "plain" = [112,108,97,105,110] ∧
    bytes "sat" = [115,97,116] ∧ bytes "unsat" = [117,110,115,97,116] := by
  decide +kernel

theorem setAll_append (t : List Opt) (vals : List Int) (a c : List (CStr × Int)) :
    setAll t vals (a ++ c) = (setAll t vals a).bind fun v => setAll t v c := by
  induction a generalizing vals with
  | nil => rfl
  | cons x a ih =>
    obtain ⟨n, v⟩ := x
    simp only [List.cons_append, setAll]
    cases setOption t vals n v with
    | none => rfl
    | some r => exact ih r.2

theorem setAll_spec (b : Build) (ss : List (CStr × Int)) (vals : List Int)
    (hr : InRange (table b) vals)
    (hk : ∀ s ∈ ss, ∃ o ∈ table b, o.name = s.1 ∧ o.low ≤ s.2 ∧ s.2 ≤ o.high)
    (hd : (ss.map (·.1)).Nodup) :
    ∃ vals', setAll (table b) vals ss = some vals' ∧ InRange (table b) vals' ∧
      (∀ s ∈ ss, getOption (table b) vals' s.1 = some s.2) ∧
      ∀ o ∈ table b, (∀ s ∈ ss, o.name ≠ s.1) →
        getOption (table b) vals' o.name = getOption (table b) vals o.name := by
  induction ss generalizing vals with
  | nil => exact ⟨vals, rfl, hr, by simp, by simp⟩
  | cons s ss ih =>
    obtain ⟨n, v⟩ := s
    obtain ⟨o, ho, hn, hl, hh⟩ := hk (n, v) (by simp)
    simp only at hn hl hh
    obtain ⟨old, v1, h1, _, h3, h4, h5⟩ := C22_set_known b vals hr o ho v
    rw [if_neg (by omega), if_neg (by omega)] at h3
    simp only [List.map_cons, List.nodup_cons] at hd
    obtain ⟨v2, g1, g2, g3, g4⟩ := ih v1 h4 (fun s hs => hk s (by simp [hs])) hd.2
    refine ⟨v2, ?_, g2, ?_, ?_⟩
    · simp only [setAll, ← hn, h1]; exact g1
    · intro s hs
      simp only [List.mem_cons] at hs
      rcases hs with rfl | hs
      · have : ∀ s ∈ ss, o.name ≠ s.1 := by
          intro s hs heq
          apply hd.1
          rw [← hn, heq]
          exact List.mem_map_of_mem hs
        have := g4 o ho this
        rw [hn] at this h3
        rw [this, h3]
      · exact g3 s hs
    · intro o' ho' hne
      rw [g4 o' ho' (fun s hs => hne s (by simp [hs]))]
      apply h5 o' ho'
      rw [hn]
      exact hne (n, v) (by simp)

theorem settings_known : ∀ s ∈ plainSettings ++ basicSettings ++ satSettings ++ unsatSettings,
    ∃ e ∈ allOptions Verif.Proofs.Options.someBuild, e.1 = .always ∧ e.2.name = s.1 ∧
      e.2.low ≤ s.2 ∧ s.2 ≤ e.2.high := by
  decide +kernel

/-- every setting of config.c names an option which exists in all builds, with a value in range -/
theorem settings_known_all (b : Build) :
    ∀ s ∈ plainSettings ++ basicSettings ++ satSettings ++ unsatSettings,
    ∃ o ∈ table b, o.name = s.1 ∧ o.low ≤ s.2 ∧ s.2 ≤ o.high := by
  intro s hs
  have key : ∀ (sa un : Bool), ∀ s ∈ plainSettings ++ basicSettings ++ satSettings ++ unsatSettings,
      ∃ e ∈ allOptions ⟨false, false, false, false, sa, un⟩, e.1 = .always ∧ e.2.name = s.1 ∧
      e.2.low ≤ s.2 ∧ s.2 ≤ e.2.high := by
    intro sa un; cases sa <;> cases un <;> decide +kernel
  obtain ⟨e, he, hk, h⟩ := key b.sat b.unsat s hs
  refine ⟨e.2, ?_, h⟩
  simp only [table, List.mem_map, List.mem_filter]
  exact ⟨e, ⟨he, by rw [hk]; rfl⟩, rfl⟩

/-- C25: `kissat_set_configuration` returns 1 exactly for the documented names (as does
`kissat_has_configuration`), then all options listed for it have the listed values and all other
options keep theirs; for other names it returns 0 and changes nothing. -/
theorem C25_configuration (b : Build) (vals : List Int) (hr : InRange (table b) vals)
    (name : CStr) (h0 : 0 ∉ name) :
    match configSettings name with
    | none => setConfiguration (table b) vals name = some (0, vals) ∧ hasConfiguration name = 0
    | some ss => hasConfiguration name = 1 ∧
        ∃ vals', setConfiguration (table b) vals name = some (1, vals') ∧
          InRange (table b) vals' ∧
          (∀ s ∈ ss, getOption (table b) vals' s.1 = some s.2) ∧
          ∀ o ∈ table b, (∀ s ∈ ss, o.name ≠ s.1) →
            getOption (table b) vals' o.name = getOption (table b) vals o.name := by
  have e1 := Verif.Proofs.Options.strcmp_eq_zero (b := [98,97,115,105,99]) h0 (by decide)
  have e2 := Verif.Proofs.Options.strcmp_eq_zero (b := [100,101,102,97,117,108,116]) h0 (by decide)
  have e3 := Verif.Proofs.Options.strcmp_eq_zero (b := [112,108,97,105,110]) h0 (by decide)
  have e4 := Verif.Proofs.Options.strcmp_eq_zero (b := [115,97,116]) h0 (by decide)
  have e5 := Verif.Proofs.Options.strcmp_eq_zero (b := [117,110,115,97,116]) h0 (by decide)
  have hk := settings_known_all b
  obtain ⟨s1, s2, s3, s4, s5, s6, s7, s8, s9⟩ := spec_eq
  unfold configSettings setConfiguration hasConfiguration
  simp only [e1, e2, e3, e4, e5, s1, s2, s3, s4, s5, s6, s7, s8, s9]
  by_cases h1 : name = [98,97,115,105,99]
  · simp only [h1, if_true, true_and]
    obtain ⟨v, g1, g2⟩ := setAll_spec b (plainSettings ++ basicSettings) vals hr
      (fun s hs => hk s (by simp only [List.mem_append] at hs ⊢; tauto)) (by decide +kernel)
    refine ⟨v, ?_, g2⟩
    rw [setAll_append] at g1
    cases hp : setAll (table b) vals plainSettings with
    | none => rw [hp] at g1; cases g1
    | some v1 => 
      rw [hp] at g1
      simp only [Option.bind_some] at g1
      simp [g1]
  · simp only [h1, if_false]
    by_cases h2 : name = [100,101,102,97,117,108,116]
    · simp only [h2, if_true, true_and]
      exact ⟨vals, rfl, hr, by simp, by simp⟩
    · simp only [h2, if_false]
      by_cases h3 : name = [112,108,97,105,110]
      · simp only [h3, if_true, true_and]
        obtain ⟨v, g1, g2⟩ := setAll_spec b plainSettings vals hr
          (fun s hs => hk s (by simp only [List.mem_append]; tauto)) (by decide +kernel)
        exact ⟨v, by simp [g1], g2⟩
      · simp only [h3, if_false]
        by_cases h4 : name = [115,97,116]
        · simp only [h4, if_true, true_and]
          obtain ⟨v, g1, g2⟩ := setAll_spec b satSettings vals hr
            (fun s hs => hk s (by simp only [List.mem_append]; tauto)) (by decide +kernel)
          exact ⟨v, by simp [g1], g2⟩
        · simp only [h4, if_false]
          by_cases h5 : name = [117,110,115,97,116]
          · simp only [h5, if_true, true_and]
            obtain ⟨v, g1, g2⟩ := setAll_spec b unsatSettings vals hr
              (fun s hs => hk s (by simp only [List.mem_append]; tauto)) (by decide +kernel)
            exact ⟨v, by simp [g1], g2⟩
          · simp only [h5, if_false]
            exact ⟨trivial, trivial⟩

/-- Non-vacuous: `sat` on a fresh solver sets `target` to 2 and `restartint` to 50. -/
example : InRange (table defaultBuild) (initOptions defaultBuild) ∧
    (setConfiguration (table defaultBuild) (initOptions defaultBuild) [115,97,116]).map
      (fun r => (r.1, getOption (table defaultBuild) r.2 [116,97,114,103,101,116],
        getOption (table defaultBuild) r.2 [115,116,97,98,108,101])) =
      some (1, some 2, some 1) := by
  refine ⟨?_, by decide +kernel⟩
  have := C22_always_in_range defaultBuild [] (by simp)
  obtain ⟨v, h1, h2⟩ := this
  cases h1
  exact h2

end Verif.Props
