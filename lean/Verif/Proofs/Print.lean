import Verif.Spec.Print

namespace Verif.Proofs.Print

open Verif.Model
open Verif.Model.Print Verif.Spec.Print

theorem Comments.nil : Comments [] := ⟨[], rfl, fun _ h => absurd h List.not_mem_nil⟩

theorem Comments.append {a b : Text} (ha : Comments a) (hb : Comments b) : Comments (a ++ b) := by
  obtain ⟨x, rfl, hx⟩ := ha
  obtain ⟨y, rfl, hy⟩ := hb
  refine ⟨x ++ y, by rw [List.flatMap_append], fun l hl => ?_⟩
  rcases List.mem_append.1 hl with h | h
  · exact hx l h
  · exact hy l h

theorem Comments.empty : Comments [99, 10] :=
  ⟨[[99]], rfl, fun l hl => by rw [List.mem_singleton.1 hl]; exact ⟨by decide, .inl rfl⟩⟩

theorem Comments.one {r : Text} (h : 10 ∉ r) : Comments (99 :: 32 :: r ++ [10]) :=
  ⟨[99 :: 32 :: r], by simp, fun l hl => by
    rw [List.mem_singleton.1 hl]
    exact ⟨by simp [h], .inr ⟨r, rfl⟩⟩⟩

theorem decimal_digit : ∀ (fuel n : Nat) {acc : Text}, 10 ∉ acc → 10 ∉ decimalDigits fuel n acc
  | 0, _, _, h => h
  | fuel + 1, n, acc, h => by
    have h' : 10 ∉ (48 + n % 10) :: acc := by
      rw [List.mem_cons]
      rintro (e | e)
      · omega
      · exact h e
    unfold decimalDigits
    simp only
    split
    · exact h'
    · exact decimal_digit fuel _ h'

theorem printNat_digit (n : Nat) : 10 ∉ printNat n := decimal_digit 20 n List.not_mem_nil

theorem rowOf_digit : ∀ {vs : List Text}, (∀ v ∈ vs, 10 ∉ v) → 10 ∉ rowOf vs
  | [], _ => List.not_mem_nil
  | v :: vs, h => by
    have h1 := h v List.mem_cons_self
    have h2 := rowOf_digit (vs := vs) fun w hw => h w (List.mem_cons_of_mem _ hw)
    simp [rowOf, h1, h2]

theorem headerOf_digit : ∀ {cols : List (Text × Text)} {pos row : Nat} {rows : Nat → Text},
    (∀ c ∈ cols, 10 ∉ c.1) → (∀ j, 10 ∉ rows j) → ∀ j, 10 ∉ headerOf cols pos row rows j
  | [], _, _, _, _, h => h
  | (name, value) :: rest, pos, row, rows, hc, h => by
    unfold headerOf
    refine headerOf_digit (fun c hm => hc c (List.mem_cons_of_mem _ hm)) fun j => ?_
    by_cases hj : j = row
    · rw [if_pos hj]
      have h1 := hc (name, value) List.mem_cons_self
      have h2 := h row
      intro hm
      rcases List.mem_append.1 hm with hm | hm
      · rcases List.mem_append.1 hm with hm | hm
        · split at hm
          · rcases List.mem_append.1 hm with hm | hm
            · exact h2 hm
            · simp at hm
          · exact h2 hm
        · have := List.eq_of_mem_replicate hm
          omega
      · exact h1 hm
    · rw [if_neg hj]; exact h j

/-- How far the rows of the header may be longer than the line of values, if values have at least one character. -/
def excess : List Nat → Nat → (Nat → Nat) → Nat → Nat
  | [], _, d => d
  | n :: ns, row, d =>
    excess ns (if row + 1 = 3 then 0 else row + 1) fun j =>
      if j = row then max ((n - 1) / 2) (d j + 1 + n - 2) else d j - 2

theorem rowOf_length : ∀ vs : List Text, (rowOf vs).length = vs.length + size vs
  | [] => rfl
  | v :: vs => by
    simp only [rowOf, size, List.length_cons, List.length_append, List.cons_append, rowOf_length vs]
    omega

theorem headerOf_length : ∀ {cols : List (Text × Text)} {pos row : Nat} {rows : Nat → Text} {d : Nat → Nat},
    (∀ c ∈ cols, c.1 ≠ [] ∧ c.2 ≠ []) → (∀ j, (rows j).length ≤ pos + d j) →
    ∀ j, (headerOf cols pos row rows j).length ≤
      pos + (rowOf (cols.map (·.2))).length + excess (cols.map (·.1.length)) row d j
  | [], pos, row, rows, d, _, h, j => by simpa [headerOf, rowOf, excess] using h j
  | (name, value) :: rest, pos, row, rows, d, hc, h, j => by
    obtain ⟨h1, h2⟩ := hc (name, value) List.mem_cons_self
    have h1 : 0 < name.length := List.length_pos_iff.2 h1
    have h2 : 0 < value.length := List.length_pos_iff.2 h2
    unfold headerOf
    simp only [List.map_cons]
    rw [rowOf, excess]
    have key := headerOf_length (cols := rest) (pos := pos + 1 + value.length)
      (row := if row + 1 = 3 then 0 else row + 1)
      (rows := fun j => if j = row then
        (if rows row ≠ [] then rows row ++ [32] else rows row) ++
          List.replicate ((if pos + 1 + value.length - pos - 1 < name.length then
            pos + 1 + value.length + (name.length - (pos + 1 + value.length - pos - 1)) / 2
            else pos + 1 + value.length) -
            ((if rows row ≠ [] then rows row ++ [32] else rows row).length + name.length)) 32 ++ name
        else rows j)
      (d := fun j => if j = row then max ((name.length - 1) / 2) (d j + 1 + name.length - 2) else d j - 2)
      (fun c hm => hc c (List.mem_cons_of_mem _ hm)) (fun k => ?_) j
    · refine Nat.le_trans key ?_
      simp only [List.length_cons, List.length_append, List.cons_append]
      omega
    · by_cases hk : k = row
      · subst hk
        have hr := h k
        rw [if_pos rfl, if_pos rfl]
        have hcur : (if rows k ≠ [] then rows k ++ [32] else rows k).length ≤ pos + d k + 1 := by
          split
          · simp only [List.length_append, List.length_singleton]; omega
          · omega
        generalize (if rows k ≠ [] then rows k ++ [32] else rows k) = cur at hcur
        simp only [List.length_append, List.length_replicate]
        split <;> omega
      · rw [if_neg hk, if_neg hk]
        have := h k
        omega

theorem print_quiet {s : State} (h : s.level < 0) (c : Call) : s.print c = some ([], s) := by
  cases c <;> simp only [State.print]
  · rw [State.warning, if_pos h]
  · rw [State.signal, if_pos h]
  · rw [if_pos h]
  · rw [if_neg (by omega)]
  · rw [if_pos (by omega)]
  · rw [if_pos (by omega)]
  · rw [if_pos (by omega)]
  · rw [State.section, if_pos h]
  · rw [State.phase, if_pos (by omega)]
  · rw [State.report, if_pos h]

theorem message_comments {s : State} (ht : s.terminal = false) (color : Text) {text : Text} (h : 10 ∉ text) :
    Comments (s.printMessage color text) := by
  have e : s.printMessage color text = 99 :: 32 :: text ++ [10] := by simp [State.printMessage, State.color, ht]
  rw [e]; exact Comments.one h

theorem header_comments {s : State} (ht : s.terminal = false) {row : Text} (h : 10 ∉ row) :
    Comments (s.headerLine row) := by
  have e : s.headerLine row = 99 :: 32 :: (32 :: row) ++ [10] := by simp [State.headerLine, State.color, ht]
  rw [e]; exact Comments.one (by simp [h])

theorem names_digit : ∀ n ∈ names, 10 ∉ n := by decide

theorem report_comments {s s' : State} {v : Bool} {type : Nat} {values : List Text} {out : Text}
    (ht : s.terminal = false) (h1 : type ≠ 10) (h2 : ∀ v ∈ values, 10 ∉ v)
    (h : s.report v type (names.zip values) = some (out, s')) : Comments out ∧ s'.terminal = false := by
  unfold State.report at h
  by_cases hq : s.level < 0
  · rw [if_pos hq] at h; cases h; exact ⟨Comments.nil, ht⟩
  rw [if_neg hq] at h
  by_cases hv : v = true ∧ s.level < 2
  · rw [if_pos hv] at h; cases h; exact ⟨Comments.nil, ht⟩
  rw [if_neg hv] at h
  simp only at h
  split at h
  · cases h
  obtain ⟨header, e1, e2⟩ := Option.map_eq_some_iff.1 h
  cases e2
  have hh : Comments header := by
    split at e1
    · split at e1
      · cases e1
      · cases e1
        have hd := headerOf_digit (cols := names.zip values) (pos := 0) (row := 0) (rows := fun _ => [])
          (fun c hc => names_digit c.1 (List.of_mem_zip hc).1) (fun _ => List.not_mem_nil)
        refine Comments.append (Comments.append (Comments.append (Comments.append ?_ (header_comments ht (hd 0)))
          (header_comments ht (hd 1))) (header_comments ht (hd 2))) Comments.empty
        split
        · exact Comments.empty
        · exact Comments.nil
    · cases e1; exact Comments.nil
  have hrow : 10 ∉ rowOf ((names.zip values).map (·.2)) := rowOf_digit fun w hw => by
    obtain ⟨c, hc, rfl⟩ := List.mem_map.1 hw
    exact h2 c.2 (List.of_mem_zip hc).2
  refine ⟨?_, ht⟩
  have hl := Comments.one (r := type :: rowOf ((names.zip values).map (·.2))) (by
    rw [List.mem_cons]
    rintro (e | e)
    · exact h1 e.symm
    · exact hrow e)
  have := Comments.append hh hl
  simpa [State.color, ht] using this

theorem print_comments {s s' : State} {c : Call} {out : Text} (ht : s.terminal = false) (hc : OneLine c)
    (h : s.print c = some (out, s')) : Comments out ∧ s'.terminal = false := by
  cases c with
  | warning text =>
    cases h
    refine ⟨?_, ht⟩
    unfold State.warning
    split
    · exact Comments.nil
    · have := Comments.one (r := [119, 97, 114, 110, 105, 110, 103, 58, 32] ++ text) (by
        have : 10 ∉ text := hc
        simp [this])
      simpa [State.color, ht] using this
  | signal text =>
    cases h
    refine ⟨?_, ht⟩
    unfold State.signal
    split
    · exact Comments.nil
    · have := Comments.one (r := text) hc
      simpa [State.color, ht] using this
  | message text =>
    cases h
    refine ⟨?_, ht⟩
    split
    · exact Comments.nil
    · exact message_comments ht _ hc
  | line =>
    cases h
    refine ⟨?_, ht⟩
    split
    · exact Comments.empty
    · exact Comments.nil
  | verbose text =>
    cases h
    refine ⟨?_, ht⟩
    split
    · exact Comments.nil
    · exact message_comments ht _ hc
  | veryVerbose text =>
    cases h
    refine ⟨?_, ht⟩
    split
    · exact Comments.nil
    · exact message_comments ht _ hc
  | extremelyVerbose text =>
    cases h
    refine ⟨?_, ht⟩
    split
    · exact Comments.nil
    · exact message_comments ht _ hc
  | «section» name =>
    simp only [State.print, State.section] at h
    split at h
    · cases h; exact ⟨Comments.nil, ht⟩
    · cases h
      refine ⟨?_, ht⟩
      have hn : 10 ∉ name := hc
      have h1 := Comments.one (r := [45, 45, 45, 45, 32, 91, 32] ++ name ++ [32, 93, 32] ++
        List.replicate (66 - name.length) 45) (by simp [hn])
      have h2 : Comments (if s.sectioned then [99, 10] else []) := by
        split
        · exact Comments.empty
        · exact Comments.nil
      have := Comments.append (Comments.append h2 h1) Comments.empty
      simpa [State.color, ht] using this
  | phase name count text =>
    cases h
    refine ⟨?_, ht⟩
    obtain ⟨hn, htx⟩ : 10 ∉ name ∧ 10 ∉ text := hc
    unfold State.phase
    split
    · exact Comments.nil
    · have hd := printNat_digit count
      have := Comments.one (r := [91] ++ name ++ (if count ≠ 2 ^ 64 - 1 then 45 :: printNat count else []) ++
        [93, 32] ++ text) (by split <;> simp [hn, htx, hd])
      simpa [State.color, ht] using this
  | report v type values => exact report_comments ht hc.1 hc.2 h

theorem zip_snd {a b : List Text} (h : b.length ≤ a.length) : (a.zip b).map (·.2) = b := by
  rw [List.map_snd_zip h]

theorem report_fits {s : State} {v : Bool} {type : Nat} {values : List Text} (h1 : values.length = 19)
    (h2 : ∀ v ∈ values, v ≠ []) (h3 : size values ≤ 91) :
    ∃ out s', s.report v type (names.zip values) = some (out, s') ∧ s'.level = s.level := by
  have hn : names.length = 19 := rfl
  have hs : (names.zip values).map (·.2) = values := zip_snd (by omega)
  have hf : (names.zip values).map (·.1.length) = names.map List.length := by
    have : (names.zip values).map (·.1) = names := by rw [List.map_fst_zip (by omega)]
    conv => rhs; rw [← this]
    rw [List.map_map]; rfl
  have hlen := headerOf_length (cols := names.zip values) (pos := 0) (row := 0) (rows := fun _ => [])
    (d := fun _ => 0)
    (fun c hc => ⟨by
      have : ∀ n ∈ names, n ≠ [] := by decide
      exact this c.1 (List.of_mem_zip hc).1, h2 c.2 (List.of_mem_zip hc).2⟩) (fun _ => Nat.zero_le _)
  rw [hs, rowOf_length, hf] at hlen
  have e0 : excess (names.map List.length) 0 (fun _ => 0) 0 = 17 := by decide
  have e1 : excess (names.map List.length) 0 (fun _ => 0) 1 = 14 := by decide
  have e2 : excess (names.map List.length) 0 (fun _ => 0) 2 = 12 := by decide
  have l0 := hlen 0
  have l1 := hlen 1
  have l2 := hlen 2
  rw [e0] at l0; rw [e1] at l1; rw [e2] at l2
  unfold State.report
  by_cases hq : s.level < 0
  · rw [if_pos hq]; exact ⟨_, _, rfl, rfl⟩
  rw [if_neg hq]
  by_cases hv : v = true ∧ s.level < 2
  · rw [if_pos hv]; exact ⟨_, _, rfl, rfl⟩
  rw [if_neg hv]
  simp only
  rw [hs, rowOf_length, if_neg (by omega)]
  by_cases hr : s.reports % 20 = 0
  · have hno : ¬ (128 < (headerOf (names.zip values) 0 0 (fun _ => []) 0).length + 1 ∨
        128 < (headerOf (names.zip values) 0 0 (fun _ => []) 1).length + 1 ∨
        128 < (headerOf (names.zip values) 0 0 (fun _ => []) 2).length + 1) := by omega
    rw [if_pos hr, if_neg hno]
    exact ⟨_, _, rfl, rfl⟩
  · rw [if_neg hr]
    exact ⟨_, _, rfl, rfl⟩

theorem print_fits {s : State} {c : Call} (h : Fits c) : ∃ out s', s.print c = some (out, s') := by
  cases c with
  | report v type values =>
    obtain ⟨out, s', e, _⟩ := report_fits (s := s) (v := v) (type := type) h.1 h.2.1 h.2.2
    exact ⟨out, s', e⟩
  | _ => exact ⟨_, _, rfl⟩

end Verif.Proofs.Print
