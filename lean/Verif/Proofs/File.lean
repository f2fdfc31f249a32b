import Verif.Model.File

namespace Verif.Proofs.File

open Verif.Spec Verif.Model.File

theorem hasSuffixLoop_iff {str suffix : List Nat} : ∀ p q, p ≤ str.length → q ≤ suffix.length →
    (hasSuffixLoop str suffix p q = true ↔ suffix.take q <:+ str.take p) := by
  intro p
  induction p with
  | zero =>
    intro q _ hq
    unfold hasSuffixLoop
    rw [List.take_zero, List.suffix_nil, List.take_eq_nil_iff, beq_iff_eq]
    constructor
    · exact .inl
    · rintro (h | rfl)
      · exact h
      · simpa using hq
  | succ p ih =>
    intro q hp hq
    cases q with
    | zero =>
      unfold hasSuffixLoop
      simp
    | succ q =>
      unfold hasSuffixLoop
      have e1 : str.take (p + 1) = str.take p ++ [str.getD p 0] := by
        rw [List.take_add_one, List.getElem?_eq_getElem (by omega), List.getD_eq_getElem?_getD, List.getElem?_eq_getElem (by omega)]
        rfl
      have e2 : suffix.take (q + 1) = suffix.take q ++ [suffix.getD q 0] := by
        rw [List.take_add_one, List.getElem?_eq_getElem (by omega), List.getD_eq_getElem?_getD, List.getElem?_eq_getElem (by omega)]
        rfl
      rw [e1, e2]
      by_cases h : str.getD p 0 = suffix.getD q 0
      · rw [if_neg (fun h' => h' h), ih q (by omega) (by omega), h]
        constructor
        · rintro ⟨t, ht⟩
          exact ⟨t, by rw [← List.append_assoc, ht]⟩
        · rintro ⟨t, ht⟩
          rw [← List.append_assoc] at ht
          exact ⟨t, (List.append_inj_left' ht rfl)⟩
      · rw [if_pos h]
        constructor
        · intro h'; cases h'
        · rintro ⟨t, ht⟩
          rw [← List.append_assoc] at ht
          have := List.append_inj_right' ht rfl
          exact absurd (by simpa using this.symm) h

theorem hasSuffix_iff {str suffix : List Nat} : hasSuffix str suffix = true ↔ suffix <:+ str := by
  unfold hasSuffix
  rw [hasSuffixLoop_iff _ _ (Nat.le_refl _) (Nat.le_refl _), List.take_length, List.take_length]

theorem matchLoop_iff : ∀ sig content, matchLoop sig content = true ↔ sig <+: content
  | [], _ => by simp [matchLoop]
  | s :: sig, [] => by simp [matchLoop]
  | s :: sig, c :: content => by
    unfold matchLoop
    by_cases h : c = s
    · rw [if_pos h, matchLoop_iff, List.cons_prefix_cons]
      exact ⟨fun h' => ⟨h.symm, h'⟩, fun h' => h'.2⟩
    · rw [if_neg h, List.cons_prefix_cons]
      exact ⟨fun h' => (by cases h'), fun h' => absurd h'.1.symm h⟩

theorem matchSignature_iff {w : System} {path sig : List Nat} :
    matchSignature w path sig = true ↔ ∃ content, w.content path = some content ∧ sig <+: content := by
  unfold matchSignature
  cases h : w.content path with
  | none => simp
  | some c => simp [matchLoop_iff]

theorem sprintf_plain : ∀ (s fmt path : List Nat), 37 ∉ s → sprintf (s ++ fmt) path = s ++ sprintf fmt path
  | [], _, _, _ => rfl
  | c :: s, fmt, path, h => by
    have hc : c ≠ 37 := fun e => h (by rw [e]; exact List.mem_cons_self)
    show sprintf (c :: (s ++ fmt)) path = c :: (s ++ sprintf fmt path)
    rw [sprintf, sprintf_plain s fmt path (fun h' => h (List.mem_cons_of_mem _ h'))]
    intro _ e _
    exact hc e

theorem sprintf_format (before after path : List Nat) (h1 : 37 ∉ before) (h2 : 37 ∉ after) :
    sprintf (before ++ 37 :: 115 :: after) path = before ++ path ++ after := by
  rw [sprintf_plain _ _ _ h1, sprintf]
  have := sprintf_plain after [] path h2
  rw [List.append_nil] at this
  rw [this, sprintf, List.append_nil, List.append_assoc]

/-- The formats of the specification in the order of the code. -/
theorem pipes_eq : pipes = formats.map fun f =>
    (f.suffix, (f.program ++ f.before) ++ 37 :: 115 :: f.after, f.signature) := by decide

theorem formats_fine : ∀ f ∈ formats, 37 ∉ f.program ++ f.before ∧ 37 ∉ f.after ∧ 32 ∉ f.program ∧ f.before.head? = some 32 := by
  decide

theorem findLoop_iff {w : System} {name : List Nat} : ∀ (d : List Nat) (dirs : List (List Nat)) (dir : List Nat),
    58 ∉ d → (∀ e ∈ dirs, 58 ∉ e) → (findLoop w name dir ([58].intercalate (d :: dirs)) = true ↔
      w.readable (dir ++ d ++ 47 :: name) = true ∨ ∃ e ∈ dirs, w.readable (e ++ 47 :: name) = true)
  | [], [], dir, _, _ => by simp [findLoop, List.intercalate]
  | [], e :: dirs, dir, _, hd => by
    have : [58].intercalate ([] :: e :: dirs) = 58 :: [58].intercalate (e :: dirs) := by
      simp [List.intercalate]
    rw [this, findLoop, if_neg (by simp)]
    have ih := findLoop_iff (w := w) (name := name) e dirs [] (hd e (by simp)) (fun x hx => hd x (by simp [hx]))
    rw [List.append_nil]
    by_cases h : w.readable (dir ++ 47 :: name) = true
    · rw [if_pos h]; simp [h]
    · rw [if_neg h, ih]; simp [h]
  | c :: d, dirs, dir, hc, hd => by
    have : [58].intercalate ((c :: d) :: dirs) = c :: [58].intercalate (d :: dirs) := by
      cases dirs <;> simp [List.intercalate]
    have hne : c ≠ 58 := fun e => hc (by rw [e]; exact List.mem_cons_self)
    rw [this, findLoop, if_pos hne, findLoop_iff d dirs (dir ++ [c]) (fun h => hc (List.mem_cons_of_mem _ h)) hd]
    simp

/-- `kissat_find_executable` looks into the directories of the search path. -/
theorem findExecutable_iff {w : System} {name : List Nat} {dirs : List (List Nat)} (h : SearchPath w.path dirs) :
    findExecutable w name = true ↔ ∃ d ∈ dirs, w.readable (d ++ 47 :: name) = true := by
  unfold findExecutable
  obtain ⟨rfl, h1⟩ | ⟨env, h1, rfl, h2, h3⟩ := h
  · rw [h1]; simp
  · rw [h1]
    cases dirs with
    | nil => exact absurd rfl h2
    | cons d dirs =>
      show findLoop w name [] _ = true ↔ _
      rw [findLoop_iff d dirs [] (h3 d (by simp)) (fun x hx => h3 x (by simp [hx]))]
      simp

/-- Reading through a pipe for one format. -/
def Works (w : System) (path : List Nat) (f : Format) : Prop :=
  (w.readable path = true ∧ ∃ content, w.content path = some content ∧ f.Matches path content) ∧
    findExecutable w f.program = true ∧ w.popen (f.command path) = true

theorem readPipe_eq {w : System} {path : List Nat} {f : Format} (hf : f ∈ formats) (hs : f.suffix <:+ path) :
    readPipe w ((f.program ++ f.before) ++ 37 :: 115 :: f.after) f.signature path = .failed ∧ ¬ Works w path f ∨
      readPipe w ((f.program ++ f.before) ++ 37 :: 115 :: f.after) f.signature path = .pipe (f.command path) ∧
        Works w path f := by
  obtain ⟨h1, h2, h3, h4⟩ := formats_fine f hf
  unfold readPipe
  by_cases hr : w.readable path = true
  · rw [if_neg (by simp [hr])]
    by_cases hm : matchSignature w path f.signature = true
    · rw [if_neg (by simp [hm])]
      unfold openPipe
      have hname : List.takeWhile (fun x => decide (x ≠ 32)) ((f.program ++ f.before) ++ 37 :: 115 :: f.after) = f.program := by
        rw [List.append_assoc, List.takeWhile_append_of_pos (by
          intro x hx
          simp only [decide_eq_true_eq]
          exact fun e => h3 (e ▸ hx))]
        cases hb : f.before with
        | nil => rw [hb] at h4; cases h4
        | cons b rest =>
          rw [hb] at h4
          have : b = 32 := Option.some.inj h4
          subst this
          simp
      dsimp only
      rw [hname, sprintf_format _ _ _ h1 h2]
      by_cases hx : findExecutable w f.program = true
      · rw [if_neg (by simp [hx]), if_neg (by simp only [List.length_append, List.length_cons]; omega)]
        by_cases hp : w.popen (f.program ++ f.before ++ path ++ f.after) = true
        · rw [if_pos hp]
          obtain ⟨c, hc, hc'⟩ := matchSignature_iff.1 hm
          exact .inr ⟨rfl, ⟨hr, c, hc, hs, hc'⟩, hx, hp⟩
        · rw [if_neg hp]
          exact .inl ⟨rfl, fun h => hp h.2.2⟩
      · rw [if_pos (by simp [hx])]
        exact .inl ⟨rfl, fun h => hx h.2.1⟩
    · rw [if_pos (by simp [hm])]
      refine .inl ⟨rfl, fun h => hm ?_⟩
      obtain ⟨⟨-, c, hc, -, hc'⟩, -⟩ := h
      exact matchSignature_iff.2 ⟨c, hc, hc'⟩
  · rw [if_pos (by simp [hr])]
    exact .inl ⟨rfl, fun h => hr h.1.1⟩

theorem openLoop_cases {w : System} {path : List Nat} : ∀ (fs : List Format), (∀ f ∈ fs, f ∈ formats) →
    (∃ f ∈ fs, Works w path f ∧ openLoop w path (fs.map fun f =>
      (f.suffix, (f.program ++ f.before) ++ 37 :: 115 :: f.after, f.signature)) = .pipe (f.command path)) ∨
    (∀ f ∈ fs, ¬ Works w path f) ∧ openLoop w path (fs.map fun f =>
      (f.suffix, (f.program ++ f.before) ++ 37 :: 115 :: f.after, f.signature)) =
        if (w.content path).isSome then .plain else .failed
  | [], _ => .inr ⟨fun f hf => (by cases hf), rfl⟩
  | f :: fs, hfs => by
    have ih := openLoop_cases (w := w) (path := path) fs (fun g hg => hfs g (List.mem_cons_of_mem _ hg))
    have key : ¬ Works w path f → openLoop w path ((f :: fs).map fun f =>
        (f.suffix, (f.program ++ f.before) ++ 37 :: 115 :: f.after, f.signature)) = openLoop w path (fs.map fun f =>
        (f.suffix, (f.program ++ f.before) ++ 37 :: 115 :: f.after, f.signature)) := by
      intro hn
      rw [List.map_cons, openLoop]
      by_cases hs : hasSuffix path f.suffix = true
      · rw [if_pos hs]
        rcases readPipe_eq (w := w) (hfs f List.mem_cons_self) (hasSuffix_iff.1 hs) with ⟨h1, -⟩ | ⟨-, h2⟩
        · rw [h1]
        · exact absurd h2 hn
      · rw [if_neg hs]
    by_cases hw : Works w path f
    · refine .inl ⟨f, List.mem_cons_self, hw, ?_⟩
      obtain ⟨⟨-, c, hc, hs, -⟩, -⟩ := id hw
      rw [List.map_cons, openLoop, if_pos (hasSuffix_iff.2 hs)]
      rcases readPipe_eq (w := w) (hfs f List.mem_cons_self) hs with ⟨-, h2⟩ | ⟨h1, -⟩
      · exact absurd hw h2
      · rw [h1]
    · rw [key hw]
      rcases ih with ⟨g, hg, h1, h2⟩ | ⟨h1, h2⟩
      · exact .inl ⟨g, List.mem_cons_of_mem _ hg, h1, h2⟩
      · refine .inr ⟨fun g hg => ?_, h2⟩
        rcases List.mem_cons.1 hg with rfl | hg
        · exact hw
        · exact h1 g hg

/-- Two formats never have a path in common. -/
theorem suffix_unique {path : List Nat} : ∀ f ∈ formats, ∀ g ∈ formats, f.suffix <:+ path → g.suffix <:+ path → f = g := by
  intro f hf g hg h1 h2
  have h : f.suffix.reverse <+: path.reverse := List.reverse_prefix.2 h1
  have h' : g.suffix.reverse <+: path.reverse := List.reverse_prefix.2 h2
  rcases Nat.le_total f.suffix.length g.suffix.length with hl | hl
  · have hp : f.suffix.reverse <+: g.suffix.reverse := List.prefix_of_prefix_length_le h h' (by simpa using hl)
    have : ∀ f ∈ formats, ∀ g ∈ formats, f.suffix.reverse.isPrefixOf g.suffix.reverse = true → f = g := by decide
    exact this f hf g hg (List.isPrefixOf_iff_prefix.2 hp)
  · have hp : g.suffix.reverse <+: f.suffix.reverse := List.prefix_of_prefix_length_le h' h (by simpa using hl)
    have : ∀ f ∈ formats, ∀ g ∈ formats, g.suffix.reverse.isPrefixOf f.suffix.reverse = true → f = g := by decide
    exact this f hf g hg (List.isPrefixOf_iff_prefix.2 hp)

end Verif.Proofs.File
