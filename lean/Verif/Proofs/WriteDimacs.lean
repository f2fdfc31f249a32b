import Verif.Model.WriteDimacs
import Verif.Proofs.Witness
import Verif.Proofs.RunMore

/-!
# Written formulas
-/

namespace Verif.Core

open Verif.Spec Verif.Model
open Verif.Proofs.Witness (printNat_spec printInt_numeral)
open Verif.Spec.Dimacs (Body Numeral Separator LineEnd Header Prolog Digits Mode maxVar Legal)

/-- All clauses written. -/
def Solver.written (s : Solver) : List (List Nat) := s.writtenBinaries ++ s.writtenLarge

/-- Literals which can be printed. -/
def Printable (c : List Int) : Prop := ∀ e ∈ c, e.natAbs ≤ maxVar

theorem body_large {m : Mode} : ∀ {c : List Int} {w : List Nat} {ls : List Int}, Printable c → Body m w ls →
    Body m (largeText c ++ w) (c ++ 0 :: ls)
  | [], w, ls, _, h => by
    have h0 : Numeral (printInt 0) 0 := printInt_numeral (by decide)
    exact Body.lit (n := [48]) (s := [10]) (l := 0) h0 (.inr (.inr (.inl (.inl rfl)))) h
  | e :: c, w, ls, hc, h => by
    have ih := body_large (m := m) (c := c) (fun x hx => hc x (by simp [hx])) h
    have := Body.lit (printInt_numeral (hc e (by simp))) (.inl rfl : Separator [32]) ih
    unfold largeText at this ⊢
    simpa using this

theorem binaryText_eq (x y : Int) : binaryText x y = largeText [x, y] := by
  unfold binaryText largeText; simp

theorem body_all {m : Mode} : ∀ {cs : List (List Int)}, (∀ c ∈ cs, Printable c) →
    Body m (cs.map largeText).flatten (cs.flatMap fun c => c ++ [0])
  | [], _ => .nil
  | c :: cs, h => by
    have ih := body_all (m := m) (cs := cs) fun x hx => h x (by simp [hx])
    have := body_large (h c (by simp)) ih
    simpa using this

theorem writtenBinaries_two {s : Solver} {c : List Nat} (h : c ∈ s.writtenBinaries) : ∃ x y, c = [x, y] := by
  obtain ⟨i, -, h⟩ := List.mem_flatMap.1 h
  obtain ⟨w, -, h⟩ := List.mem_filterMap.1 h
  cases w with
  | large => cases h
  | binary o =>
    dsimp only at h
    split at h
    · cases h
    · exact ⟨i, o, (Option.some.inj h).symm⟩

theorem writeDimacs_eq (s : Solver) (k : Nat) (x : Nat → Int) (n : Nat) : s.writeDimacs k x n =
    ([112, 32] ++ [] ++ [99, 110, 102, 32] ++ [] ++ printNat (k - 1) ++ [32] ++ [] ++ printNat n ++ [] ++ [10]) ++
    ((s.written.map fun c => c.map x).map largeText).flatten := by
  unfold Solver.writeDimacs Solver.written
  have h1 : (if k ≠ 0 then k - 1 else k) = k - 1 := by
    split <;> omega
  have h2 : (s.writtenBinaries.map fun c => binaryText (x (c.getD 0 0)) (x (c.getD 1 0))) =
      (s.writtenBinaries.map fun c => c.map x).map largeText := by
    rw [List.map_map]
    refine List.map_congr_left fun c hc => ?_
    obtain ⟨_, _, rfl⟩ := writtenBinaries_two hc
    exact binaryText_eq _ _
  simp only [h1, h2, List.map_append, List.flatten_append, List.map_map, List.append_assoc, List.nil_append]
  rfl

theorem clausesOf_written : ∀ (cs : List (List Int)), (∀ c ∈ cs, ∀ e ∈ c, e ≠ 0) →
    clausesOf (cs.flatMap fun c => c ++ [0]) = cs := by
  have one : ∀ (c : List Int) (p : List (List Int) × List Int), (∀ e ∈ c, e ≠ 0) →
      c.foldl (fun p e => if e = 0 then (p.1 ++ [p.2], []) else (p.1, p.2 ++ [e])) p = (p.1, p.2 ++ c) := by
    intro c
    induction c with
    | nil => intro p _; simp
    | cons e c ih =>
      intro p h
      rw [List.foldl_cons, if_neg (h e (by simp)), ih _ fun x hx => h x (by simp [hx])]
      simp
  have all : ∀ (cs : List (List Int)) (d : List (List Int)), (∀ c ∈ cs, ∀ e ∈ c, e ≠ 0) →
      (cs.flatMap fun c => c ++ [0]).foldl
        (fun p e => if e = 0 then (p.1 ++ [p.2], []) else (p.1, p.2 ++ [e])) (d, []) = (d ++ cs, []) := by
    intro cs
    induction cs with
    | nil => intro d _; simp
    | cons c cs ih =>
      intro d h
      rw [List.flatMap_cons, List.foldl_append, List.foldl_append, one c _ (h c (by simp)), List.foldl_cons, if_pos rfl,
        List.foldl_nil, ih _ fun x hx => h x (by simp [hx])]
      simp
  intro cs h
  unfold clausesOf scan
  rw [all cs [] h]
  simp

theorem count_written : ∀ (cs : List (List Int)), (∀ c ∈ cs, ∀ e ∈ c, e ≠ 0) →
    (cs.flatMap fun c => c ++ [0]).count 0 = cs.length
  | [], _ => rfl
  | c :: cs, h => by
    rw [List.flatMap_cons, List.count_append, List.count_append, count_written cs fun x hx => h x (by simp [hx]),
      List.count_eq_zero.2 fun hm => h c (by simp) 0 hm rfl]
    simp
    omega

theorem terminated_written (cs : List (List Int)) : Dimacs.Terminated (cs.flatMap fun c => c ++ [0]) := by
  rcases List.eq_nil_or_concat cs with rfl | ⟨ds, d, rfl⟩
  · exact .inl rfl
  · right; simp

/-- The text is a legal file with these clauses. -/
theorem writeDimacs_legal {s : Solver} {k : Nat} {x : Nat → Int} {n : Nat} {m : Mode} (hmax : k ≤ 2 ^ 30) (hn : n < 2 ^ 64)
    (hc : ∀ c ∈ s.written, ∀ l ∈ c, x l ≠ 0 ∧ (x l).natAbs ≤ k - 1)
    (hcount : n = s.written.length) :
    ∃ ls, Legal m (s.writeDimacs k x n) (k - 1) n ls ∧
      clausesOf ls = s.written.map fun c => c.map x := by
  have hne : ∀ c ∈ s.written.map fun c => c.map x, ∀ e ∈ c, e ≠ 0 := by
    intro c hc' e he
    obtain ⟨d, hd, rfl⟩ := List.mem_map.1 hc'
    obtain ⟨l, hl, rfl⟩ := List.mem_map.1 he
    exact (hc d hd l hl).1
  have hle : ∀ c ∈ s.written.map fun c => c.map x, ∀ e ∈ c, e.natAbs ≤ k - 1 := by
    intro c hc' e he
    obtain ⟨d, hd, rfl⟩ := List.mem_map.1 hc'
    obtain ⟨l, hl, rfl⟩ := List.mem_map.1 he
    exact (hc d hd l hl).2
  have hmv : k - 1 ≤ maxVar := by unfold maxVar; omega
  obtain ⟨p1, p2, -, -⟩ := printNat_spec (n := k - 1) (by omega)
  obtain ⟨q1, q2, -, -⟩ := printNat_spec (n := n) hn
  refine ⟨_, ⟨[], _, _, by rw [List.nil_append]; exact writeDimacs_eq s k x n, .nil, ?_,
    body_all fun c hc' e he => Nat.le_trans (hle c hc' e he) hmv, terminated_written _, .inr ⟨?_, ?_⟩⟩,
    clausesOf_written _ hne⟩
  · exact ⟨[], [], printNat (k - 1), [], printNat n, [], [10], .inl rfl, .inl rfl, .inl rfl, .inl rfl,
      .inl rfl, p1, p2, hmv, q1, q2, hn, rfl⟩
  · intro l hl
    obtain ⟨c, hc', hl⟩ := List.mem_flatMap.1 hl
    rcases List.mem_append.1 hl with hl | hl
    · exact hle c hc' l hl
    · rw [List.mem_singleton.1 hl]; exact Nat.zero_le _
  · rw [count_written _ hne, hcount, List.length_map]

/-! ## Meaning -/

theorem live_mem {s : Solver} {r : Nat} (h : s.Live r) : s.clause r ∈ s.arena := by
  have h' : (s.clause r).garbage = false := h
  unfold Solver.clause at h' ⊢
  rw [List.getD_eq_getElem?_getD] at h' ⊢
  cases hg : s.arena[r]? with
  | none => rw [hg] at h'; cases h'
  | some c => exact List.mem_of_getElem? hg

theorem mem_written {s : Solver} {c : List Nat} (h : c ∈ s.written) : s.irr c := by
  rcases List.mem_append.1 h with h | h
  · obtain ⟨i, -, h⟩ := List.mem_flatMap.1 h
    obtain ⟨w, hw, h⟩ := List.mem_filterMap.1 h
    cases w with
    | large => cases h
    | binary o =>
      dsimp only at h
      split at h
      · cases h
      · exact .inr (.inl ⟨i, o, hw, (Option.some.inj h).symm⟩)
  · obtain ⟨c, hc, rfl⟩ := List.mem_map.1 h
    obtain ⟨hc, hp⟩ := List.mem_filter.1 hc
    obtain ⟨r, hr, he⟩ := List.mem_iff_getElem.1 hc
    have hcl : s.clause r = c := by
      unfold Solver.clause
      rw [List.getD_eq_getElem?_getD, List.getElem?_eq_getElem hr, he]; rfl
    have hp' : c.garbage = false ∧ c.redundant = false := by simpa using hp
    exact .inl ⟨r, by unfold Solver.Live; rw [hcl]; exact hp'.1, by rw [hcl]; exact hp'.2, by rw [hcl]⟩

theorem written_sat {s : Solver} (hc : ClauseInv s) {σ : Assignment} (h : ∀ c ∈ s.written, SatClause σ c)
    (hu : ∀ l, s.values l = 1 → s.lev l = 0 → litTrue σ l) : SatFormula σ s.irr := by
  have bin : ∀ a b, Watch.binary b ∈ s.watches a → a ≤ b → SatClause σ [a, b] := by
    intro a b hab hle
    have hv := (hc.bin a b hab).2.2.2.1.1
    refine h _ (List.mem_append.2 (.inl (List.mem_flatMap.2 ⟨a, List.mem_range.2 (by omega),
      List.mem_filterMap.2 ⟨_, hab, ?_⟩⟩)))
    exact if_neg (by omega)
  rintro c (⟨r, hr, hred, rfl⟩ | ⟨a, b, hab, rfl⟩ | ⟨l, h1, h2, rfl⟩)
  · refine h _ (List.mem_append.2 (.inr (List.mem_map.2 ⟨s.clause r, List.mem_filter.2 ⟨?_, ?_⟩, rfl⟩)))
    · exact live_mem hr
    · rw [show (s.clause r).garbage = false from hr, hred]; rfl
  · rcases Nat.le_total a b with hle | hle
    · exact bin a b hab hle
    · obtain ⟨l, hl, ht⟩ := bin b a (hc.bin a b hab).1 hle
      exact ⟨l, by simp at hl ⊢; exact hl.symm, ht⟩
  · exact ⟨l, by simp, hu l h1 h2⟩

theorem irr_entailed {orig : List (List Nat)} {s : Solver} (h : PInv (apiBase orig) s) {σ : Assignment}
    (hm : Models orig σ) : SatFormula σ s.irr := by
  obtain ⟨db, ⟨-, -, hr⟩, hcov⟩ := h
  have hdb : ∀ d ∈ db, SatClause σ d := by
    clear hcov
    generalize s.proof = lines at hr
    induction hr with
    | nil => exact hm
    | add _ hrup ih =>
      intro d hd
      rcases List.mem_cons.1 hd with rfl | hd
      · exact hrup.entails σ ih
      · exact ih d hd
    | delete _ _ ih => intro d hd; exact ih d (mem_deleteClause hd)
  have same : ∀ c, (∃ d ∈ db, SameLits c d) → SatClause σ c := by
    rintro c ⟨d, hd, hs⟩
    exact (satClause_same hs).2 (hdb d hd)
  rintro c (⟨r, hr, -, rfl⟩ | ⟨a, b, hab, rfl⟩ | ⟨l, h1, h2, rfl⟩)
  · have h1 : 0 < s.copies (s.clause r).lits := by
      unfold Solver.copies
      rw [List.countP_pos_iff]
      refine ⟨s.clause r, ?_, ?_⟩
      · exact live_mem hr
      · rw [show (s.clause r).garbage = false from hr]; simpa using (sameLits_iff.2 (fun _ => Iff.rfl : SameLits _ _))
    have h2 := hcov.large (s.clause r).lits
    obtain ⟨d, hd, hs⟩ := List.countP_pos_iff.1 (Nat.lt_of_lt_of_le h1 h2)
    exact same _ ⟨d, hd, sameLits_iff.1 hs⟩
  · exact same _ (hcov.binary hab)
  · exact same _ (hcov.unit l h1 h2)

/-- The assignment of the internal variables. -/
def Api.internal (a : Api) (σ : Nat → Bool) : Assignment := fun v => σ (a.exportLiteral (2 * v)).natAbs

theorem elitTrue_export {a : Api} (hi : ImportInv a) (σ : Nat → Bool) {l : Nat} (hl : l / 2 < a.s.vars) :
    ElitTrue σ (a.exportLiteral l) ↔ litTrue (a.internal σ) l := by
  have hlt : l / 2 < a.exports.length := by rw [hi.len]; exact hl
  have hx := List.getElem?_eq_getElem hlt
  obtain ⟨x1, x2⟩ := hi.export hx
  have hne := (hi.bwd _ _ hx).2
  have hn := natAbs_export (a := a) (l := l) rfl
  unfold ElitTrue litTrue Api.internal
  rw [hn, x1]
  generalize a.exports[l / 2] = e at *
  rcases eq_or_eq_neg (show l / 2 = 2 * (l / 2) / 2 by omega) with e1 | e1
  · rw [← e1] at x1
    rw [x1]
    have : l % 2 = 0 := by omega
    have he : (0 : Int) < e := by omega
    simp only [this, he]
  · rw [← e1] at x2
    have : l % 2 = 1 := by rw [e1]; unfold neg; rw [if_pos (by omega)]; omega
    rw [x2]
    have he : ¬ (0 : Int) < -e := by omega
    simp only [this, he]
    cases σ (Int.natAbs e) <;> simp

theorem esat_export {a : Api} (hi : ImportInv a) (σ : Nat → Bool) {c : List Nat} (hl : ∀ l ∈ c, l / 2 < a.s.vars) :
    ESat σ (c.map a.exportLiteral) ↔ SatClause (a.internal σ) c := by
  constructor
  · rintro ⟨e, he, ht⟩
    obtain ⟨l, hm, rfl⟩ := List.mem_map.1 he
    exact ⟨l, hm, (elitTrue_export hi σ (hl l hm)).1 ht⟩
  · rintro ⟨l, hm, ht⟩
    exact ⟨_, List.mem_map_of_mem hm, (elitTrue_export hi σ (hl l hm)).2 ht⟩

theorem written_valid {s : Solver} (hc : ClauseInv s) {c : List Nat} (h : c ∈ s.written) :
    ∀ l ∈ c, l / 2 < s.vars := by
  intro l hl
  rcases List.mem_append.1 h with h | h
  · obtain ⟨i, -, h⟩ := List.mem_flatMap.1 h
    obtain ⟨w, hw, h⟩ := List.mem_filterMap.1 h
    cases w with
    | large => cases h
    | binary o =>
      dsimp only at h
      split at h
      · cases h
      · obtain ⟨-, -, -, v1, v2⟩ := hc.bin i o hw
        rw [← Option.some.inj h] at hl
        simp at hl
        rcases hl with rfl | rfl
        · exact v1.1
        · exact v2.1
  · obtain ⟨c, hc', rfl⟩ := List.mem_map.1 h
    obtain ⟨hc', hp⟩ := List.mem_filter.1 hc'
    obtain ⟨r, hr, he⟩ := List.mem_iff_getElem.1 hc'
    have hcl : s.clause r = c := by
      unfold Solver.clause
      rw [List.getD_eq_getElem?_getD, List.getElem?_eq_getElem hr, he]; rfl
    have hp' : c.garbage = false ∧ c.redundant = false := by simpa using hp
    rw [← hcl] at hl
    exact (hc.valid r (by unfold Solver.Live; rw [hcl]; exact hp'.1) l hl).1

theorem export_bound {a : Api} (hi : ImportInv a) {l : Nat} (hl : l / 2 < a.s.vars) :
    a.exportLiteral l ≠ 0 ∧ (a.exportLiteral l).natAbs ≤ a.imports.length - 1 := by
  have hlt : l / 2 < a.exports.length := by rw [hi.len]; exact hl
  have hx := List.getElem?_eq_getElem hlt
  obtain ⟨x1, -⟩ := hi.export hx
  obtain ⟨x3, hne⟩ := hi.bwd _ _ hx
  have hn := natAbs_export (a := a) (l := l) rfl
  have := (List.getElem?_eq_some_iff.1 x3).1
  rw [x1] at hn
  constructor
  · intro h0; rw [h0] at hn; simp at hn; omega
  · rw [hn]; simp; omega

/-- Models of the written clauses and of the root level units. -/
theorem written_models {orig : List (List Nat)} {a : Api} (hi : ImportInv a) (h : PropInv (apiBase orig) (Models orig) a.s)
    (hb : ∀ c ∈ orig, ∀ l ∈ c, l / 2 < a.s.vars) (hval : ∀ l, a.s.values l ≠ 0 → a.s.Valid l) (σ : Nat → Bool) :
    (∀ c ∈ orig.map (List.map a.exportLiteral), ESat σ c) ↔
    (∀ c ∈ a.s.written.map (List.map a.exportLiteral), ESat σ c) ∧
    ∀ l, a.s.values l = 1 → a.s.lev l = 0 → ElitTrue σ (a.exportLiteral l) := by
  constructor
  · intro hm
    have hm' : Models orig (a.internal σ) := fun c hc =>
      (esat_export hi σ (hb c hc)).1 (hm _ (List.mem_map_of_mem hc))
    have hs := irr_entailed h.ok.proof hm'
    refine ⟨?_, ?_⟩
    · intro c hc
      obtain ⟨d, hd, rfl⟩ := List.mem_map.1 hc
      exact (esat_export hi σ (written_valid h.ok.inv.clause hd)).2 (hs d (mem_written hd))
    · intro l h1 h2
      have hv := (hval l (by rw [h1]; decide)).1
      obtain ⟨m, hm, ht⟩ := hs [l] (.inr (.inr ⟨l, h1, h2, rfl⟩))
      rw [List.mem_singleton] at hm
      subst hm
      exact (elitTrue_export hi σ hv).2 ht
  · rintro ⟨hw, hu⟩ c hc
    obtain ⟨d, hd, rfl⟩ := List.mem_map.1 hc
    refine (esat_export hi σ (hb d hd)).2 (h.ok.irr (a.internal σ) (written_sat h.ok.inv.clause ?_ ?_) d hd)
    · intro c hc
      exact (esat_export hi σ (written_valid h.ok.inv.clause hc)).1 (hw _ (List.mem_map_of_mem hc))
    · intro l h1 h2
      exact (elitTrue_export hi σ (hval l (by rw [h1]; decide)).1).1 (hu l h1 h2)

/-! ## Number of external variables -/

theorem importLiteral1_length (a : Api) (e : Int) :
    (a.importLiteral1 e).1.imports.length ≤ max a.imports.length (e.natAbs + 1) := by
  have h : (a.adjustImports e.natAbs).imports.length ≤ max a.imports.length (e.natAbs + 1) := by
    show (a.imports ++ List.replicate (e.natAbs + 1 - a.imports.length) (⟨0, false⟩ : Import)).length ≤ _
    simp; omega
  unfold Api.importLiteral1
  dsimp only
  split
  · exact h
  · show (List.set _ _ _).length ≤ _
    rw [List.length_set]; exact h

theorem importRange_length : ∀ (n other : Nat) (p : Api × Nat),
    (importRange n other p).1.imports.length ≤ max p.1.imports.length (other + n)
  | 0, _, p => by show p.1.imports.length ≤ _; omega
  | n + 1, other, p => by
    have h1 := importLiteral1_length p.1 (other : Int)
    have h2 := importRange_length n (other + 1) (p.1.importLiteral1 (other : Int))
    have h3 : ((other : Int)).natAbs = other := by omega
    rw [h3] at h1
    unfold importRange
    omega

theorem importLiteral_length (a : Api) (e : Int) :
    (a.importLiteral e).1.imports.length ≤ max a.imports.length (e.natAbs + 1) := by
  have h1 := importLiteral1_length a e
  unfold Api.importLiteral
  split
  · exact h1
  · dsimp only
    split
    · exact h1
    · generalize hb : (if a.imports.length = 0 then a.adjustImports 0 else a) = b
      have hlen : b.imports.length ≤ max a.imports.length (e.natAbs + 1) := by
        subst hb
        split
        · show (a.imports ++ List.replicate (0 + 1 - a.imports.length) (⟨0, false⟩ : Import)).length ≤ _
          simp; omega
        · omega
      have h2 := importRange_length (e.natAbs + 1 - b.imports.length) b.imports.length (b, 0)
      dsimp only at h2 ⊢
      omega

theorem importAll_length : ∀ (l : List Nat) (a : Api) (n : Nat), (∀ i ∈ l, i < n) →
    (l.foldl (fun a (idx : Nat) => (a.importLiteral ((idx : Int) + 1)).1) a).imports.length ≤
      max a.imports.length (n + 1)
  | [], a, n, _ => by show a.imports.length ≤ _; omega
  | i :: l, a, n, h => by
    have h1 := importLiteral_length a ((i : Int) + 1)
    have h2 := importAll_length l (a.importLiteral ((i : Int) + 1)).1 n fun j hj => h j (by simp [hj])
    have h3 : ((i : Int) + 1).natAbs = i + 1 := by omega
    have h4 := h i (by simp)
    rw [h3] at h1
    rw [List.foldl_cons]
    omega

theorem imports_le {o : Options} {t : Bool} {p e : Nat} {cs : List Call} {a : Api} (h : Run (Api.init o t p e) cs a) :
    a.imports.length ≤ 2 ^ 30 := by
  induction h with
  | nil => exact Nat.zero_le _
  | @snoc cs b c b' ret hb hfair hstep ih =>
    cases hstep with
    | add ha =>
      unfold Api.add at ha
      split at ha
      · cases ha
      · split at ha
        · split at ha
          · rename_i x _ _ hv
            injection ha with ha
            subst ha
            have h1 := importLiteral_length b x
            have h2 : (b.addLiteral x).imports = (b.importLiteral x).1.imports := by
              unfold Api.addLiteral
              generalize b.importLiteral x = p
              obtain ⟨q, ilit⟩ := p
              simp only
              repeat' (first | exact rfl | split)
            rw [h2]
            have hv' : x.natAbs ≤ 2 ^ 30 - 1 := by
              unfold validExternal externalMaxVar at hv
              simpa using hv
            omega
          · cases ha
        · injection ha with ha
          subst ha
          exact ih
    | @reserve n _ ha =>
      unfold Api.reserve at ha
      split at ha
      · cases ha
      · split at ha
        · cases ha
        · rename_i _ hn
          split at ha
          · injection ha with ha; subst ha; exact ih
          · dsimp only at ha
            split at ha
            · cases ha
            · injection ha with ha
              subst ha
              have := importAll_length (List.range n.natAbs) b n.natAbs fun i hi => List.mem_range.1 hi
              unfold externalMaxVar at hn
              dsimp only
              omega
    | terminate => exact ih
    | setTerminate => exact ih
    | setConflictLimit => exact ih
    | setDecisionLimit => exact ih
    | solve hs =>
      unfold Api.solve at hs
      repeat' split at hs
      all_goals first | (cases hs; done) | (injection hs with h1 h2; subst h1; exact ih)

end Verif.Core
