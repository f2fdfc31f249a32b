import Verif.Proofs.OptionValue
import Mathlib.Data.List.Basic

namespace Verif.Proofs.Options
open Verif.Model.Options

/-! ### the table -/

def someBuild : Build := ⟨false, false, false, false, false, false⟩

set_option maxRecDepth 20000 in
theorem names_build (b : Build) :
    (allOptions b).map (·.2.name) = (allOptions someBuild).map (·.2.name) := rfl

theorem names_sorted :
    ((allOptions someBuild).map (·.2.name)).Pairwise (fun a b => strcmp a b < 0) := by
  decide +kernel

theorem names_nonzero_short :
    ∀ n ∈ (allOptions someBuild).map (·.2.name), 0 ∉ n ∧ n.length < 32 := by
  decide +kernel

theorem ranges_all (s u : Bool) : ∀ e ∈ allOptions ⟨false, false, false, false, s, u⟩,
    e.2.low ≤ e.2.value ∧ e.2.value ≤ e.2.high := by
  cases s <;> cases u <;> decide +kernel

theorem table_sub (b : Build) : List.Sublist ((table b).map (·.name)) ((allOptions b).map (·.2.name)) := by
  unfold table
  rw [List.map_map]
  exact List.Sublist.map _ List.filter_sublist

theorem table_sorted (b : Build) :
    (table b).Pairwise (fun a c => strcmp a.name c.name < 0) := by
  have := names_sorted
  rw [← names_build b] at this
  have := this.sublist (table_sub b)
  exact List.pairwise_map.1 this

theorem table_names (b : Build) {o : Opt} (h : o ∈ table b) : 0 ∉ o.name ∧ o.name.length < 32 := by
  have h1 : o.name ∈ (table b).map (·.name) := List.mem_map_of_mem h
  have h2 := (table_sub b).subset h1
  rw [names_build] at h2
  exact names_nonzero_short _ h2

theorem table_ranges (b : Build) {o : Opt} (h : o ∈ table b) : o.low ≤ o.value ∧ o.value ≤ o.high := by
  simp only [table, List.mem_map, List.mem_filter] at h
  obtain ⟨e, ⟨he, _⟩, rfl⟩ := h
  exact ranges_all b.sat b.unsat e he

theorem table_pos (b : Build) : 0 < (table b).length := by
  have : table b = ⟨[97,110,100,115], 1, 0, 1⟩ :: (table b).tail := rfl
  rw [this]; simp

/-! ### binary search -/

/-- what the proofs need of a table -/
structure Good (t : List Opt) : Prop where
  sorted : t.Pairwise (fun a c => strcmp a.name c.name < 0)
  nozero : ∀ o ∈ t, 0 ∉ o.name
  range : ∀ o ∈ t, o.low ≤ o.high
  pos : 0 < t.length

theorem good_table (b : Build) : Good (table b) where
  sorted := table_sorted b
  nozero := fun o h => (table_names b h).1
  range := fun o h => by have := table_ranges b h; omega
  pos := table_pos b

theorem strcmp_lt_of_lt {t : List Opt} (hg : Good t) {i j : Nat} (hij : i < j) (hj : j < t.length) :
    strcmp (t[i]'(by omega)).name t[j].name < 0 :=
  List.pairwise_iff_getElem.1 hg.sorted i j (by omega) hj hij

theorem name_inj {t : List Opt} (hg : Good t) {i j : Nat} (hi : i < t.length) (hj : j < t.length)
    (h : t[i].name = t[j].name) : i = j := by
  rcases Nat.lt_trichotomy i j with hlt | heq | hgt
  · have := strcmp_lt_of_lt hg hlt hj
    rw [h, strcmp_self] at this; omega
  · exact heq
  · have := strcmp_lt_of_lt hg hgt hi
    rw [h, strcmp_self] at this; omega

theorem hasLoop_spec {t : List Opt} (hg : Good t) {name : CStr} (h0 : 0 ∉ name) (l r : Nat)
    (hlr : l < r) (hr : r ≤ t.length)
    (hin : ∀ i (hi : i < t.length), t[i].name = name → l ≤ i ∧ i < r) :
    (∃ i, ∃ hi : i < t.length, t[i].name = name ∧ hasLoop t name l r = .found i) ∨
    ((∀ i (hi : i < t.length), t[i].name ≠ name) ∧ hasLoop t name l r = .notFound) := by
  induction hn : r - l using Nat.strongRecOn generalizing l r with
  | ind n ih =>
    unfold hasLoop
    by_cases h : l + 1 < r
    · rw [if_pos h]
      have hm : l + (r - l) / 2 < t.length := by omega
      simp only [List.getElem?_eq_getElem hm]
      generalize hmid : l + (r - l) / 2 = m at hm
      by_cases h1 : strcmp name t[m].name < 0
      · rw [if_pos h1]
        apply ih (m - l) (by omega) l m (by omega) (by omega) _ rfl
        intro i hi hname
        have := hin i hi hname
        refine ⟨this.1, ?_⟩
        by_contra hge
        rcases Nat.lt_or_ge m i with hlt | hle
        · have := strcmp_lt_of_lt hg hlt hi
          rw [hname] at this
          have := strcmp_antisymm t[m].name name
          omega
        · have : i = m := by omega
          subst this
          rw [hname, strcmp_self] at h1; omega
      · rw [if_neg h1]
        by_cases h2 : 0 < strcmp name t[m].name
        · rw [if_pos h2]
          apply ih (r - m) (by omega) m r (by omega) (by omega) _ rfl
          intro i hi hname
          have := hin i hi hname
          refine ⟨?_, this.2⟩
          by_contra hlt
          have := strcmp_lt_of_lt hg (by omega : i < m) hm
          rw [hname] at this
          omega
        · rw [if_neg h2]
          have : strcmp name t[m].name = 0 := by omega
          have := (strcmp_eq_zero h0 (hg.nozero _ (List.getElem_mem hm))).1 this
          exact Or.inl ⟨m, hm, this.symm, rfl⟩
    · rw [if_neg h]
      have hl : l < t.length := by omega
      simp only [List.getElem?_eq_getElem hl]
      by_cases hc : strcmp t[l].name name = 0
      · have := (strcmp_eq_zero (hg.nozero _ (List.getElem_mem hl)) h0).1 hc
        exact Or.inl ⟨l, hl, this, by simp [hc]⟩
      · refine Or.inr ⟨?_, by simp [hc]⟩
        intro i hi hname
        have := hin i hi hname
        have : i = l := by omega
        subst this
        rw [hname, strcmp_self] at hc
        exact hc rfl

theorem has_spec {t : List Opt} (hg : Good t) {name : CStr} (h0 : 0 ∉ name) :
    (∃ i, ∃ hi : i < t.length, t[i].name = name ∧ has t name = .found i) ∨
    ((∀ i (hi : i < t.length), t[i].name ≠ name) ∧ has t name = .notFound) :=
  hasLoop_spec hg h0 0 t.length hg.pos (le_refl _) (fun i hi _ => ⟨by omega, hi⟩)

theorem has_found {t : List Opt} (hg : Good t) {i : Nat} (hi : i < t.length) :
    has t t[i].name = .found i := by
  rcases has_spec hg (hg.nozero _ (List.getElem_mem hi)) with ⟨j, hj, h, h2⟩ | ⟨h, _⟩
  · rw [h2, name_inj hg hj hi h]
  · exact absurd rfl (h i hi)

theorem has_notFound {t : List Opt} (hg : Good t) {name : CStr} (h0 : 0 ∉ name)
    (h : ∀ o ∈ t, o.name ≠ name) : has t name = .notFound := by
  rcases has_spec hg h0 with ⟨j, hj, h', _⟩ | ⟨_, h2⟩
  · exact absurd h' (h _ (List.getElem_mem hj))
  · exact h2

/-! ### setting -/

/-- clamping into the range of an option -/
def clamp (o : Opt) (v : Int) : Int := max o.low (min o.high v)

/-- all values are in range -/
def InRange (t : List Opt) (vals : List Int) : Prop :=
  vals.length = t.length ∧ ∀ i (hi : i < t.length) (hv : i < vals.length),
    t[i].low ≤ vals[i] ∧ vals[i] ≤ t[i].high

theorem setOption_found {t : List Opt} (hg : Good t) {vals : List Int} (hr : InRange t vals)
    {i : Nat} (hi : i < t.length) (v : Int) :
    setOption t vals t[i].name v =
      some (vals[i]'(by rw [hr.1]; exact hi), vals.set i (clamp t[i] v)) := by
  have hv : i < vals.length := by rw [hr.1]; exact hi
  have hrange := hr.2 i hi hv
  unfold setOption
  rw [has_found hg hi]
  simp only [List.getElem?_eq_getElem hi, setOpt, List.getElem?_eq_getElem hv]
  have hlh := hg.range _ (List.getElem_mem hi)
  by_cases h : v = vals[i]
  · rw [if_pos h]
    have : clamp t[i] v = vals[i] := by unfold clamp; omega
    rw [this]; simp
  · rw [if_neg h]
    congr 2
    congr 1
    unfold clamp
    split <;> split <;> omega

theorem inRange_set {t : List Opt} (hg : Good t) {vals : List Int} (hr : InRange t vals)
    {i : Nat} (hi : i < t.length) (v : Int) : InRange t (vals.set i (clamp t[i] v)) := by
  refine ⟨by simp [hr.1], ?_⟩
  intro j hj hv
  rw [List.getElem_set]
  split
  · next h =>
    subst h
    have hlh := hg.range _ (List.getElem_mem hi)
    unfold clamp; omega
  · exact hr.2 j hj (by simpa using hv)

theorem getOption_found {t : List Opt} (hg : Good t) {vals : List Int} {i : Nat}
    (hi : i < t.length) : getOption t vals t[i].name = vals[i]? := by
  unfold getOption; rw [has_found hg hi]

/-! ### arguments -/

theorem splitEq_spec (s : CStr) : s.length = s.length ∧
    (∀ n v, splitEq s = (n, some v) ↔ (61 ∉ n ∧ s = n ++ 61 :: v)) ∧
    (∀ n, splitEq s = (n, none) ↔ (61 ∉ n ∧ s = n)) := by
  refine ⟨rfl, ?_⟩
  induction s with
  | nil => 
    constructor
    · intro n v; simp [splitEq]
    · intro n; simp only [splitEq, Prod.mk.injEq, and_true]
      constructor
      · rintro rfl; simp
      · rintro ⟨_, rfl⟩; rfl
  | cons c s ih =>
    by_cases hc : c = 61
    · subst hc
      constructor
      · intro n v
        simp only [splitEq, if_true, Prod.mk.injEq, Option.some.injEq]
        constructor
        · rintro ⟨rfl, rfl⟩; simp
        · rintro ⟨h1, h2⟩
          cases n with
          | nil => simp at h2; exact ⟨rfl, h2⟩
          | cons x n => simp at h2 h1; exact absurd h2.1 h1.1
      · intro n
        simp only [splitEq, if_true, Prod.mk.injEq, reduceCtorEq, and_false, false_iff]
        rintro ⟨h1, rfl⟩
        simp at h1
    · constructor
      · intro n v
        simp only [splitEq, hc, if_false, Prod.mk.injEq]
        constructor
        · rintro ⟨rfl, h2⟩
          have := (ih.1 (splitEq s).1 v).1 (by rw [← h2])
          refine ⟨?_, ?_⟩
          · simp only [List.mem_cons, not_or]; exact ⟨fun h => hc h.symm, this.1⟩
          · rw [List.cons_append, ← this.2]
        · rintro ⟨h1, h2⟩
          cases n with
          | nil => simp at h2; exact absurd h2.1 hc
          | cons x n =>
            simp only [List.cons_append, List.cons.injEq] at h2
            simp only [List.mem_cons, not_or] at h1
            have := (ih.1 n v).2 ⟨h1.2, h2.2⟩
            rw [this]; simp [h2.1]
      · intro n
        simp only [splitEq, hc, if_false, Prod.mk.injEq]
        constructor
        · rintro ⟨rfl, h2⟩
          have := (ih.2 (splitEq s).1).1 (by rw [← h2])
          refine ⟨?_, ?_⟩
          · simp only [List.mem_cons, not_or]; exact ⟨fun h => hc h.symm, this.1⟩
          · rw [← this.2]
        · rintro ⟨h1, rfl⟩
          simp only [List.mem_cons, not_or] at h1
          have := (ih.2 s).2 ⟨h1.2, rfl⟩
          rw [this]; simp

end Verif.Proofs.Options
