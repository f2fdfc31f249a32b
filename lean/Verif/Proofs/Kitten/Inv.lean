import Verif.Model.Kitten
import Verif.Proofs.Cnf

/-! # Invariants of kitten -/

namespace Verif.Kitten

open Verif.Spec
open Verif.Core (upd)

theorem upd_self {α : Type} (f : Nat → α) (i : Nat) (v : α) : upd f i v i = v := by simp [upd]

theorem upd_other {α : Type} (f : Nat → α) {i j : Nat} (v : α) (h : j ≠ i) : upd f i v j = f j := by
  simp [upd, h]

/-- Number of internal variables. -/
abbrev Kitten.n (k : Kitten) : Nat := k.exports.length

/-- The clauses with references in `A`. -/
def Fml (ks : List Klause) (A : Nat → Prop) : Formula := fun c => ∃ r kl, A r ∧ ks[r]? = some kl ∧ c = kl.lits

/-- The original clauses. -/
def Orig (ks : List Klause) : Formula := fun c => ∃ kl ∈ ks, kl.learned = false ∧ c = kl.lits

/-- Number of variables below `n` without value. -/
def freeCount (values : Nat → Int) (n : Nat) : Nat := (List.range n).countP fun v => values (2 * v) == 0

/-- Values and trail. -/
structure Vals (k : Kitten) : Prop where
  dom : ∀ l, k.values l = 1 ∨ k.values l = 0 ∨ k.values l = -1
  anti : ∀ l, k.values (neg l) = - k.values l
  valid : ∀ l, k.values l ≠ 0 → l / 2 < k.n
  count : k.unassigned = freeCount k.values k.n
  nodup : k.trail.Nodup
  tval : ∀ l ∈ k.trail, k.values l = 1
  flushed : ∀ l, k.values l = 1 → l ∉ k.trail → k.lev l = 0
  levle : ∀ l, k.values l = 1 → k.lev l ≤ k.level
  sorted : k.trail.Pairwise fun a b => k.lev a ≤ k.lev b
  high : 0 < k.level → ∀ l ∈ k.trail, 0 < k.lev l
  pending : ∀ l ∈ k.trail.drop k.propagated, k.lev l = k.level

/-- Reasons. -/
structure Why (k : Kitten) : Prop where
  root : ∀ l, k.values l = 1 → k.lev l = 0 → ∃ r kl, k.why l = some r ∧ k.klauses[r]? = some kl ∧ kl.lits = [l]
  decision : ∀ l, k.values l = 1 → k.why l = none → k.lev l ≤ k.assumptions.length → l ∈ k.assumptions
  first : ∀ a l b, k.trail = a ++ l :: b → k.why l = none → ∀ m ∈ a, k.lev m < k.lev l
  reason : ∀ a l b r, k.trail = a ++ l :: b → 0 < k.lev l → k.why l = some r →
    ∃ kl, k.klauses[r]? = some kl ∧ l ∈ kl.lits ∧
      ∀ m ∈ kl.lits, m ≠ l → k.values m = -1 ∧ (k.lev m = 0 ∨ neg m ∈ a)

/-- Clauses. -/
structure Store (k : Kitten) : Prop where
  valid : ∀ kl ∈ k.klauses, ∀ l ∈ kl.lits, l / 2 < k.n
  distinct : ∀ kl ∈ k.klauses, (kl.lits.map (· / 2)).Nodup
  learned : ∀ r kl, k.klauses[r]? = some kl → kl.learned = true →
    ∃ A : List Nat, (∀ a ∈ A, a < r) ∧ (k.antecedents = true → A = kl.ants) ∧ RUP (Fml k.klauses (· ∈ A)) kl.lits
  flag : k.learned = false → ∀ kl ∈ k.klauses, kl.learned = false
  empty : ∀ kl ∈ k.klauses, kl.lits = [] → k.inconsistent ≠ none
  units : ∀ r kl l, k.klauses[r]? = some kl → kl.lits = [l] → r ∈ k.units
  unit : ∀ r ∈ k.units, ∃ kl l, k.klauses[r]? = some kl ∧ kl.lits = [l]
  inconsistent : ∀ r, k.inconsistent = some r →
    (∃ kl, k.klauses[r]? = some kl ∧ (k.antecedents = true → kl.lits = [])) ∧ ¬ Satisfiable (Orig k.klauses)

/-- One of the first two literals. -/
def IsWatch (lits : List Nat) (w : Nat) : Prop := 2 ≤ lits.length ∧ (lits[0]? = some w ∨ lits[1]? = some w)

/-- Watch lists. -/
structure Watches (k : Kitten) : Prop where
  watched : ∀ r kl w, k.klauses[r]? = some kl → IsWatch kl.lits w → ∃ x ∈ k.watches w, x.ref = r
  back : ∀ w, ∀ x ∈ k.watches w, ∃ kl, k.klauses[x.ref]? = some kl ∧ IsWatch kl.lits w ∧ x.blit ∈ kl.lits ∧
    x.blit ≠ w ∧ x.binary = decide (kl.lits.length = 2)
  once : ∀ w, ((k.watches w).map Katch.ref).Nodup

/-- The invariant during search without watch lists. -/
structure Base (k : Kitten) : Prop where
  vals : Vals k
  why : Why k
  store : Store k

/-- The invariant during search. -/
structure Inv (k : Kitten) : Prop extends Base k where
  watch : Watches k

/-- One of the watches: if it is false and was propagated (all before position `p`), then the
clause has a true literal of at most its level. -/
def Semi (k : Kitten) (p : Nat) (lits : List Nat) : Prop := ∃ w, IsWatch lits w ∧
  (k.values w = -1 → neg w ∉ k.trail.drop p → ∃ t ∈ lits, k.values t = 1 ∧ k.lev t ≤ k.lev w)

/-- The same for literals falsified below the current level. -/
def Below (k : Kitten) (lits : List Nat) : Prop := ∃ w, IsWatch lits w ∧
  (k.values w = -1 → k.lev w < k.level → ∃ t ∈ lits, k.values t = 1 ∧ k.lev t ≤ k.lev w)

/-- Clauses are permuted and learned clauses are added. -/
structure Evolve (ks ks' : List Klause) : Prop where
  old : ∀ (r : Nat) (kl : Klause), ks[r]? = some kl → ∃ kl' : Klause, ks'[r]? = some kl' ∧ kl'.lits.Perm kl.lits ∧
    kl'.learned = kl.learned ∧ kl'.id = kl.id ∧ kl'.ants = kl.ants ∧ kl'.core = kl.core
  new : ∀ (r : Nat) (kl' : Klause), ks'[r]? = some kl' → r < ks.length ∨ (kl'.learned = true ∧ kl'.core = false)
  length : ks.length ≤ ks'.length

theorem Evolve.refl (ks : List Klause) : Evolve ks ks :=
  ⟨fun _ kl h => ⟨kl, h, .refl _, rfl, rfl, rfl, rfl⟩, fun r kl h => by
    left; exact (List.getElem?_eq_some_iff.1 h).1, Nat.le_refl _⟩

theorem Evolve.trans {a b c : List Klause} (h : Evolve a b) (h' : Evolve b c) : Evolve a c := by
  refine ⟨fun r kl hr => ?_, fun r kl hr => ?_, Nat.le_trans h.length h'.length⟩
  · obtain ⟨k1, e1, p1, l1, i1, a1, c1⟩ := h.old r kl hr
    obtain ⟨k2, e2, p2, l2, i2, a2, c2⟩ := h'.old r k1 e1
    exact ⟨k2, e2, p2.trans p1, l2.trans l1, i2.trans i1, a2.trans a1, c2.trans c1⟩
  · rcases h'.new r kl hr with hlt | hl
    · have hb : b[r]? = some b[r] := List.getElem?_eq_getElem hlt
      obtain ⟨k2, e2, _, l2, _, _, c2⟩ := h'.old r _ hb
      rw [hr] at e2
      cases e2
      rcases h.new r _ hb with h1 | h1
      · exact Or.inl h1
      · exact Or.inr ⟨l2.trans h1.1, c2.trans h1.2⟩
    · exact Or.inr hl

theorem perm_same {a b : List Nat} (h : a.Perm b) : SameLits a b := fun _ => h.mem_iff

/-- Clauses used for a refutation stay available. -/
theorem Evolve.fml {ks ks' : List Klause} (h : Evolve ks ks') (A : Nat → Prop) :
    ∀ c, Fml ks A c → ∃ d, Fml ks' A d ∧ SameLits c d := by
  rintro c ⟨r, kl, hA, hr, rfl⟩
  obtain ⟨kl', e, p, _⟩ := h.old r kl hr
  exact ⟨_, ⟨r, kl', hA, e, rfl⟩, (perm_same p).symm⟩

theorem Evolve.orig {ks ks' : List Klause} (h : Evolve ks ks') (σ : Assignment) :
    SatFormula σ (Orig ks) ↔ SatFormula σ (Orig ks') := by
  constructor
  · rintro hs c ⟨kl', hm, hl, rfl⟩
    obtain ⟨r, hr⟩ := List.getElem?_of_mem hm
    rcases h.new r kl' hr with hlt | ⟨hl', _⟩
    · have hb : ks[r]? = some ks[r] := List.getElem?_eq_getElem hlt
      obtain ⟨k2, e2, p2, l2, _⟩ := h.old r _ hb
      rw [hr] at e2
      cases e2
      exact (satClause_same (perm_same p2)).2 (hs _ ⟨_, List.mem_of_getElem? hb, by rw [← l2]; exact hl, rfl⟩)
    · rw [hl] at hl'; cases hl'
  · rintro hs c ⟨kl, hm, hl, rfl⟩
    obtain ⟨r, hr⟩ := List.getElem?_of_mem hm
    obtain ⟨k2, e2, p2, l2, _⟩ := h.old r _ hr
    exact (satClause_same (perm_same p2)).1 (hs _ ⟨_, List.mem_of_getElem? e2, by rw [l2]; exact hl, rfl⟩)

theorem Evolve.satisfiable {ks ks' : List Klause} (h : Evolve ks ks') :
    Satisfiable (Orig ks) ↔ Satisfiable (Orig ks') :=
  ⟨fun ⟨σ, hs⟩ => ⟨σ, (h.orig σ).1 hs⟩, fun ⟨σ, hs⟩ => ⟨σ, (h.orig σ).2 hs⟩⟩

/-- Learned clauses are entailed by the original ones. -/
theorem Store.entailed {k : Kitten} (h : Store k) {σ : Assignment} (hs : SatFormula σ (Orig k.klauses)) :
    ∀ (r : Nat) (kl : Klause), k.klauses[r]? = some kl → SatClause σ kl.lits := by
  intro r
  induction r using Nat.strongRecOn with
  | ind r ih =>
    intro kl hr
    cases hl : kl.learned with
    | false => exact hs _ ⟨kl, List.mem_of_getElem? hr, hl, rfl⟩
    | true =>
      obtain ⟨A, hA, _, hrup⟩ := h.learned r kl hr hl
      refine hrup.entails σ ?_
      rintro c ⟨r', kl', hm, hr', rfl⟩
      exact ih r' (hA r' hm) kl' hr'

/-! ## Counting -/

theorem freeCount_congr {v v' : Nat → Int} {n : Nat} (h : ∀ x, x < n → (v (2 * x) = 0 ↔ v' (2 * x) = 0)) :
    freeCount v n = freeCount v' n := by
  induction n with
  | zero => rfl
  | succ n ih =>
    have e := ih fun x hx => h x (by omega)
    unfold freeCount at e ⊢
    rw [List.range_succ, List.countP_append, List.countP_append, e]
    have := h n (by omega)
    by_cases h0 : v (2 * n) = 0
    · simp [h0, this.1 h0]
    · have h1 : v' (2 * n) ≠ 0 := fun hc => h0 (this.2 hc)
      simp [h0, h1]

theorem freeCount_succ (v : Nat → Int) (n : Nat) :
    freeCount v (n + 1) = freeCount v n + if v (2 * n) = 0 then 1 else 0 := by
  unfold freeCount
  rw [List.range_succ, List.countP_append]
  by_cases h : v (2 * n) = 0 <;> simp [h]

theorem freeCount_change {v v' : Nat → Int} {n i : Nat} (hi : i < n) (h0 : v (2 * i) = 0) (h1 : v' (2 * i) ≠ 0)
    (h : ∀ x, x ≠ i → (v (2 * x) = 0 ↔ v' (2 * x) = 0)) : freeCount v n = freeCount v' n + 1 := by
  induction n with
  | zero => omega
  | succ n ih =>
    rw [freeCount_succ, freeCount_succ]
    by_cases hin : i = n
    · subst hin
      rw [freeCount_congr (v' := v') fun x hx => h x (by omega), if_pos h0, if_neg h1]
    · rw [ih (by omega)]
      have := h n (fun hc => hin hc.symm)
      by_cases hz : v (2 * n) = 0
      · rw [if_pos hz, if_pos (this.1 hz)]
      · rw [if_neg hz, if_neg fun hc => hz (this.2 hc)]

theorem freeCount_pos {v : Nat → Int} {n i : Nat} (hi : i < n) (h0 : v (2 * i) = 0) : 0 < freeCount v n := by
  have := freeCount_change (v := v) (v' := fun x => if x = 2 * i then 1 else v x) hi h0 (by simp)
    (fun x hx => by
      show v (2 * x) = 0 ↔ (if 2 * x = 2 * i then (1 : Int) else v (2 * x)) = 0
      rw [if_neg (by omega)])
  omega

theorem freeCount_zero {v : Nat → Int} {n : Nat} (h : freeCount v n = 0) : ∀ i, i < n → v (2 * i) ≠ 0 := by
  intro i hi hc
  have := freeCount_pos hi hc
  omega

theorem exists_free {v : Nat → Int} {n : Nat} (h : freeCount v n ≠ 0) : ∃ i, i < n ∧ v (2 * i) = 0 := by
  unfold freeCount at h
  have := List.countP_pos_iff.1 (Nat.pos_of_ne_zero h)
  obtain ⟨a, ha, hb⟩ := this
  exact ⟨a, by simpa using ha, by simpa using hb⟩

/-! ## Values of literals -/

theorem Vals.even_zero {k : Kitten} (h : Vals k) (l : Nat) : k.values (2 * (l / 2)) = 0 ↔ k.values l = 0 := by
  rcases eq_or_eq_neg (show (2 * (l / 2)) / 2 = l / 2 by omega) with e | e
  · rw [e]
  · rw [e, h.anti]; omega

theorem Vals.neg_zero {k : Kitten} (h : Vals k) {l : Nat} : k.values (neg l) = 0 ↔ k.values l = 0 := by
  rw [h.anti]; omega

theorem Vals.neg_true {k : Kitten} (h : Vals k) {l : Nat} : k.values (neg l) = 1 ↔ k.values l = -1 := by
  rw [h.anti]; omega

theorem Vals.pos {k : Kitten} (h : Vals k) {l : Nat} : 0 < k.values l ↔ k.values l = 1 := by
  rcases h.dom l with e | e | e <;> omega

theorem Vals.neg' {k : Kitten} (h : Vals k) {l : Nat} : k.values l < 0 ↔ k.values l = -1 := by
  rcases h.dom l with e | e | e <;> omega

theorem lev_neg (k : Kitten) (l : Nat) : k.lev (neg l) = k.lev l := by unfold Kitten.lev; rw [neg_div]

theorem why_neg (k : Kitten) (l : Nat) : k.why (neg l) = k.why l := by unfold Kitten.why; rw [neg_div]

/-- The trail has no more literals than there are variables. -/
theorem Vals.trail_le {k : Kitten} (h : Vals k) : k.trail.length + k.unassigned ≤ k.n := by
  have key : ∀ (t : List Nat) (v : Nat → Int) (n : Nat), t.Nodup → (∀ l ∈ t, l / 2 < n ∧ v (2 * (l / 2)) ≠ 0) →
      (∀ l ∈ t, ∀ m ∈ t, l / 2 = m / 2 → l = m) → t.length + freeCount v n ≤ n := by
    intro t
    induction t with
    | nil =>
      intro v n _ _ _
      unfold freeCount
      have := List.countP_le_length (p := fun x => v (2 * x) == 0) (l := List.range n)
      simp at this ⊢
      exact this
    | cons a t ih =>
      intro v n hn hv hd
      have ha := hv a List.mem_cons_self
      have hnn := List.nodup_cons.1 hn
      have h1 := ih (fun x => if x = 2 * (a / 2) then 0 else v x) n hnn.2 (fun l hl => by
        refine ⟨(hv l (List.mem_cons_of_mem _ hl)).1, ?_⟩
        rw [if_neg]
        · exact (hv l (List.mem_cons_of_mem _ hl)).2
        · intro hc
          have := hd l (List.mem_cons_of_mem _ hl) a List.mem_cons_self (by omega)
          exact hnn.1 (this ▸ hl)) (fun l hl m hm => hd l (List.mem_cons_of_mem _ hl) m (List.mem_cons_of_mem _ hm))
      have h2 := freeCount_change (v := fun x => if x = 2 * (a / 2) then 0 else v x) (v' := v) ha.1 (by simp) ha.2
        (fun x hx => by
          show (if 2 * x = 2 * (a / 2) then (0 : Int) else v (2 * x)) = 0 ↔ _
          rw [if_neg (by omega)])
      simp only [List.length_cons]
      omega
  rw [h.count]
  refine key k.trail k.values k.n h.nodup (fun l hl => ?_) (fun l hl m hm e => ?_)
  · have := h.tval l hl
    exact ⟨h.valid l (by omega), fun hc => by rw [h.even_zero] at hc; omega⟩
  · rcases eq_or_eq_neg e with e | e
    · exact e
    · have h1 := h.tval l hl
      have h2 := h.tval m hm
      rw [e, h.anti] at h1
      omega

end Verif.Kitten
