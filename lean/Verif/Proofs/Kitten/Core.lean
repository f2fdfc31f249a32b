import Verif.Proofs.Kitten.Finish

/-! # The clausal core of kitten -/

namespace Verif.Kitten

open Verif.Spec
open Verif.Core (upd)

def Task.ref : Task → Nat
  | .visit r => r
  | .finish r => r

theorem sum_le {f g : Nat → Nat} : ∀ (n : Nat), (∀ r, r < n → f r ≤ g r) →
    ((List.range n).map f).sum ≤ ((List.range n).map g).sum := by
  intro n
  induction n with
  | zero => intro _; simp
  | succ n ih =>
    intro h
    rw [List.range_succ, List.map_append, List.map_append, List.sum_append, List.sum_append]
    have := ih (fun r hr => h r (by omega))
    have := h n (by omega)
    simp
    omega

theorem sum_lt {f g : Nat → Nat} {c x : Nat} : ∀ (n : Nat), (∀ r, r < n → f r ≤ g r) → c < n → f c + x ≤ g c →
    ((List.range n).map f).sum + x ≤ ((List.range n).map g).sum := by
  intro n
  induction n with
  | zero => intro _ hc; omega
  | succ n ih =>
    intro h hc hx
    rw [List.range_succ, List.map_append, List.map_append, List.sum_append, List.sum_append]
    by_cases hcn : c = n
    · subst hcn
      have := sum_le c (fun r hr => h r (by omega))
      simp
      omega
    · have := ih (fun r hr => h r (by omega)) (by omega) hx
      have := h n (by omega)
      simp
      omega

/-- Number of antecedents. -/
def antCount (ks : List Klause) (r : Nat) : Nat := (ks[r]?.map fun c => c.ants.length).getD 0

/-- Work left for a clause. -/
def weight (ks : List Klause) (k : Kitten) (stack : List Task) (r : Nat) : Nat :=
  if k.isCore r = true ∨ Task.finish r ∈ stack then 0 else antCount ks r + 1

/-- Work left. -/
def work (ks : List Klause) (k : Kitten) (stack : List Task) : Nat :=
  stack.length + ((List.range ks.length).map (weight ks k stack)).sum

/-- Invariant of the traversal. -/
structure CInv (ks : List Klause) (stack : List Task) (k : Kitten) : Prop where
  same : SameKs k.klauses ks
  refs : ∀ t ∈ stack, t.ref < ks.length
  flag : ∀ r, k.isCore r = true ↔ r ∈ k.core
  pend : ∀ A c B, stack = A ++ Task.finish c :: B → (∀ t ∈ A, t.ref < c) ∧ ∀ kl, ks[c]? = some kl → kl.learned = true →
    ∀ d ∈ kl.ants, k.isCore d = true ∨ Task.visit d ∈ A ∨ Task.finish d ∈ A
  topo : ∀ (i d : Nat) (kl : Klause), k.core[i]? = some d → ks[d]? = some kl → kl.learned = true →
    ∀ a ∈ kl.ants, a ∈ k.core.take i

/-- The parts changed by the traversal. -/
def SameBut (k k' : Kitten) : Prop := k' = { k with core := k'.core, klauses := k'.klauses }

theorem split_visits {P A B rest : List Task} {c c' : Nat} (hP : ∀ t ∈ P, ∀ r, t ≠ Task.finish r)
    (h : P ++ Task.finish c :: rest = A ++ Task.finish c' :: B) :
    (A = P ∧ c' = c ∧ B = rest) ∨ ∃ A', A = P ++ Task.finish c :: A' ∧ rest = A' ++ Task.finish c' :: B := by
  rcases List.append_eq_append_iff.1 h with ⟨x, h1, h2⟩ | ⟨x, h1, h2⟩
  · cases x with
    | nil => simp at h2 h1; exact Or.inl ⟨h1, h2.1.symm, h2.2.symm⟩
    | cons y ys =>
      simp at h2
      right
      exact ⟨ys, by rw [h1, ← h2.1], h2.2⟩
  · cases x with
    | nil => simp at h2 h1; exact Or.inl ⟨h1.symm, h2.1, h2.2⟩
    | cons y ys =>
      simp at h2
      exact absurd h2.1.symm (hP y (by rw [h1]; simp) c')

theorem modify_core (ks : List Klause) (ref r : Nat) :
    (ks.modify ref fun c => { c with core := true })[r]? =
      if ref = r then ks[r]?.map fun c => { c with core := true } else ks[r]? := by
  rw [List.getElem?_modify]
  by_cases h : ref = r
  · simp [h]
  · simp [h]

theorem isCore_get {k : Kitten} {r : Nat} {kl : Klause} (h : k.klauses[r]? = some kl) : k.isCore r = kl.core := by
  unfold Kitten.isCore; rw [h]; rfl

theorem coreLoop_ok {ks : List Klause} (hants : ∀ (r : Nat) (kl : Klause), ks[r]? = some kl → kl.learned = true → ∀ a ∈ kl.ants, a < r) :
    ∀ (n : Nat) (stack : List Task) (k : Kitten), CInv ks stack k → work ks k stack ≤ n →
    ∃ k', Kitten.coreLoop n stack k = some k' ∧ CInv ks [] k' ∧ SameBut k k' ∧
      ∀ r, k.isCore r = true ∨ Task.visit r ∈ stack ∨ Task.finish r ∈ stack → k'.isCore r = true := by
  intro n
  induction n with
  | zero =>
    intro stack k h hw
    have : stack = [] := by
      unfold work at hw
      exact List.length_eq_zero_iff.1 (by omega)
    subst this
    exact ⟨k, rfl, h, rfl, by simp⟩
  | succ n ih =>
    intro stack k h hw
    match stack with
    | [] => exact ⟨k, rfl, h, rfl, by simp⟩
    | .finish d :: stack =>
      have hd : d < k.klauses.length := by
        have := h.refs (.finish d) (by simp)
        have h2 := congrArg List.length h.same
        simp at h2
        rw [h2]; exact this
      unfold Kitten.coreLoop
      rw [if_pos hd]
      generalize hk1 : ({ k with core := k.core ++ [d], klauses := k.klauses.modify d fun c => { c with core := true } } : Kitten) = k1
      have hcore1 : k1.core = k.core ++ [d] := by rw [← hk1]
      have hkl1 : k1.klauses = k.klauses.modify d fun c => { c with core := true } := by rw [← hk1]
      have hflag1 : ∀ r, k1.isCore r = true ↔ k.isCore r = true ∨ r = d := by
        intro r
        unfold Kitten.isCore
        rw [hkl1, modify_core]
        by_cases hr : d = r
        · subst hr
          rw [if_pos rfl, List.getElem?_eq_getElem hd]
          simp
        · rw [if_neg hr]
          constructor
          · exact Or.inl
          · rintro (h' | h')
            · exact h'
            · exact absurd h'.symm hr
      have hsame1 : SameKs k1.klauses k.klauses := by
        rw [hkl1]
        apply List.ext_getElem?
        intro i
        rw [List.getElem?_map, List.getElem?_map, modify_core]
        split
        · cases k.klauses[i]? with
          | none => rfl
          | some x => rfl
        · rfl
      suffices hx : CInv ks (stack) k1 ∧ work ks k1 (stack) ≤ n by
        obtain ⟨k', e, g1, g2, g3⟩ := ih _ _ hx.1 hx.2
        refine ⟨k', e, g1, ?_, fun r hr => g3 r ?_⟩
        · unfold SameBut at g2 ⊢
          rw [g2, ← hk1]
        · rcases hr with hr | hr | hr
          · exact Or.inl ((hflag1 r).2 (Or.inl hr))
          · rcases List.mem_cons.1 hr with hr | hr
            · cases hr
            · exact Or.inr (Or.inl hr)
          · rcases List.mem_cons.1 hr with hr | hr
            · cases hr; exact Or.inl ((hflag1 d).2 (Or.inr rfl))
            · exact Or.inr (Or.inr hr)
      refine ⟨⟨hsame1.trans h.same, fun t ht => h.refs t (List.mem_cons_of_mem _ ht), ?_, ?_, ?_⟩, ?_⟩
      · intro r
        rw [hflag1, hcore1, h.flag]
        simp
      · intro A c B he
        obtain ⟨p1, p2⟩ := h.pend (.finish d :: A) c B (by rw [he]; rfl)
        refine ⟨fun t ht => p1 t (List.mem_cons_of_mem _ ht), fun kl hk hl a ha => ?_⟩
        rcases p2 kl hk hl a ha with h' | h' | h'
        · exact Or.inl ((hflag1 a).2 (Or.inl h'))
        · rcases List.mem_cons.1 h' with h' | h'
          · cases h'
          · exact Or.inr (Or.inl h')
        · rcases List.mem_cons.1 h' with h' | h'
          · cases h'; exact Or.inl ((hflag1 d).2 (Or.inr rfl))
          · exact Or.inr (Or.inr h')
      · intro i c kl hi hk hl a ha
        rw [hcore1] at hi ⊢
        rcases getElem?_concat hi with hi | ⟨rfl, rfl⟩
        · have := h.topo i c kl hi hk hl a ha
          rw [List.take_append_of_le_length (by have := lt_of_get hi; omega)]
          exact this
        · rw [List.take_left']
          · rcases (h.pend [] c stack rfl).2 kl hk hl a ha with h' | h' | h'
            · exact (h.flag a).1 h'
            · cases h'
            · cases h'
          · rfl
      · unfold work at hw ⊢
        have : ((List.range ks.length).map (weight ks k1 stack)).sum ≤
            ((List.range ks.length).map (weight ks k (.finish d :: stack))).sum := by
          refine sum_le _ fun r _ => ?_
          unfold weight
          by_cases hc : k.isCore r = true ∨ Task.finish r ∈ Task.finish d :: stack
          · rw [if_pos hc, if_pos]
            · omega
            · rcases hc with hc | hc
              · exact Or.inl ((hflag1 r).2 (Or.inl hc))
              · rcases List.mem_cons.1 hc with hc | hc
                · cases hc; exact Or.inl ((hflag1 d).2 (Or.inr rfl))
                · exact Or.inr hc
          · rw [if_neg hc]
            split <;> omega
        simp at hw
        omega
    | .visit c :: rest =>
      have hc : c < k.klauses.length := by
        have := h.refs (.visit c) (by simp)
        have h2 := congrArg List.length h.same
        simp at h2
        rw [h2]; exact this
      have hget : k.klauses[c]? = some k.klauses[c] := List.getElem?_eq_getElem hc
      generalize k.klauses[c] = kl at hget
      obtain ⟨kl0, z1, z2, z3, z4, z5⟩ := h.same.get hget
      unfold Kitten.coreLoop
      rw [hget]
      simp only
      by_cases hcore : kl.core = true
      · rw [if_pos hcore]
        have hic : k.isCore c = true := (isCore_get hget).trans hcore
        suffices hx : CInv ks (rest) k ∧ work ks k (rest) ≤ n by
          obtain ⟨k', e, g1, g2, g3⟩ := ih _ _ hx.1 hx.2
          refine ⟨k', e, g1, g2, fun r hr => g3 r ?_⟩
          rcases hr with hr | hr | hr
          · exact Or.inl hr
          · rcases List.mem_cons.1 hr with hr | hr
            · cases hr; exact Or.inl hic
            · exact Or.inr (Or.inl hr)
          · rcases List.mem_cons.1 hr with hr | hr
            · cases hr
            · exact Or.inr (Or.inr hr)
        refine ⟨⟨h.same, fun t ht => h.refs t (List.mem_cons_of_mem _ ht), h.flag, ?_, h.topo⟩, ?_⟩
        · intro A c' B he
          obtain ⟨p1, p2⟩ := h.pend (.visit c :: A) c' B (by rw [he]; rfl)
          refine ⟨fun t ht => p1 t (List.mem_cons_of_mem _ ht), fun kl hk hl a ha => ?_⟩
          rcases p2 kl hk hl a ha with h' | h' | h'
          · exact Or.inl h'
          · rcases List.mem_cons.1 h' with h' | h'
            · cases h'; exact Or.inl hic
            · exact Or.inr (Or.inl h')
          · rcases List.mem_cons.1 h' with h' | h'
            · cases h'
            · exact Or.inr (Or.inr h')
        · unfold work at hw ⊢
          have : ((List.range ks.length).map (weight ks k rest)).sum ≤
              ((List.range ks.length).map (weight ks k (.visit c :: rest))).sum := by
            refine sum_le _ fun r _ => ?_
            unfold weight
            simp
          simp at hw
          omega
      · rw [if_neg hcore]
        have hic : k.isCore c ≠ true := by rw [isCore_get hget]; exact hcore
        have hnot : Task.finish c ∉ rest := by
          intro hm
          obtain ⟨A, B, e⟩ := List.append_of_mem hm
          have := (h.pend (.visit c :: A) c B (by rw [e]; rfl)).1 (.visit c) (by simp)
          exact Nat.lt_irrefl _ this
        -- both branches push the marker below some visits
        have key : ∀ P : List Task, (∀ t ∈ P, ∃ a, t = Task.visit a ∧ a < c) → P.length ≤ kl0.ants.length →
            (kl0.learned = true → ∀ d ∈ kl0.ants, k.isCore d = true ∨ Task.visit d ∈ P) →
            ∃ k', Kitten.coreLoop n (P ++ .finish c :: rest) k = some k' ∧ CInv ks [] k' ∧ SameBut k k' ∧
              ∀ r, k.isCore r = true ∨ Task.visit r ∈ Task.visit c :: rest ∨ Task.finish r ∈ Task.visit c :: rest →
                k'.isCore r = true := by
          intro P hP hlen hall
          have hclt : c < ks.length := h.refs (.visit c) (by simp)
          suffices hx : CInv ks (P ++ .finish c :: rest) k ∧ work ks k (P ++ .finish c :: rest) ≤ n by
            obtain ⟨k', e, g1, g2, g3⟩ := ih _ _ hx.1 hx.2
            refine ⟨k', e, g1, g2, fun r hr => g3 r ?_⟩
            rcases hr with hr | hr | hr
            · exact Or.inl hr
            · rcases List.mem_cons.1 hr with hr | hr
              · cases hr; right; right; simp
              · right; left; simp [hr]
            · rcases List.mem_cons.1 hr with hr | hr
              · cases hr
              · right; right; simp [hr]
          refine ⟨⟨h.same, ?_, h.flag, ?_, h.topo⟩, ?_⟩
          · intro t ht
            rcases List.mem_append.1 ht with ht | ht
            · obtain ⟨a, rfl, ha⟩ := hP t ht
              exact Nat.lt_trans ha hclt
            · rcases List.mem_cons.1 ht with rfl | ht
              · exact hclt
              · exact h.refs t (List.mem_cons_of_mem _ ht)
          · intro A c' B he
            rcases split_visits (fun t ht r => by obtain ⟨a, rfl, _⟩ := hP t ht; intro hx; cases hx) he with
              ⟨rfl, rfl, rfl⟩ | ⟨A', rfl, rfl⟩
            · refine ⟨fun t ht => by obtain ⟨a, rfl, ha⟩ := hP t ht; exact ha, fun kl' hk hl d hd => ?_⟩
              rw [z1] at hk
              cases hk
              rcases hall hl d hd with h' | h'
              · exact Or.inl h'
              · exact Or.inr (Or.inl h')
            · obtain ⟨p1, p2⟩ := h.pend (.visit c :: A') c' B rfl
              have hcc : c < c' := p1 (.visit c) (by simp)
              refine ⟨fun t ht => ?_, fun kl' hk hl d hd => ?_⟩
              · rcases List.mem_append.1 ht with ht | ht
                · obtain ⟨a, rfl, ha⟩ := hP t ht
                  exact Nat.lt_trans ha hcc
                · rcases List.mem_cons.1 ht with rfl | ht
                  · exact hcc
                  · exact p1 t (List.mem_cons_of_mem _ ht)
              · rcases p2 kl' hk hl d hd with h' | h' | h'
                · exact Or.inl h'
                · rcases List.mem_cons.1 h' with h' | h'
                  · cases h'; right; right; simp
                  · right; left; simp [h']
                · rcases List.mem_cons.1 h' with h' | h'
                  · cases h'
                  · right; right; simp [h']
          · unfold work at hw ⊢
            have hs : ((List.range ks.length).map (weight ks k (P ++ .finish c :: rest))).sum + (kl0.ants.length + 1) ≤
                ((List.range ks.length).map (weight ks k (.visit c :: rest))).sum := by
              refine sum_lt (c := c) _ (fun r _ => ?_) hclt ?_
              · unfold weight
                by_cases hx : k.isCore r = true ∨ Task.finish r ∈ Task.visit c :: rest
                · rw [if_pos hx, if_pos]
                  · omega
                  · rcases hx with hx | hx
                    · exact Or.inl hx
                    · rcases List.mem_cons.1 hx with hx | hx
                      · cases hx
                      · right; simp [hx]
                · rw [if_neg hx]
                  split <;> omega
              · unfold weight
                rw [if_pos (Or.inr (by simp)), if_neg]
                · unfold antCount
                  rw [z1]
                  simp
                · rintro (hx | hx)
                  · exact hic hx
                  · rcases List.mem_cons.1 hx with hx | hx
                    · cases hx
                    · exact hnot hx
            simp at hw ⊢
            omega
        by_cases hl : kl.learned = true
        · rw [if_pos hl]
          refine key _ ?_ ?_ ?_
          · intro t ht
            rw [List.mem_reverse] at ht
            obtain ⟨a, ha, rfl⟩ := List.mem_map.1 ht
            have ha := (List.mem_filter.1 ha).1
            exact ⟨a, rfl, hants c kl0 z1 (z3.trans hl) a (by rw [z5]; exact ha)⟩
          · rw [List.length_reverse, List.length_map, z5]
            exact List.length_filter_le _ _
          · intro _ d hd
            cases hcd : k.isCore d with
            | true => exact Or.inl rfl
            | false =>
              right
              rw [List.mem_reverse]
              refine List.mem_map.2 ⟨d, List.mem_filter.2 ⟨by rw [← z5]; exact hd, ?_⟩, rfl⟩
              rw [hcd]; rfl
        · rw [if_neg hl]
          have := key [] (by simp) (by simp) (fun h' => absurd (z3.symm.trans h') hl)
          simpa using this

/-- The computed core. -/
structure CoreOk (k k' : Kitten) : Prop where
  status : k'.status = 21
  before : k.status = 20 ∧ k.antecedents = true
  alike : Alike k k'
  assumptions : k'.assumptions = k.assumptions
  failed : k'.failed = k.failed
  failing : k'.failing = k.failing
  flag : ∀ r, k'.isCore r = true ↔ r ∈ k'.core
  valid : ∀ r ∈ k'.core, r < k'.klauses.length
  topo : ∀ (i d : Nat) (kl : Klause), k'.core[i]? = some d → k'.klauses[d]? = some kl → kl.learned = true →
    ∀ a ∈ kl.ants, a ∈ k'.core.take i
  root : ∀ r, (k.inconsistent <|> k.failing) = some r → r ∈ k'.core
  none : (k.inconsistent <|> k.failing) = none → k'.core = []

theorem calm_store {k : Kitten} (h : Good k) : Store k := by
  obtain ⟨r1, r2, r3, r4, r5, r6, r7, r8, r9, r10, r11, r12, r13, r14⟩ := root_same k
  have hs := h.inv.store
  have e1 : k.calm.klauses = k.klauses := r1
  have e2 : k.calm.exports = k.exports := r2
  have e3 : k.calm.inconsistent = k.inconsistent := r4
  have e4 : k.calm.antecedents = k.antecedents := r10
  have e5 : k.calm.learned = k.learned := r11
  have e6 : k.calm.units = k.units := r13
  have e7 : k.calm.n = k.n := by show k.calm.exports.length = k.exports.length; rw [e2]
  have g1 := hs.1
  have g3 := hs.3
  have g4 := hs.4
  have g5 := hs.5
  have g6 := hs.6
  have g7 := hs.7
  have g8 := hs.8
  have g2 := hs.2
  rw [e1] at g1 g2 g3 g4 g5 g6 g7 g8
  rw [e7] at g1
  rw [e4] at g3 g8
  rw [e5] at g4
  rw [e3] at g5 g8
  rw [e6] at g6 g7
  exact ⟨g1, g2, g3, g4, g5, g6, g7, g8⟩

theorem core_start {k : Kitten} (h : Good k) (hs : k.status = 20) (ha : k.antecedents = true) {ref : Nat} (hr : ref < k.klauses.length) :
    ∃ k1, Kitten.coreLoop k.coreFuel [.visit ref] k = some k1 ∧ CInv k.klauses [] k1 ∧ SameBut k k1 ∧ k1.isCore ref = true := by
  have hst := calm_store h
  obtain ⟨hc1, hc2⟩ := h.core (by omega)
  have hfalse : ∀ r, k.isCore r = false := by
    intro r
    unfold Kitten.isCore
    cases hg : k.klauses[r]? with
    | none => rfl
    | some kl => exact hc2 kl (List.mem_of_getElem? hg)
  suffices hx : CInv k.klauses [.visit ref] k ∧ work k.klauses k [.visit ref] ≤ k.coreFuel by
    obtain ⟨k1, e, g1, g2, g3⟩ := coreLoop_ok (ks := k.klauses) (fun r kl hr hl a hm => by
      obtain ⟨A, q1, q2, _⟩ := hst.learned r kl hr hl
      exact q1 a (by rw [q2 ha]; exact hm)) k.coreFuel [.visit ref] k hx.1 hx.2
    exact ⟨k1, e, g1, g2, g3 ref (Or.inr (Or.inl (by simp)))⟩
  refine ⟨⟨rfl, by simpa [Task.ref] using hr, fun r => by rw [hfalse, hc1]; simp, fun A c B he => ?_, fun i d kl hi => by rw [hc1] at hi; cases hi⟩, ?_⟩
  · exfalso
    cases A with
    | nil => simp at he
    | cons a as => simp at he
  · unfold work Kitten.coreFuel
    have : ∀ (l : List Klause) (f : Nat → Nat), (∀ r, f r ≤ antCount l r + 1) →
        ((List.range l.length).map f).sum ≤ (l.map fun c => c.ants.length + 2).sum := by
      intro l
      induction l with
      | nil => intro f _; simp
      | cons c l ih =>
        intro f hf
        rw [List.length_cons, List.range_succ_eq_map, List.map_cons, List.map_map, List.sum_cons, List.map_cons, List.sum_cons]
        have h0 := hf 0
        have := ih (f ∘ Nat.succ) (fun r => by
          have := hf (r + 1)
          unfold antCount at this ⊢
          simpa using this)
        unfold antCount at h0
        simp at h0
        omega
    have := this k.klauses (weight k.klauses k [.visit ref]) (fun r => by unfold weight; split <;> omega)
    simp
    omega

theorem computeCore_ok {k k' : Kitten} (h : Good k) (he : k.computeCore = some k') : CoreOk k k' := by
  unfold Kitten.computeCore at he
  by_cases hc : k.status ≠ 20 ∨ k.antecedents = false
  · rw [if_pos hc] at he; cases he
  · rw [if_neg hc] at he
    have hs : k.status = 20 := Classical.not_not.1 fun h' => hc (Or.inl h')
    have ha : k.antecedents = true := by
      cases hx : k.antecedents with
      | true => rfl
      | false => exact absurd (Or.inr hx) hc
    cases hr : (k.inconsistent <|> k.failing) with
    | none =>
      rw [hr] at he
      simp only [Option.some.injEq] at he
      subst he
      obtain ⟨hc1, hc2⟩ := h.core (by omega)
      refine ⟨rfl, ⟨hs, ha⟩, status_alike _ _, rfl, rfl, rfl, fun r => ?_, fun r hm => ?_, fun i d kl hi => ?_, fun r hx => ?_, fun _ => hc1⟩
      · show k.isCore r = true ↔ r ∈ k.core
        rw [hc1]
        unfold Kitten.isCore
        cases hg : k.klauses[r]? with
        | none => simp
        | some kl => simp [hc2 kl (List.mem_of_getElem? hg)]
      · have hm : r ∈ k.core := hm
        rw [hc1] at hm; cases hm
      · have hi : k.core[i]? = some d := hi
        rw [hc1] at hi; cases hi
      · rw [hr] at hx; cases hx
    | some ref =>
      rw [hr] at he
      simp only at he
      by_cases hlt : ref < k.klauses.length
      · obtain ⟨k1, e, g1, g2, g3⟩ := core_start h hs ha hlt
        rw [e] at he
        simp only [Option.map_some, Option.some.injEq] at he
        subst he
        have hA : Alike k k1 := by
          unfold SameBut at g2
          rw [g2]
          exact ⟨rfl, rfl, rfl, rfl, rfl, rfl, rfl, rfl, rfl, rfl, rfl, rfl, rfl, g1.same⟩
        unfold SameBut at g2
        refine ⟨rfl, ⟨hs, ha⟩, hA.trans (status_alike _ _), by show k1.assumptions = _; rw [g2], by show k1.failed = _; rw [g2],
          by show k1.failing = _; rw [g2], g1.flag, fun r hm => ?_, fun i d kl hi hk hl a hm => ?_, fun r hx => ?_, fun hx => ?_⟩
        · have hm := (g1.flag r).2 hm
          unfold Kitten.isCore at hm
          cases hg : k1.klauses[r]? with
          | none => rw [hg] at hm; cases hm
          | some kl => exact lt_of_get hg
        · obtain ⟨y, e1, e2, e3, e4, e5⟩ := g1.same.get hk
          exact g1.topo i d y hi e1 (e3.trans hl) a (by rw [e5]; exact hm)
        · rw [hr] at hx
          cases hx
          exact (g1.flag ref).1 g3
        · rw [hr] at hx; cases hx
      · exfalso
        have hn : k.klauses[ref]? = none := List.getElem?_eq_none (by omega)
        unfold Kitten.coreFuel at he
        rw [Kitten.coreLoop, hn] at he
        cases he

theorem core_good {k k' : Kitten} (h : Good k) (hc : CoreOk k k') : Good k' := by
  refine ⟨h.inv.alike hc.alike.calm (Or.inl (root_level k)), ?_, ?_, ?_, ?_, ?_, ?_, ?_⟩
  · intro a ha
    rw [hc.assumptions] at ha
    show a / 2 < k'.exports.length
    rw [hc.alike.exports]
    exact h.valid a ha
  · intro hi
    rw [hc.alike.inconsistent] at hi
    obtain ⟨q1, q2, q3⟩ := h.semi hi
    exact ⟨q1.alike hc.alike.calm, hc.alike.calm.trail.trans q2, hc.alike.calm.propagated.trans q3⟩
  · rw [hc.failed, hc.assumptions]; exact h.failed
  · rw [hc.failing, hc.assumptions]; exact h.failing
  · rw [hc.failing, hc.failed, hc.status, hc.alike.inconsistent]
    rintro (h' | h')
    · omega
    · exact h.idle (Or.inr h')
  · intro h'; exact absurd hc.status h'
  · exact h.names.congr hc.alike.exports hc.alike.imports

end Verif.Kitten
