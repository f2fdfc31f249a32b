import Verif.Proofs.Congruence.Chain
import Verif.Proofs.Congruence.Xor

/-!
# The invariant of gates
-/

namespace Verif.Congruence

open Verif.Spec Verif.Model Verif.Simp

variable {orig : List (List Nat)} {F0 : Formula} {E : List (List Nat)} {c c' : Closure}

/-- The facts about a gate. -/
def GateOk (F : Formula) (ok : Nat → Prop) (g : Gate) : Prop :=
  ok g.lhs ∧ (∀ r ∈ g.rhs, ok r) ∧
  match g.tag with
  | .and => AndOk F g.lhs g.rhs
  | .xor => XorOk F g.lhs g.rhs ∧ (∀ r ∈ g.rhs, r % 2 = 0) ∧ g.rhs.Nodup
  | .ite => ∃ a t e, g.rhs = [a, t, e] ∧ IteOk F g.lhs a t e ∧ a / 2 ≠ t / 2 ∧ a / 2 ≠ e / 2 ∧ t / 2 ≠ e / 2

theorem GateOk.sub {F G : Formula} {ok ok' : Nat → Prop} {g : Gate} (h : GateOk F ok g) (hs : Sub F G) (ho : ∀ l, ok l → ok' l) :
    GateOk G ok' g := by
  refine ⟨ho _ h.1, fun r hr => ho r (h.2.1 r hr), ?_⟩
  have h3 := h.2.2
  cases ht : g.tag with
  | and => rw [ht] at h3; exact AndOk.sub h3 hs
  | xor => rw [ht] at h3; exact ⟨h3.1.sub hs, h3.2⟩
  | ite =>
    rw [ht] at h3
    obtain ⟨a, t, e, h4, h5, h6⟩ := h3
    exact ⟨a, t, e, h4, h5.sub hs, h6⟩

/-- An ITE gate has an input with the variable of the representative of a literal it occurs with. -/
def OccOk (c : Closure) (m g : Nat) : Prop :=
  (c.gate g).tag = .ite → ∃ r ∈ (c.gate g).rhs, c.findRepr r / 2 = c.findRepr m / 2

/-- The invariant, except for one gate. -/
structure GoodX (orig : List (List Nat)) (F0 : Formula) (E : List (List Nat)) (x : Option Nat) (c : Closure) : Prop where
  base : Base orig F0 E c
  gates : ∀ g, some g ≠ x → (c.gate g).garbage = false → GateOk (Congruence.base c.solver E) (Ok c.solver) (c.gate g)
  occ : ∀ m g, g ∈ c.occurrences m → g < c.gates.length ∧ (some g ≠ x → (c.gate g).garbage = false → OccOk c m g)

/-- The invariant. -/
abbrev Good (orig : List (List Nat)) (F0 : Formula) (E : List (List Nat)) (c : Closure) : Prop := GoodX orig F0 E none c

/-- What all steps keep. -/
structure Mono (c c' : Closure) : Prop where
  exports : c'.solver.exports = c.solver.exports
  removed : c'.solver.removed = c.solver.removed
  keep : ∀ l, c.solver.values l ≠ 0 → c'.solver.values l = c.solver.values l
  root : ∀ l m, c.findRepr l = c.findRepr m → c'.findRepr l = c'.findRepr m
  occ : ∀ m g, g ∈ c.occurrences m → g ∈ c'.occurrences m
  len : c.gates.length ≤ c'.gates.length
  le : Le c.solver.irr c'.solver.irr

theorem Mono.refl (c : Closure) : Mono c c := ⟨rfl, rfl, fun _ _ => rfl, fun _ _ h => h, fun _ _ h => h, Nat.le_refl _, .refl _⟩

theorem Mono.trans {a b c : Closure} (h : Mono a b) (h' : Mono b c) : Mono a c :=
  ⟨h'.exports.trans h.exports, h'.removed.trans h.removed, fun l hl => by
    rw [h'.keep l (by rw [h.keep l hl]; exact hl), h.keep l hl], fun l m e => h'.root l m (h.root l m e), fun m g hg => h'.occ m g (h.occ m g hg),
    Nat.le_trans h.len h'.len, h.le.trans h'.le⟩

theorem Rel.mono (h : Rel c c') : Mono c c' := ⟨h.exports, h.removed, h.keep, h.root, fun m g hg => by rw [h.occurrences]; exact hg,
  by rw [h.gates]; exact Nat.le_refl _, h.le⟩

theorem Mono.ok (h : Mono c c') {l : Nat} : Ok c'.solver l ↔ Ok c.solver l := by
  unfold Ok State.InRange
  rw [h.exports, h.removed]

/-- The outcome of a step on gates. -/
structure Res (orig : List (List Nat)) (F0 : Formula) (c c' : Closure) : Prop where
  mono : Mono c c'
  inv : ∃ E, InvE orig F0 E c'.solver ∧ (c'.solver.inconsistent = false → Good orig F0 E c')

theorem Good.res (h : Good orig F0 E c) : Res orig F0 c c := ⟨.refl c, E, h.base.inv, fun _ => h⟩

theorem gate_lt {g : Nat} (h : (c.gate g).garbage = false) : g < c.gates.length := by
  unfold Closure.gate at h
  rw [List.getD_eq_getElem?_getD] at h
  by_cases e : g < c.gates.length
  · exact e
  · rw [List.getElem?_eq_none (by omega)] at h; cases h

theorem gate_set {g : Nat} (hg : g < c.gates.length) (x : Gate) (h : Nat) : (c.setGate g x).gate h = if h = g then x else c.gate h := by
  unfold Closure.gate Closure.setGate
  simp only [List.getD_eq_getElem?_getD, List.getElem?_set]
  by_cases e : h = g
  · subst e; simp [hg]
  · have : ¬ g = h := fun h' => e h'.symm
    simp [e, this]

theorem findGate_some {tag : Tag} {rhs : List Nat} {x : Option Nat} {g : Nat} (h : c.findGate tag rhs x = some g) :
    some g ≠ x ∧ (c.gate g).garbage = false ∧ (c.gate g).tag = tag ∧ (c.gate g).rhs = rhs := by
  have := List.find?_some h
  simp only [Bool.and_eq_true, decide_eq_true_eq, Bool.not_eq_true', ne_eq] at this
  obtain ⟨⟨⟨h1, h2⟩, h3⟩, h4⟩ := this
  exact ⟨h1, h2, h3, h4⟩

/-- Roots with the same variable. -/
theorem Base.same_var (h : Base orig F0 E c) (h' : Base orig F0 E c') (hm : ∀ l m, c.findRepr l = c.findRepr m → c'.findRepr l = c'.findRepr m)
    {l m : Nat} (e : c.findRepr l / 2 = c.findRepr m / 2) : c'.findRepr l / 2 = c'.findRepr m / 2 := by
  rcases eq_or_eq_neg e with e | e
  · rw [hm l m e]
  · rw [← h.root_neg] at e
    rw [hm _ _ e, h'.root_neg, neg_div]

/-- Steps of the solver keep the gates. -/
theorem GoodX.out {x : Option Nat} (h : GoodX orig F0 E x c) (ho : Out orig F0 E c c') (hc : c'.solver.inconsistent = false) :
    GoodX orig F0 E x c' := by
  have hb := ho.base hc
  refine ⟨hb, fun g hx hg => ?_, fun m g hg => ?_⟩
  · rw [ho.rel.gate] at hg ⊢
    exact (h.gates g hx hg).sub (.of_le ho.rel.base_le) fun l hl => ho.rel.ok.2 hl
  · rw [ho.rel.occurrences] at hg
    obtain ⟨h1, h2⟩ := h.occ m g hg
    refine ⟨by rw [ho.rel.gates]; exact h1, fun hx hn ht => ?_⟩
    rw [ho.rel.gate] at hn ht ⊢
    obtain ⟨r, hr, e⟩ := h2 hx hn ht
    exact ⟨r, hr, h.base.same_var hb ho.rel.root e⟩

theorem GoodX.weaken (h : Good orig F0 E c) (g : Nat) : GoodX orig F0 E (some g) c :=
  ⟨h.base, fun k _ hk => h.gates k (by simp) hk, fun m k hk => ⟨(h.occ m k hk).1, fun _ => (h.occ m k hk).2 (by simp)⟩⟩

theorem GoodX.set {g : Nat} (h : GoodX orig F0 E (some g) c) (hg : g < c.gates.length) (x : Gate) : GoodX orig F0 E (some g) (c.setGate g x) := by
  refine ⟨h.base.congr rfl rfl rfl, fun k hk hn => ?_, fun m k hk => ?_⟩
  · have e : k ≠ g := fun e => hk (by rw [e])
    rw [gate_set hg, if_neg e] at hn ⊢
    exact h.gates k hk hn
  · obtain ⟨h1, h2⟩ := h.occ m k hk
    refine ⟨by show k < (c.gates.set g x).length; rw [List.length_set]; exact h1, fun hx hn ht => ?_⟩
    have e : k ≠ g := fun e => hx (by rw [e])
    rw [gate_set hg, if_neg e] at hn ht ⊢
    exact h2 hx hn ht

theorem set_mono (g : Nat) (x : Gate) : Mono c (c.setGate g x) := ⟨rfl, rfl, fun _ _ => rfl, fun _ _ h => h, fun _ _ h => h,
  by show c.gates.length ≤ (c.gates.set g x).length; rw [List.length_set]; exact Nat.le_refl _, .refl _⟩

/-- The gate left out is fine too. -/
theorem GoodX.full {g : Nat} (h : GoodX orig F0 E (some g) c)
    (h1 : (c.gate g).garbage = false → GateOk (Congruence.base c.solver E) (Ok c.solver) (c.gate g))
    (h2 : (c.gate g).garbage = false → ∀ m, g ∈ c.occurrences m → OccOk c m g) : Good orig F0 E c := by
  refine ⟨h.base, fun k _ hk => ?_, fun m k hk => ⟨(h.occ m k hk).1, fun _ hn => ?_⟩⟩
  · by_cases e : k = g
    · rw [e] at hk ⊢; exact h1 hk
    · exact h.gates k (by simpa using e) hk
  · by_cases e : k = g
    · rw [e] at hk hn ⊢; exact h2 hn m hk
    · exact (h.occ m k hk).2 (by simpa using e) hn

theorem GoodX.drop {g : Nat} (h : GoodX orig F0 E (some g) c) (hg : g < c.gates.length) : Good orig F0 E (c.dropGate g) := by
  refine (h.set hg _).full (fun hn => ?_) (fun hn => ?_)
  · rw [gate_set hg, if_pos rfl] at hn; cases hn
  · rw [gate_set hg, if_pos rfl] at hn; cases hn

/-- The gate is removed after a step of the solver. -/
theorem GoodX.finish {g : Nat} {c0 c1 : Closure} (h : GoodX orig F0 E (some g) c0) (hg : g < c0.gates.length) (ho : Out orig F0 E c0 c1)
    (hm : Mono c c0) : Res orig F0 c (c1.finish g) := by
  unfold Closure.finish
  by_cases e : c1.solver.inconsistent = true
  · rw [if_pos e]
    exact ⟨hm.trans ho.rel.mono, E, ho.inv, by rw [e]; intro h; cases h⟩
  · rw [if_neg e]
    have e : c1.solver.inconsistent = false := by simpa using e
    have h1 := h.out ho e
    have hg' : g < c1.gates.length := by rw [ho.rel.gates]; exact hg
    exact ⟨(hm.trans ho.rel.mono).trans (set_mono _ _), E, ho.inv, fun _ => h1.drop hg'⟩

theorem finish_done {g : Nat} (hg : g < c.gates.length) : (c.finish g).solver.inconsistent = true ∨ ((c.finish g).gate g).garbage = true := by
  unfold Closure.finish
  by_cases e : c.solver.inconsistent = true
  · rw [if_pos e]; exact Or.inl e
  · rw [if_neg e]
    right
    unfold Closure.dropGate
    rw [gate_set hg, if_pos rfl]

theorem Res.trans {c'' : Closure} (hm : Mono c c') (h : Res orig F0 c' c'') : Res orig F0 c c'' := ⟨hm.trans h.mono, h.inv⟩

theorem Base.true_imp (h : Base orig F0 E c) {l : Nat} {A : List Nat} (hl : 0 < c.solver.values l) : Imp (Congruence.base c.solver E) A l :=
  (h.imp_true hl).le irr_base

theorem Base.false_imp (h : Base orig F0 E c) {l : Nat} {A : List Nat} (hl : c.solver.values l < 0) :
    Imp (Congruence.base c.solver E) A (Spec.neg l) := (h.imp_false hl).le irr_base

/-- Literals with the same representative. -/
theorem Base.same (h : Base orig F0 E c) {a b : Nat} (e : c.findRepr a = c.findRepr b) : Imp (Congruence.base c.solver E) [a] b := by
  refine Imp.le ?_ irr_base
  have := h.imp_root a
  rw [e] at this
  exact this.chain (h.root_imp b)

theorem Base.same_neg (h : Base orig F0 E c) {a b : Nat} (e : c.findRepr a = c.findRepr b) :
    Imp (Congruence.base c.solver E) [Spec.neg a] (Spec.neg b) := h.same (by rw [h.root_neg, h.root_neg, e])

/-! ## Sorting -/

theorem insertLit_perm (l : Nat) : ∀ ls : List Nat, (insertLit l ls).Perm (l :: ls)
  | [] => .refl _
  | k :: ks => by
    unfold insertLit
    split
    · exact .refl _
    · exact ((insertLit_perm l ks).cons k).trans (.swap _ _ _)

theorem sortLits_perm : ∀ ls : List Nat, (sortLits ls).Perm ls
  | [] => .refl _
  | l :: ls => (insertLit_perm l _).trans ((sortLits_perm ls).cons l)

theorem mem_sortLits {ls : List Nat} (x : Nat) : x ∈ sortLits ls ↔ x ∈ ls := (sortLits_perm ls).mem_iff

/-! ## AND gates -/

theorem pair_bot {F : Formula} {a b : Nat} (h : Imp F [a] b) : Bot F [a, neg b] :=
  Bot.contra (l := b) (h.weaken (by simp)) (Imp.mem (by simp))

/-- The only input is left. -/
theorem Base.unary (h : Base orig F0 E c) (order : State → List Nat) {lhs r : Nat} (h1 : Ok c.solver lhs) (h2 : Ok c.solver r)
    (i1 : Imp (Congruence.base c.solver E) [lhs] r) (i2 : Imp (Congruence.base c.solver E) [r] lhs) :
    Out orig F0 E c (c.unary order lhs r) := by
  unfold Closure.unary
  split
  · rename_i hv
    exact (h.learnUnit order h2 (Bot.contra (l := r) (i1.one (h.true_imp hv)) (Imp.mem (by simp)))).1
  · split
    · rename_i hv
      exact (h.learnUnit order h2.neg (Bot.contra (l := lhs) (i2.weaken (by simp [neg_neg])) (h.false_imp hv))).1
    · refine h.merge order h1 h2 (pair_bot i1) ?_
      exact (pair_bot i2).weaken (by simp)

theorem Good.updateAnd (h : Good orig F0 E c) (order : State → List Nat) {g : Nat} (hn : (c.gate g).garbage = false)
    (ht : (c.gate g).tag = .and) {failed : Bool} {rhs : List Nat} (hf : failed = true → Bot (base c.solver E) [(c.gate g).lhs])
    (hr : failed = false → AndOk (base c.solver E) (c.gate g).lhs rhs ∧ ∀ r ∈ rhs, Ok c.solver r) :
    Res orig F0 c (c.updateAnd order g failed rhs) := by
  have hg := gate_lt hn
  have hok := (h.gates g (by simp) hn).1
  have hx := GoodX.weaken h g
  unfold Closure.updateAnd
  cases failed with
  | true => exact hx.finish hg (h.base.learnUnit order hok.neg (by rw [neg_neg]; exact hf rfl)).1 (.refl _)
  | false =>
    obtain ⟨a1, a2⟩ := hr rfl
    have general : Res orig F0 c
        (match (c.setGate g { c.gate g with rhs := sortLits rhs }).findGate .and (sortLits rhs) (some g) with
        | some k => ((c.setGate g { c.gate g with rhs := sortLits rhs }).merge order (c.gate g).lhs
            ((c.setGate g { c.gate g with rhs := sortLits rhs }).gate k).lhs).finish g
        | none => c.setGate g { c.gate g with rhs := sortLits rhs }) := by
      have hx1 := hx.set hg { c.gate g with rhs := sortLits rhs }
      have a3 : AndOk (base c.solver E) (c.gate g).lhs (sortLits rhs) := a1.mem mem_sortLits
      have e : (c.setGate g { c.gate g with rhs := sortLits rhs }).gate g = { c.gate g with rhs := sortLits rhs } := by
        rw [gate_set hg, if_pos rfl]
      have hs : (c.setGate g { c.gate g with rhs := sortLits rhs }).solver = c.solver := rfl
      have hm : Mono c (c.setGate g { c.gate g with rhs := sortLits rhs }) := set_mono _ _
      have hlen : (c.setGate g { c.gate g with rhs := sortLits rhs }).gates.length = c.gates.length := List.length_set
      generalize c.setGate g { c.gate g with rhs := sortLits rhs } = d at hx1 e hs hm hlen ⊢
      cases hfind : d.findGate .and (sortLits rhs) (some g) with
      | none =>
        refine ⟨hm, E, hx1.base.inv, fun _ => hx1.full (fun _ => ?_) (fun _ m hm ht' => ?_)⟩
        · rw [e, hs]
          refine ⟨hok, fun r hr => a2 r ((mem_sortLits r).1 hr), ?_⟩
          rw [ht]; exact a3
        · rw [e] at ht'; rw [ht] at ht'; cases ht'
      | some k =>
        obtain ⟨k1, k2, k3, k4⟩ := findGate_some hfind
        obtain ⟨g1, g2, g3⟩ := hx1.gates k k1 k2
        rw [k3] at g3
        simp only [k4] at g3
        refine hx1.finish (by rw [hlen]; exact hg) (hx1.base.merge order (by rw [hs]; exact hok) g1 ?_ ?_) hm
        · rw [hs] at g3 ⊢; exact a3.match_ g3
        · rw [hs] at g3 ⊢; exact (g3.match_ a3).weaken (by simp)
    match rhs, general, a1, a2 with
    | [], general, _, _ => exact general
    | [r], _, a1, a2 =>
      exact hx.finish hg (h.base.unary order hok (a2 r (by simp)) (a1.fwd r (by simp)) a1.back) (.refl _)
    | _ :: _ :: _, general, _, _ => exact general

/-- Assigned inputs are dropped. -/
theorem Good.simplifyAnd (h : Good orig F0 E c) (order : State → List Nat) {g : Nat} (ht : (c.gate g).tag = .and) :
    Res orig F0 c (c.simplifyAnd order g) := by
  unfold Closure.simplifyAnd
  by_cases hn : (c.gate g).garbage = true
  · rw [if_pos hn]; exact h.res
  rw [if_neg hn]
  have hn : (c.gate g).garbage = false := by simpa using hn
  by_cases hv : c.solver.values (c.gate g).lhs > 0
  · rw [if_pos hv]
    exact ⟨set_mono _ _, E, h.base.inv, fun _ => (GoodX.weaken h g).drop (gate_lt hn)⟩
  rw [if_neg hv]
  obtain ⟨g1, g2, g3⟩ := h.gates g (by simp) hn
  rw [ht] at g3
  refine h.updateAnd order hn ht (fun hf => ?_) (fun hf => ?_)
  · rw [List.any_eq_true] at hf
    obtain ⟨r, hr, hv⟩ := hf
    have hv : c.solver.values r < 0 := by simpa using hv
    exact Bot.contra (g3.fwd r hr) (h.base.false_imp hv)
  · rw [List.any_eq_false] at hf
    refine ⟨⟨fun r hr => g3.fwd r (List.mem_filter.1 hr).1, g3.back.cut fun r hr => ?_⟩, fun r hr => g2 r (List.mem_filter.1 hr).1⟩
    have h1 : ¬ c.solver.values r < 0 := by simpa using hf r hr
    by_cases h0 : c.solver.values r = 0
    · exact Imp.mem (List.mem_filter.2 ⟨hr, by simpa using h0⟩)
    · exact h.base.true_imp (by omega)

theorem rewriteAndRhs_some {v : Nat → Int} {lhs dst src : Nat} : ∀ {ls : List Nat} {seen seenNot : Bool} {rs : List Nat},
    rewriteAndRhs v lhs dst src ls seen seenNot = some rs →
    (∀ r ∈ rs, ∃ l ∈ ls, r = if l = src then dst else l) ∧
    ∀ l ∈ ls, (if l = src then dst else l) ∈ rs ∨ 0 < v (if l = src then dst else l) ∨ (seen = true ∧ (if l = src then dst else l) = dst)
  | [], seen, seenNot, rs, h => by
    unfold rewriteAndRhs at h
    cases h
    simp
  | l :: ls, seen, seenNot, rs, h => by
    unfold rewriteAndRhs at h
    simp only at h
    generalize hlit : (if l = src then dst else l) = lit at h
    have key : ∀ {s n : Bool}, rewriteAndRhs v lhs dst src ls s n = some rs → (s = seen) →
        (lit ∈ rs ∨ 0 < v lit ∨ (seen = true ∧ lit = dst)) →
        (∀ r ∈ rs, ∃ k ∈ l :: ls, r = if k = src then dst else k) ∧
        ∀ k ∈ l :: ls, (if k = src then dst else k) ∈ rs ∨ 0 < v (if k = src then dst else k) ∨ (seen = true ∧ (if k = src then dst else k) = dst) := by
      intro s n hs e hl
      obtain ⟨i1, i2⟩ := rewriteAndRhs_some hs
      refine ⟨fun r hr => ?_, fun k hk => ?_⟩
      · obtain ⟨k, hk, e⟩ := i1 r hr
        exact ⟨k, List.mem_cons_of_mem _ hk, e⟩
      · rcases List.mem_cons.1 hk with rfl | hk
        · rw [hlit]; exact hl
        · rw [← e]; exact i2 k hk
    have key2 : ∀ {s n : Bool}, (rewriteAndRhs v lhs dst src ls s n).map (lit :: ·) = some rs → (s = true → seen = true ∨ lit = dst) →
        (∀ r ∈ rs, ∃ k ∈ l :: ls, r = if k = src then dst else k) ∧
        ∀ k ∈ l :: ls, (if k = src then dst else k) ∈ rs ∨ 0 < v (if k = src then dst else k) ∨ (seen = true ∧ (if k = src then dst else k) = dst) := by
      intro s n hs e
      obtain ⟨rs', hs', rfl⟩ := Option.map_eq_some_iff.1 hs
      obtain ⟨i1, i2⟩ := rewriteAndRhs_some hs'
      refine ⟨fun r hr => ?_, fun k hk => ?_⟩
      · rcases List.mem_cons.1 hr with rfl | hr
        · exact ⟨l, by simp, hlit.symm⟩
        · obtain ⟨k, hk, e⟩ := i1 r hr
          exact ⟨k, List.mem_cons_of_mem _ hk, e⟩
      · rcases List.mem_cons.1 hk with rfl | hk
        · rw [hlit]; exact Or.inl (by simp)
        · rcases i2 k hk with h1 | h1 | ⟨h1, h2⟩
          · exact Or.inl (List.mem_cons_of_mem _ h1)
          · exact Or.inr (Or.inl h1)
          · rcases e h1 with h3 | h3
            · exact Or.inr (Or.inr ⟨h3, h2⟩)
            · rw [h2, ← h3]; exact Or.inl (by simp)
    split at h
    · cases h
    · split at h
      · rename_i hv
        exact key h rfl (Or.inr (Or.inl hv))
      · split at h
        · cases h
        · split at h
          · split at h
            · cases h
            · split at h
              · rename_i hd _ hs
                exact key h rfl (Or.inr (Or.inr ⟨hs, hd⟩))
              · rename_i hd _ hs
                exact key2 h fun _ => Or.inr hd
          · split at h
            · split at h
              · cases h
              · exact key2 h fun hs => Or.inl hs
            · exact key2 h fun hs => Or.inl hs

theorem rewriteAndRhs_none {v : Nat → Int} {lhs dst src : Nat} : ∀ {ls : List Nat} {seen seenNot : Bool},
    rewriteAndRhs v lhs dst src ls seen seenNot = none →
    (∃ l ∈ ls, (if l = src then dst else l) = neg lhs ∨ v (if l = src then dst else l) < 0) ∨
    ((seen = true ∨ ∃ l ∈ ls, (if l = src then dst else l) = dst) ∧ (seenNot = true ∨ ∃ l ∈ ls, (if l = src then dst else l) = neg dst))
  | [], seen, seenNot, h => by
    unfold rewriteAndRhs at h
    cases h
  | l :: ls, seen, seenNot, h => by
    unfold rewriteAndRhs at h
    simp only at h
    generalize hlit : (if l = src then dst else l) = lit at h
    have key : ∀ {s n : Bool}, rewriteAndRhs v lhs dst src ls s n = none → (s = true → seen = true ∨ lit = dst) →
        (n = true → seenNot = true ∨ lit = neg dst) →
        (∃ k ∈ l :: ls, (if k = src then dst else k) = neg lhs ∨ v (if k = src then dst else k) < 0) ∨
        ((seen = true ∨ ∃ k ∈ l :: ls, (if k = src then dst else k) = dst) ∧
          (seenNot = true ∨ ∃ k ∈ l :: ls, (if k = src then dst else k) = neg dst)) := by
      intro s n hs e1 e2
      rcases rewriteAndRhs_none hs with ⟨k, hk, hh⟩ | ⟨h1, h2⟩
      · exact Or.inl ⟨k, List.mem_cons_of_mem _ hk, hh⟩
      · refine Or.inr ⟨?_, ?_⟩
        · rcases h1 with h1 | ⟨k, hk, hh⟩
          · exact (e1 h1).imp id fun e => ⟨l, by simp, by rw [hlit, e]⟩
          · exact Or.inr ⟨k, List.mem_cons_of_mem _ hk, hh⟩
        · rcases h2 with h1 | ⟨k, hk, hh⟩
          · exact (e2 h1).imp id fun e => ⟨l, by simp, by rw [hlit, e]⟩
          · exact Or.inr ⟨k, List.mem_cons_of_mem _ hk, hh⟩
    split at h
    · rename_i e
      exact Or.inl ⟨l, by simp, Or.inl (by rw [hlit, e])⟩
    · split at h
      · exact key h Or.inl Or.inl
      · split at h
        · rename_i hv
          exact Or.inl ⟨l, by simp, Or.inr (by rw [hlit]; exact hv)⟩
        · split at h
          · rename_i hd
            split at h
            · rename_i hs
              exact Or.inr ⟨Or.inr ⟨l, by simp, by rw [hlit, hd]⟩, Or.inl hs⟩
            · split at h
              · exact key h Or.inl Or.inl
              · exact key (Option.map_eq_none_iff.1 h) (fun _ => Or.inr hd) Or.inl
          · split at h
            · rename_i hd
              split at h
              · rename_i hs
                exact Or.inr ⟨Or.inl hs, Or.inr ⟨l, by simp, by rw [hlit, hd]⟩⟩
              · exact key (Option.map_eq_none_iff.1 h) Or.inl (fun _ => Or.inr hd)
            · exact key (Option.map_eq_none_iff.1 h) Or.inl Or.inl

/-- An input is replaced by its representative. -/
theorem Good.rewriteAnd (h : Good orig F0 E c) (order : State → List Nat) {dst src g : Nat} (ht : (c.gate g).tag = .and)
    (hroot : c.findRepr src = c.findRepr dst) (hok : Ok c.solver src → Ok c.solver dst) : Res orig F0 c (c.rewriteAnd order dst src g) := by
  unfold Closure.rewriteAnd
  by_cases hn : (c.gate g).garbage = true
  · rw [if_pos hn]; exact h.res
  rw [if_neg hn]
  have hn : (c.gate g).garbage = false := by simpa using hn
  by_cases hv : c.solver.values (c.gate g).lhs > 0
  · rw [if_pos hv]
    exact ⟨set_mono _ _, E, h.base.inv, fun _ => (GoodX.weaken h g).drop (gate_lt hn)⟩
  rw [if_neg hv]
  by_cases hsrc : src ∉ (c.gate g).rhs
  · rw [if_pos hsrc]; exact h.res
  rw [if_neg hsrc]
  obtain ⟨g1, g2, g3⟩ := h.gates g (by simp) hn
  rw [ht] at g3
  have hfwd : ∀ l ∈ (c.gate g).rhs, Imp (base c.solver E) [(c.gate g).lhs] (if l = src then dst else l) := by
    intro l hl
    split
    · rename_i e
      rw [e] at hl
      exact (h.base.same hroot).one (g3.fwd src hl)
    · exact g3.fwd l hl
  cases hrw : rewriteAndRhs c.solver.values (c.gate g).lhs dst src (c.gate g).rhs false false with
  | none =>
    refine h.updateAnd order hn ht (fun _ => ?_) (fun hf => by cases hf)
    rcases rewriteAndRhs_none hrw with ⟨l, hl, e | e⟩ | ⟨h1, h2⟩
    · have := hfwd l hl
      rw [e] at this
      exact Bot.contra (l := (c.gate g).lhs) (Imp.mem (by simp)) this
    · exact Bot.contra (hfwd l hl) (h.base.false_imp e)
    · obtain ⟨l, hl, e⟩ := h1.resolve_left (by simp)
      obtain ⟨k, hk, e'⟩ := h2.resolve_left (by simp)
      have i1 := hfwd l hl
      have i2 := hfwd k hk
      rw [e] at i1
      rw [e'] at i2
      exact Bot.contra i1 i2
  | some rs =>
    obtain ⟨i1, i2⟩ := rewriteAndRhs_some hrw
    refine h.updateAnd order hn ht (fun hf => by cases hf) (fun _ => ⟨⟨fun r hr => ?_, g3.back.cut fun l hl => ?_⟩, fun r hr => ?_⟩)
    · obtain ⟨l, hl, rfl⟩ := i1 r hr
      exact hfwd l hl
    · have hlit : Imp (base c.solver E) rs (if l = src then dst else l) := by
        rcases i2 l hl with h1 | h1 | ⟨h1, _⟩
        · exact Imp.mem h1
        · exact h.base.true_imp h1
        · cases h1
      split at hlit
      · rename_i e
        rw [e]
        exact (h.base.same hroot.symm).one hlit
      · exact hlit
    · obtain ⟨l, hl, rfl⟩ := i1 r hr
      split
      · rename_i e
        rw [e] at hl
        exact hok (g2 src hl)
      · exact g2 l hl

end Verif.Congruence
