import Verif.Proofs.Congruence.InvE

/-!
# Representatives, units and binary clauses
-/

namespace Verif.Congruence

open Verif.Spec Verif.Model Verif.Simp

/-- Known literals which are not eliminated. -/
def Ok (s : State) (l : Nat) : Prop := s.InRange l ∧ s.removed (l / 2) = false

theorem Ok.neg {s : State} {l : Nat} (h : Ok s l) : Ok s (neg l) := by
  unfold Ok State.InRange at h ⊢
  rw [neg_div]; exact h

/-- The invariant of representatives and saved binary clauses. -/
structure Base (orig : List (List Nat)) (F0 : Formula) (E : List (List Nat)) (c : Closure) : Prop where
  inv : InvE orig F0 E c.solver
  cons : c.solver.inconsistent = false
  neg : ∀ l, c.repr (neg l) = neg (c.repr l)
  lt : ∀ l, c.repr l ≠ l → c.repr l / 2 < l / 2
  ok : ∀ l, Ok c.solver l → Ok c.solver (c.repr l)
  val : ∀ l, c.solver.values (c.repr l) = c.solver.values l
  link : ∀ l, c.repr l = l ∨ c.solver.values l ≠ 0 ∨ c.solver.irr [Spec.neg l, c.repr l]
  bins : ∀ p ∈ c.binaries, UC c.solver.irr [p.1, p.2] ∧ Ok c.solver p.1 ∧ Ok c.solver p.2

/-- What the steps keep. -/
structure Rel (c c' : Closure) : Prop where
  le : Le c.solver.irr c'.solver.irr
  exports : c'.solver.exports = c.solver.exports
  removed : c'.solver.removed = c.solver.removed
  keep : ∀ l, c.solver.values l ≠ 0 → c'.solver.values l = c.solver.values l
  gates : c'.gates = c.gates
  occurrences : c'.occurrences = c.occurrences
  root : ∀ l m, c.findRepr l = c.findRepr m → c'.findRepr l = c'.findRepr m
  bins : ∃ bs, c'.binaries = c.binaries ++ bs

theorem Rel.refl (c : Closure) : Rel c c := ⟨.refl _, rfl, rfl, fun _ _ => rfl, rfl, rfl, fun _ _ h => h, [], by simp⟩

theorem Rel.trans {a b c : Closure} (h : Rel a b) (h' : Rel b c) : Rel a c := by
  refine ⟨h.le.trans h'.le, h'.exports.trans h.exports, h'.removed.trans h.removed, fun l hl => ?_, h'.gates.trans h.gates,
    h'.occurrences.trans h.occurrences, fun l m hlm => h'.root l m (h.root l m hlm), ?_⟩
  · rw [h'.keep l (by rw [h.keep l hl]; exact hl), h.keep l hl]
  · obtain ⟨b1, e1⟩ := h.bins
    obtain ⟨b2, e2⟩ := h'.bins
    exact ⟨b1 ++ b2, by rw [e2, e1, List.append_assoc]⟩

theorem Rel.ok {c c' : Closure} (h : Rel c c') {l : Nat} : Ok c'.solver l ↔ Ok c.solver l := by
  unfold Ok State.InRange
  rw [h.exports, h.removed]

theorem Rel.gate {c c' : Closure} (h : Rel c c') (g : Nat) : c'.gate g = c.gate g := by
  unfold Closure.gate; rw [h.gates]

/-- The outcome of a step. -/
structure Out (orig : List (List Nat)) (F0 : Formula) (E : List (List Nat)) (c c' : Closure) : Prop where
  rel : Rel c c'
  inv : InvE orig F0 E c'.solver
  base : c'.solver.inconsistent = false → Base orig F0 E c'

variable {orig : List (List Nat)} {F0 : Formula} {E : List (List Nat)} {c c' : Closure}

theorem Base.out (h : Base orig F0 E c) : Out orig F0 E c c := ⟨.refl _, h.inv, fun _ => h⟩

theorem Base.congr (h : Base orig F0 E c) (h1 : c'.solver = c.solver) (h2 : c'.repr = c.repr) (h3 : c'.binaries = c.binaries) :
    Base orig F0 E c' := by
  cases c; cases c'
  simp only at h1 h2 h3
  subst h1 h2 h3
  exact ⟨h.inv, h.cons, h.neg, h.lt, h.ok, h.val, h.link, h.bins⟩

theorem Out.trans {c'' : Closure} (h : Out orig F0 E c c') (h' : c'.solver.inconsistent = false → Out orig F0 E c' c'')
    (hi : c'.solver.inconsistent = true → c'' = c') : Out orig F0 E c c'' := by
  cases e : c'.solver.inconsistent with
  | true => rw [hi e]; exact h
  | false => exact ⟨h.rel.trans (h' e).rel, (h' e).inv, (h' e).base⟩

/-! ## Representatives -/

theorem follow_step (repr : Nat → Nat) (hlt : ∀ l, repr l ≠ l → repr l / 2 < l / 2) : ∀ {n m l : Nat}, l / 2 < n → l / 2 < m →
    follow repr n l = follow repr m l
  | 0, _, _, h, _ => absurd h (Nat.not_lt_zero _)
  | _ + 1, 0, _, _, h => absurd h (Nat.not_lt_zero _)
  | n + 1, m + 1, l, h1, h2 => by
    unfold follow
    split
    · rfl
    · rename_i hne
      have := hlt l hne
      exact follow_step repr hlt (by omega) (by omega)

theorem findRepr_root {repr : Nat → Nat} (hr : c.repr = repr) {l : Nat} (h : repr l = l) : c.findRepr l = l := by
  unfold Closure.findRepr follow
  rw [hr, if_pos h]

theorem findRepr_step (hlt : ∀ l, c.repr l ≠ l → c.repr l / 2 < l / 2) {l : Nat} (h : c.repr l ≠ l) :
    c.findRepr l = c.findRepr (c.repr l) := by
  have e : c.findRepr l = follow c.repr l (c.repr l) := by
    show (if c.repr l = l then l else follow c.repr l (c.repr l)) = _
    rw [if_neg h]
  rw [e]
  have := hlt l h
  exact follow_step _ hlt (by omega) (by omega)

theorem findRepr_ind (hlt : ∀ l, c.repr l ≠ l → c.repr l / 2 < l / 2) {p : Nat → Nat → Prop} (hroot : ∀ l, c.repr l = l → p l l)
    (hstep : ∀ l r, c.repr l ≠ l → p (c.repr l) r → p l r) : ∀ (n l : Nat), l / 2 < n → p l (c.findRepr l)
  | 0, _, h => absurd h (Nat.not_lt_zero _)
  | n + 1, l, h => by
    by_cases e : c.repr l = l
    · rw [findRepr_root rfl e]; exact hroot l e
    · rw [findRepr_step hlt e]
      have := hlt l e
      exact hstep l _ e (findRepr_ind hlt hroot hstep n _ (by omega))

theorem Base.unit (h : Base orig F0 E c) {l : Nat} (hl : 0 < c.solver.values l) : c.solver.irr [l] :=
  Or.inl ⟨l, (h.inv.inv.struct.trail l).2 hl, rfl⟩

theorem Base.vneg (h : Base orig F0 E c) (l : Nat) : c.solver.values (Spec.neg l) = - c.solver.values l :=
  h.inv.inv.struct.neg l

theorem Base.imp_true (h : Base orig F0 E c) {l : Nat} {A : List Nat} (hl : 0 < c.solver.values l) : Imp c.solver.irr A l :=
  Imp.unit (h.unit hl)

theorem Base.imp_false (h : Base orig F0 E c) {l : Nat} {A : List Nat} (hl : c.solver.values l < 0) :
    Imp c.solver.irr A (Spec.neg l) := Imp.unit (h.unit (by rw [h.vneg]; omega))

/-- A literal implies its representative. -/
theorem Base.imp_repr (h : Base orig F0 E c) (l : Nat) : Imp c.solver.irr [l] (c.repr l) := by
  rcases h.link l with e | hv | hc
  · rw [e]; exact Imp.mem (by simp)
  · by_cases hp : 0 < c.solver.values l
    · exact h.imp_true (by rw [h.val]; exact hp)
    · exact (Bot.contra (l := l) (Imp.mem (by simp)) (h.imp_false (by omega))).imp
  · refine Imp.clause hc (by simp) fun m hm hne => ?_
    simp only [List.mem_cons, List.not_mem_nil, or_false] at hm
    rcases hm with rfl | rfl
    · rw [neg_neg]; exact Imp.mem (by simp)
    · exact absurd rfl hne

theorem Base.repr_imp (h : Base orig F0 E c) (l : Nat) : Imp c.solver.irr [c.repr l] l := by
  rcases h.link (Spec.neg l) with e | hv | hc
  · rw [h.neg] at e
    rw [neg_inj e]; exact Imp.mem (by simp)
  · rw [h.vneg] at hv
    by_cases hp : 0 < c.solver.values l
    · exact h.imp_true hp
    · exact (Bot.contra (l := c.repr l) (Imp.mem (by simp)) (h.imp_false (by rw [h.val]; omega))).imp
  · rw [h.neg, neg_neg] at hc
    refine Imp.clause hc (by simp) fun m hm hne => ?_
    simp only [List.mem_cons, List.not_mem_nil, or_false] at hm
    rcases hm with rfl | rfl
    · exact absurd rfl hne
    · rw [neg_neg]; exact Imp.mem (by simp)

theorem Base.root (h : Base orig F0 E c) (l : Nat) : c.repr (c.findRepr l) = c.findRepr l :=
  findRepr_ind h.lt (p := fun _ r => c.repr r = r) (fun _ h => h) (fun _ _ _ h => h) (l + 1) l (by omega)

theorem Base.root_le (h : Base orig F0 E c) (l : Nat) : c.findRepr l / 2 ≤ l / 2 :=
  findRepr_ind h.lt (p := fun l r => r / 2 ≤ l / 2) (fun _ _ => Nat.le_refl _)
    (fun l r h1 h2 => by have := h.lt l h1; omega) (l + 1) l (by omega)

theorem Base.root_neg (h : Base orig F0 E c) (l : Nat) : c.findRepr (Spec.neg l) = Spec.neg (c.findRepr l) := by
  refine findRepr_ind h.lt (p := fun l r => c.findRepr (Spec.neg l) = Spec.neg r) (fun l e => ?_) (fun l r e ih => ?_) (l + 1) l (by omega)
  · exact findRepr_root rfl (by rw [h.neg, e])
  · rw [findRepr_step h.lt (by rw [h.neg]; exact fun e' => e (neg_inj e')), h.neg]; exact ih

theorem Base.root_val (h : Base orig F0 E c) (l : Nat) : c.solver.values (c.findRepr l) = c.solver.values l :=
  findRepr_ind h.lt (p := fun l r => c.solver.values r = c.solver.values l) (fun _ _ => rfl)
    (fun l r _ h2 => by rw [h2, h.val]) (l + 1) l (by omega)

theorem Base.root_ok (h : Base orig F0 E c) {l : Nat} (hl : Ok c.solver l) : Ok c.solver (c.findRepr l) :=
  findRepr_ind h.lt (p := fun l r => Ok c.solver l → Ok c.solver r) (fun _ _ h => h)
    (fun l r _ h2 hl => h2 (h.ok l hl)) (l + 1) l (by omega) hl

theorem Imp.chain {F : Formula} {a b d : Nat} (h1 : Imp F [a] b) (h2 : Imp F [b] d) : Imp F [a] d :=
  h2.cut fun x hx => by rw [List.mem_singleton.1 hx]; exact h1

theorem Base.imp_root (h : Base orig F0 E c) (l : Nat) : Imp c.solver.irr [l] (c.findRepr l) :=
  findRepr_ind h.lt (p := fun l r => Imp c.solver.irr [l] r) (fun _ _ => Imp.mem (by simp))
    (fun l _ _ h2 => (h.imp_repr l).chain h2) (l + 1) l (by omega)

theorem Base.root_imp (h : Base orig F0 E c) (l : Nat) : Imp c.solver.irr [c.findRepr l] l :=
  findRepr_ind h.lt (p := fun l r => Imp c.solver.irr [r] l) (fun _ _ => Imp.mem (by simp))
    (fun l _ _ h2 => h2.chain (h.repr_imp l)) (l + 1) l (by omega)

theorem irr_base {s : State} : Le s.irr (base s E) := .of_sub fun _ h => Or.inl h

theorem Rel.base_le (h : Rel c c') : Le (Congruence.base c.solver E) (Congruence.base c'.solver E) := by
  rintro d (hd | hd)
  · rcases h.le d hd with h1 | ⟨l, hl, h1⟩
    · exact Or.inl (Or.inl h1)
    · exact Or.inr ⟨l, hl, Or.inl h1⟩
  · exact Or.inl (Or.inr hd)

/-! ## Units -/

theorem UC.of_unit {F : Formula} {C : List Nat} {l : Nat} (hl : l ∈ C) (h : F [l]) : UC F C :=
  UC.le (F := fun d => d = C) (UC.of_clause rfl) (by rintro d rfl; exact Or.inr ⟨l, hl, h⟩)

theorem irr_binary {s : State} {a b : Nat} (h : s.irr [a, b]) :
    ∃ r, (s.clause r).garbage = false ∧ (s.clause r).redundant = false ∧ (s.clause r).lits = [a, b] := by
  rcases h with ⟨l, _, h⟩ | ⟨r, h1, h2, h3⟩
  · simp at h
  · exact ⟨r, h1, h2, h3.symm⟩

theorem Base.grow {s' : State} (h : Base orig F0 E c) (hi : InvE orig F0 E s') (hg : Grow (fun _ => True) c.solver s')
    (hc : s'.inconsistent = true ∨ s'.unitBinary (fun _ => true) = none) : Out orig F0 E c { c with solver := s' } := by
  have hirr : ∀ d, c.solver.irr d → s'.irr d := fun d => hg.irr h.inv.inv.struct hi.inv.struct
  have hrel : Rel c { c with solver := s' } :=
    ⟨.of_sub hirr, hg.exports, hg.removed, hg.keep, rfl, rfl, fun _ _ h => h, [], by simp⟩
  refine ⟨hrel, hi, fun hcons => ?_⟩
  have hn : s'.unitBinary (fun _ => true) = none := by
    rcases hc with hc | hc
    · have : s'.inconsistent = false := hcons
      rw [hc] at this; cases this
    · exact hc
  have himp : ∀ a b, b ≠ Spec.neg a → c.solver.irr [Spec.neg a, b] → 0 < s'.values a → 0 < s'.values b := by
    intro a b hab hcl hv
    obtain ⟨r, r1, r2, r3⟩ := irr_binary (hirr _ hcl)
    exact implied_true hi.inv.struct hn (r := r) rfl r1 r2 (by rw [r3]; rfl) (a := a) (b := b) (by rw [r3]; simp) (by rw [r3]; simp) hab hv
  have hpos : ∀ l, 0 < s'.values l → c.solver.values l = 0 → 0 < s'.values (c.repr l) := by
    intro l hv h0
    rcases h.link l with e | hv' | hcl
    · rw [e]; exact hv
    · exact absurd h0 hv'
    · refine himp l _ ?_ hcl hv
      intro e
      have h1 := h.lt l (by rw [e]; exact neg_ne l)
      rw [e, neg_div] at h1
      omega
  have hpos' : ∀ l, 0 < s'.values (c.repr l) → c.solver.values l = 0 → 0 < s'.values l := by
    intro l hv h0
    rcases h.link (Spec.neg l) with e | hv' | hcl
    · rw [h.neg] at e
      rw [neg_inj e] at hv; exact hv
    · rw [h.vneg, h0] at hv'; exact absurd rfl hv'
    · by_cases e : c.repr l = l
      · rw [e] at hv; exact hv
      rw [h.neg] at hcl
      by_cases hp : 0 < s'.values l
      · exact hp
      obtain ⟨r, r1, r2, r3⟩ := irr_binary (hirr _ hcl)
      rw [neg_neg] at r3
      refine implied_true hi.inv.struct hn (r := r) rfl r1 r2 (by rw [r3]; rfl) (a := c.repr l) (b := l) (by rw [r3]; simp) (by rw [r3]; simp) ?_ hv
      intro e
      have h1 := h.lt l (by intro e'; rw [e'] at e; exact neg_ne l e.symm)
      have h2 := congrArg (· / 2) e
      simp only [neg_div] at h2
      omega
  refine ⟨hi, hcons, h.neg, h.lt, fun l hl => ?_, fun l => ?_, fun l => ?_, fun p hp => ?_⟩
  · exact hrel.ok.2 (h.ok l (hrel.ok.1 hl))
  · show s'.values (c.repr l) = s'.values l
    by_cases h0 : c.solver.values l = 0
    · have hn0 : c.solver.values (Spec.neg l) = 0 := by rw [h.vneg, h0]; rfl
      have r1 := hi.inv.struct.range l
      have r2 := hi.inv.struct.range (c.repr l)
      have n1 := hi.inv.struct.neg l
      have n2 := hi.inv.struct.neg (c.repr l)
      have q1 := fun a => hpos l a h0
      have q2 := fun a => hpos' l a h0
      have q3 := fun a => hpos (Spec.neg l) a hn0
      have q4 := fun a => hpos' (Spec.neg l) a hn0
      rw [h.neg, n2, n1] at q3 q4
      omega
    · rw [hg.keep l h0, hg.keep _ (by rw [h.val]; exact h0), h.val]
  · rcases h.link l with e | hv | hcl
    · exact Or.inl e
    · refine Or.inr (Or.inl ?_)
      show s'.values l ≠ 0
      rw [hg.keep l hv]; exact hv
    · exact Or.inr (Or.inr (hirr _ hcl))
  · obtain ⟨b1, b2, b3⟩ := h.bins p hp
    exact ⟨b1.le (.of_sub hirr), hrel.ok.2 b2, hrel.ok.2 b3⟩

theorem Base.failed (h : Base orig F0 E c) (hb : Bot (base c.solver E) []) :
    Out orig F0 E c { c with solver := c.solver.learnedEmpty } :=
  ⟨⟨.refl _, rfl, rfl, fun _ _ => rfl, rfl, rfl, fun _ _ h => h, [], by simp⟩, h.inv.learnedEmpty (rup_full (c := []) hb), by intro h; cases h⟩

theorem Base.learnUnit (h : Base orig F0 E c) (order : State → List Nat) {u : Nat} (hu : Ok c.solver u)
    (hb : Bot (base c.solver E) [Spec.neg u]) : Out orig F0 E c (c.learnUnit order u) ∧
    ((c.learnUnit order u).solver.inconsistent = false → 0 < (c.learnUnit order u).solver.values u) := by
  unfold Closure.learnUnit
  by_cases c1 : c.solver.values u > 0
  · rw [if_pos c1]; exact ⟨h.out, fun _ => c1⟩
  · rw [if_neg c1]
    by_cases c2 : c.solver.values u < 0
    · rw [if_pos c2]
      refine ⟨h.failed (hb.cut fun b hb => ?_), by intro h; cases h⟩
      rw [List.mem_singleton.1 hb]
      exact (h.imp_false c2).le irr_base
    · rw [if_neg c2]
      have c3 : c.solver.values u = 0 := by omega
      have i1 := h.inv.learnedUnit c3 hu.1 hu.2 (rup_full (c := [u]) hb)
      have i2 := i1.propagateRoot (fun _ => true) (order (c.solver.learnedUnit u))
      obtain ⟨_, j2, j3⟩ := i1.inv.propagateRoot (V := fun _ => True) (w := fun _ => true) (fun _ _ _ _ _ => ⟨trivial, trivial⟩)
        (order (c.solver.learnedUnit u))
      have hg := (grow_unit (V := fun _ => True) h.inv.inv.struct c3 trivial trivial).trans j2
      refine ⟨h.grow i2 hg j3, fun _ => ?_⟩
      show 0 < ((c.solver.learnedUnit u).propagateRoot _ _).values u
      rw [j2.keep u (by rw [values_learned, if_pos rfl]; simp), values_learned, if_pos rfl]; simp

/-! ## Binary clauses -/

theorem le_new {s : State} {d : List Nat} {red : Bool} : Le s.irr (s.newClause d red).irr :=
  .of_sub fun _ h => irr_new.2 (Or.inr h)

theorem Base.newBinary (h : Base orig F0 E c) {a b : Nat} (ha : Ok c.solver a) (hb : Ok c.solver b) (hab : a ≠ b)
    (hn : a ≠ Spec.neg b) (hbot : Bot (base c.solver E) [Spec.neg a, Spec.neg b]) : Out orig F0 E c (c.newBinary a b) ∧
    (c.newBinary a b).solver.irr [a, b] := by
  have hmem : ∀ {p : Nat → Prop}, p a → p b → ∀ l ∈ [a, b], p l := by
    intro p h1 h2 l hl
    simp only [List.mem_cons, List.not_mem_nil, or_false] at hl
    rcases hl with rfl | rfl
    · exact h1
    · exact h2
  have hi : InvE orig F0 E (c.solver.newClause [a, b] false) := by
    refine h.inv.newClause (hmem ha.1 hb.1) (by simpa using hab) (hmem ?_ ?_) (by simp) (fun _ => hmem ha.2 hb.2) (rup_full hbot)
    · simp only [List.mem_cons, List.not_mem_nil, or_false, not_or]
      exact ⟨neg_ne a, fun e => hn (by rw [← e, neg_neg])⟩
    · simp only [List.mem_cons, List.not_mem_nil, or_false, not_or]
      exact ⟨fun e => hn e.symm, neg_ne b⟩
  have hcl : (c.newBinary a b).solver.irr [a, b] := irr_new.2 (Or.inl ⟨rfl, Or.inl rfl⟩)
  have hrel : Rel c (c.newBinary a b) :=
    ⟨le_new, rfl, rfl, fun _ _ => rfl, rfl, rfl, fun _ _ h => h, _, rfl⟩
  refine ⟨⟨hrel, hi, fun _ => ⟨hi, h.cons, h.neg, h.lt, h.ok, h.val, fun l => ?_, fun p hp => ?_⟩⟩, hcl⟩
  · exact (h.link l).imp id (Or.imp id fun hh => irr_new.2 (Or.inr hh))
  · rcases List.mem_append.1 (show p ∈ c.binaries ++ [if a < b then (a, b) else (b, a)] from hp) with hp | hp
    · obtain ⟨b1, b2, b3⟩ := h.bins p hp
      exact ⟨b1.le hrel.le, b2, b3⟩
    · rw [List.mem_singleton.1 hp]
      split
      · exact ⟨UC.of_clause hcl, ha, hb⟩
      · exact ⟨(UC.of_clause hcl).perm (List.Perm.swap _ _ _), hb, ha⟩

theorem Base.addBinary (h : Base orig F0 E c) (order : State → List Nat) {a b : Nat} (ha : Ok c.solver a) (hb : Ok c.solver b)
    (hbot : Bot (base c.solver E) [Spec.neg a, Spec.neg b]) : Out orig F0 E c (c.addBinary order a b) ∧
    ((c.addBinary order a b).solver.inconsistent = false → UC (c.addBinary order a b).solver.irr [a, b]) := by
  have hlearn : ∀ u ∈ [a, b], Ok c.solver u → Bot (base c.solver E) [Spec.neg u] → Out orig F0 E c (c.learnUnit order u) ∧
      ((c.learnUnit order u).solver.inconsistent = false → UC (c.learnUnit order u).solver.irr [a, b]) := by
    intro u hu hok hub
    obtain ⟨o1, o2⟩ := h.learnUnit order hok hub
    exact ⟨o1, fun hc => UC.of_unit hu ((o1.base hc).unit (o2 hc))⟩
  unfold Closure.addBinary
  rw [if_neg (by rw [h.cons]; simp)]
  by_cases c1 : a = Spec.neg b
  · rw [if_pos c1]; exact ⟨h.out, fun _ => UC.taut (l := b) (by simp) (by rw [c1]; simp)⟩
  rw [if_neg c1]
  by_cases c2 : c.solver.values a > 0
  · rw [if_pos c2]; exact ⟨h.out, fun _ => UC.of_unit (by simp) (h.unit c2)⟩
  rw [if_neg c2]
  by_cases c3 : c.solver.values b > 0
  · rw [if_pos c3]; exact ⟨h.out, fun _ => UC.of_unit (l := b) (by simp) (h.unit c3)⟩
  rw [if_neg c3]
  by_cases c4 : a = b
  · rw [if_pos c4]; exact hlearn a (by simp) ha (hbot.weaken (by rw [← c4]; simp))
  rw [if_neg c4]
  by_cases c5 : c.solver.values a < 0 ∧ c.solver.values b = 0
  · rw [if_pos c5]
    refine hlearn b (by simp) hb (hbot.cut fun m hm => ?_)
    simp only [List.mem_cons, List.not_mem_nil, or_false] at hm
    rcases hm with rfl | rfl
    · exact (h.imp_false c5.1).le irr_base
    · exact Imp.mem (by simp)
  rw [if_neg c5]
  by_cases c6 : c.solver.values a = 0 ∧ c.solver.values b < 0
  · rw [if_pos c6]
    refine hlearn a (by simp) ha (hbot.cut fun m hm => ?_)
    simp only [List.mem_cons, List.not_mem_nil, or_false] at hm
    rcases hm with rfl | rfl
    · exact Imp.mem (by simp)
    · exact (h.imp_false c6.2).le irr_base
  rw [if_neg c6]
  obtain ⟨o1, o2⟩ := h.newBinary ha hb c4 c1 hbot
  exact ⟨o1, fun _ => UC.of_clause o2⟩

end Verif.Congruence
