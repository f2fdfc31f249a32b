import Verif.Proofs.Congruence.IteGate

/-!
# Propagation of units and equivalences
-/

namespace Verif.Congruence

open Verif.Spec Verif.Model Verif.Simp

variable {orig : List (List Nat)} {F0 : Formula} {E : List (List Nat)} {c c' c'' : Closure}

theorem Res.then (h : Res orig F0 c c') (h' : ∀ E, Good orig F0 E c' → Res orig F0 c' c'')
    (hi : c'.solver.inconsistent = true → c'' = c') : Res orig F0 c c'' := by
  cases e : c'.solver.inconsistent with
  | true => rw [hi e]; exact h
  | false =>
    obtain ⟨E, _, h2⟩ := h.inv
    exact Res.trans h.mono (h' E (h2 e))

theorem Good.simplifyGate (h : Good orig F0 E c) (order : State → List Nat) {g m : Nat} (hm : c.solver.values m ≠ 0)
    (hocc : g ∈ c.occurrences m) : Res orig F0 c (c.simplifyGate order g) := by
  unfold Closure.simplifyGate
  cases ht : (c.gate g).tag with
  | and => exact h.simplifyAnd order ht
  | xor => exact h.simplifyXor order ht
  | ite => exact h.simplifyIte order ht hm hocc

theorem Good.rewriteGate (h : Good orig F0 E c) (order : State → List Nat) {dst src g : Nat} (hroot : c.findRepr src = c.findRepr dst)
    (hok : Ok c.solver src → Ok c.solver dst) : Res orig F0 c (c.rewriteGate order dst src g) := by
  unfold Closure.rewriteGate
  cases ht : (c.gate g).tag with
  | and => exact h.rewriteAnd order ht hroot hok
  | xor => exact h.rewriteXor order ht hroot hok
  | ite => exact h.rewriteIte order ht hroot hok

theorem Good.simplifyGates (order : State → List Nat) {m : Nat} : ∀ (gs : List Nat) {c : Closure} {E : List (List Nat)}, Good orig F0 E c →
    c.solver.values m ≠ 0 → (∀ g ∈ gs, g ∈ c.occurrences m) → Res orig F0 c (c.simplifyGates order gs)
  | [], c, E, h, _, _ => h.res
  | g :: gs, c, E, h, hm, hocc => by
    unfold Closure.simplifyGates
    have r := h.simplifyGate order hm (hocc g (by simp))
    simp only
    refine r.then (fun E' h' => ?_) (fun hi => by rw [if_pos hi])
    rw [if_neg (by rw [h'.base.cons]; simp)]
    exact Good.simplifyGates order gs h' (by rw [r.mono.keep m hm]; exact hm) fun k hk => r.mono.occ _ _ (hocc k (by simp [hk]))

theorem Good.rewriteGates (order : State → List Nat) {dst src : Nat} : ∀ (gs : List Nat) {c : Closure} {E : List (List Nat)}, Good orig F0 E c →
    c.findRepr src = c.findRepr dst → (Ok c.solver src → Ok c.solver dst) → Res orig F0 c (c.rewriteGates order dst src gs)
  | [], c, E, h, _, _ => h.res
  | g :: gs, c, E, h, hroot, hok => by
    unfold Closure.rewriteGates
    have r := h.rewriteGate order (g := g) hroot hok
    simp only
    refine r.then (fun E' h' => ?_) (fun hi => by rw [if_pos hi])
    rw [if_neg (by rw [h'.base.cons]; simp)]
    have hroot' := r.mono.root _ _ hroot
    have hok' : Ok (c.rewriteGate order dst src g).solver src → Ok (c.rewriteGate order dst src g).solver dst := by
      rw [r.mono.ok, r.mono.ok]; exact hok
    split
    · rename_i hc
      simp only [Bool.and_eq_true, Bool.not_eq_true', List.contains_iff_mem] at hc
      have hcon := h'.connect (l := dst) (gate_lt hc.1) fun _ _ => ⟨dst, hc.2, rfl⟩
      exact Res.trans (connect_mono _ _) (Good.rewriteGates order gs hcon hroot' hok')
    · exact Good.rewriteGates order gs h' hroot' hok'

/-! ## Literals -/

/-- What all steps keep, with occurrences released. -/
structure Keep (c c' : Closure) : Prop where
  exports : c'.solver.exports = c.solver.exports
  removed : c'.solver.removed = c.solver.removed
  keep : ∀ l, c.solver.values l ≠ 0 → c'.solver.values l = c.solver.values l
  root : ∀ l m, c.findRepr l = c.findRepr m → c'.findRepr l = c'.findRepr m
  le : Le c.solver.irr c'.solver.irr

theorem Mono.toKeep (h : Mono c c') : Keep c c' := ⟨h.exports, h.removed, h.keep, h.root, h.le⟩

theorem Keep.refl (c : Closure) : Keep c c := (Mono.refl c).toKeep

theorem Keep.trans (h : Keep c c') (h' : Keep c' c'') : Keep c c'' :=
  ⟨h'.exports.trans h.exports, h'.removed.trans h.removed, fun l hl => by
    rw [h'.keep l (by rw [h.keep l hl]; exact hl), h.keep l hl], fun l m e => h'.root l m (h.root l m e), h.le.trans h'.le⟩

theorem Keep.ok (h : Keep c c') {l : Nat} : Ok c'.solver l ↔ Ok c.solver l := by
  unfold Ok State.InRange
  rw [h.exports, h.removed]

/-- The outcome of propagation. -/
structure Done (orig : List (List Nat)) (F0 : Formula) (c c' : Closure) : Prop where
  keep : Keep c c'
  inv : ∃ E, InvE orig F0 E c'.solver ∧ (c'.solver.inconsistent = false → Good orig F0 E c')

theorem Good.done (h : Good orig F0 E c) : Done orig F0 c c := ⟨.refl c, E, h.base.inv, fun _ => h⟩

theorem Res.done (h : Res orig F0 c c') : Done orig F0 c c' := ⟨h.mono.toKeep, h.inv⟩

theorem Done.then (h : Done orig F0 c c') (h' : ∀ E, Good orig F0 E c' → Done orig F0 c' c'')
    (hi : c'.solver.inconsistent = true → c'' = c') : Done orig F0 c c'' := by
  cases e : c'.solver.inconsistent with
  | true => rw [hi e]; exact h
  | false =>
    obtain ⟨E, _, h2⟩ := h.inv
    have := h' E (h2 e)
    exact ⟨h.keep.trans this.keep, this.inv⟩

theorem Good.release (h : Good orig F0 E c) (l : Nat) : Good orig F0 E (c.release l) :=
  ⟨h.base.congr rfl rfl rfl, h.gates, fun m g hg => by
    have : g ∈ c.occurrences m := by
      unfold Closure.release at hg
      simp only at hg
      split at hg
      · cases hg
      · exact hg
    exact ⟨(h.occ m g this).1, fun _ hn => (h.occ m g this).2 (by simp) hn⟩⟩

theorem Good.release_done (h : Good orig F0 E c) (l : Nat) : Done orig F0 c (c.release l) :=
  ⟨⟨rfl, rfl, fun _ _ => rfl, fun _ _ h => h, .refl _⟩, E, h.base.inv, fun _ => h.release l⟩

theorem Good.simplifyLit (h : Good orig F0 E c) (order : State → List Nat) {l : Nat} (hl : c.solver.values l ≠ 0) :
    Done orig F0 c (c.simplifyLit order l) := by
  unfold Closure.simplifyLit
  refine (Good.simplifyGates order (m := l) (c.occurrences l) h hl fun _ h => h).done.then (fun E' h' => ?_) (fun hi => ?_)
  · simp only
    rw [if_neg (by rw [h'.base.cons]; simp)]
    exact h'.release_done l
  · simp only
    rw [if_pos hi]

theorem Good.rewriteLit (h : Good orig F0 E c) (order : State → List Nat) {dst src : Nat} (hroot : c.findRepr src = c.findRepr dst)
    (hok : Ok c.solver src → Ok c.solver dst) : Done orig F0 c (c.rewriteLit order dst src) := by
  unfold Closure.rewriteLit
  refine (Good.rewriteGates order (c.occurrences src) h hroot hok).done.then (fun E' h' => ?_) (fun hi => ?_)
  · simp only
    rw [if_neg (by rw [h'.base.cons]; simp)]
    exact h'.release_done src
  · simp only
    rw [if_pos hi]

theorem Good.propagateUnit (h : Good orig F0 E c) (order : State → List Nat) {l : Nat} (hl : c.solver.values l ≠ 0) :
    Done orig F0 c (c.propagateUnit order l) := by
  unfold Closure.propagateUnit
  have r := h.simplifyLit order hl
  simp only
  refine r.then (fun E' h' => ?_) (fun hi => by rw [if_pos hi])
  rw [if_neg (by rw [h'.base.cons]; simp)]
  refine h'.simplifyLit order ?_
  rw [h'.base.vneg, r.keep.keep l hl]; omega

theorem Good.congr (h : Good orig F0 E c) (h1 : c'.solver = c.solver) (h2 : c'.repr = c.repr) (h3 : c'.binaries = c.binaries)
    (h4 : c'.gates = c.gates) (h5 : c'.occurrences = c.occurrences) : Good orig F0 E c' := by
  cases c; cases c'
  simp only at h1 h2 h3 h4 h5
  subst h1 h2 h3 h4 h5
  exact ⟨h.base.congr rfl rfl rfl, h.gates, h.occ⟩

theorem Good.propagateUnits (order : State → List Nat) : ∀ (fuel : Nat) {c : Closure} {E : List (List Nat)}, Good orig F0 E c →
    Done orig F0 c (c.propagateUnits order fuel)
  | 0, c, E, h => h.done
  | fuel + 1, c, E, h => by
    unfold Closure.propagateUnits
    cases ht : c.solver.trail[c.units]? with
    | none => exact h.done
    | some l =>
      have hv : 0 < c.solver.values l := (h.base.inv.inv.struct.trail l).1 (List.mem_of_getElem? ht)
      have h1 : Good orig F0 E { c with units := c.units + 1 } := h.congr rfl rfl rfl rfl rfl
      have r := h1.propagateUnit order (l := l) (by show c.solver.values l ≠ 0; omega)
      have r : Done orig F0 c (Closure.propagateUnit { c with units := c.units + 1 } order l) :=
        ⟨⟨r.keep.exports, r.keep.removed, r.keep.keep, r.keep.root, r.keep.le⟩, r.inv⟩
      simp only
      refine r.then (fun E' h' => ?_) (fun hi => by rw [if_pos hi])
      rw [if_neg (by rw [h'.base.cons]; simp)]
      exact Good.propagateUnits order fuel h'

theorem Base.root_root (h : Base orig F0 E c) (l : Nat) : c.findRepr (c.findRepr l) = c.findRepr l := findRepr_root rfl (h.root l)

theorem Good.propagateEquivalence (h : Good orig F0 E c) (order : State → List Nat) (l : Nat) :
    Done orig F0 c (c.propagateEquivalence order l) := by
  unfold Closure.propagateEquivalence
  split
  · exact h.done
  simp only
  have r := h.rewriteLit order (src := l) (dst := c.findRepr l) (h.base.root_root l).symm (fun hl => h.base.root_ok hl)
  refine r.then (fun E' h' => ?_) (fun hi => by rw [if_pos hi])
  rw [if_neg (by rw [h'.base.cons]; simp)]
  refine h'.rewriteLit order ?_ fun hl => ?_
  · rw [h'.base.root_neg, h'.base.root_neg, r.keep.root _ _ (h.base.root_root l)]
  · have hl := hl.neg
    rw [neg_neg, r.keep.ok] at hl
    exact (r.keep.ok.2 (h.base.root_ok hl)).neg

theorem Good.propagateAll (order : State → List Nat) : ∀ (fuel : Nat) {c : Closure} {E : List (List Nat)}, Good orig F0 E c →
    Done orig F0 c (c.propagateAll order fuel)
  | 0, c, E, h => h.done
  | fuel + 1, c, E, h => by
    unfold Closure.propagateAll
    have r := Good.propagateUnits order (c.solver.exports.length + 1) h
    simp only
    refine r.then (fun E' h' => ?_) (fun hi => by rw [if_pos hi])
    rw [if_neg (by rw [h'.base.cons]; simp)]
    generalize c.propagateUnits order (c.solver.exports.length + 1) = d at h' ⊢
    cases hs : d.schedule with
    | nil => exact h'.done
    | cons l ls =>
      have h1 : Good orig F0 E' { d with schedule := ls, scheduled := fun v => if v = l / 2 then false else d.scheduled v } :=
        h'.congr rfl rfl rfl rfl rfl
      have r2 := h1.propagateEquivalence order l
      have r2 : Done orig F0 d (Closure.propagateEquivalence
          { d with schedule := ls, scheduled := fun v => if v = l / 2 then false else d.scheduled v } order l) :=
        ⟨⟨r2.keep.exports, r2.keep.removed, r2.keep.keep, r2.keep.root, r2.keep.le⟩, r2.inv⟩
      simp only
      refine r2.then (fun E' h' => ?_) (fun hi => by rw [if_pos hi])
      rw [if_neg (by rw [h'.base.cons]; simp)]
      exact Good.propagateAll order fuel h'

/-! ## New gates -/

theorem newGate_mono (tag : Tag) (lhs : Nat) (rhs : List Nat) : Mono c (c.newGate tag lhs rhs) := by
  refine Mono.trans (b := { c with gates := c.gates ++ [⟨tag, lhs, rhs, false⟩] }) ⟨rfl, rfl, fun _ _ => rfl, fun _ _ h => h, fun _ _ h => h, ?_, .refl _⟩
    (connects_mono _ _)
  show c.gates.length ≤ (c.gates ++ [_]).length
  rw [List.length_append]; omega

/-- A gate which is fine is added. -/
theorem Good.newGate (h : Good orig F0 E c) {tag : Tag} {lhs : Nat} {rhs : List Nat}
    (hx : GateOk (base c.solver E) (Ok c.solver) ⟨tag, lhs, rhs, false⟩) : Res orig F0 c (c.newGate tag lhs rhs) := by
  have hgate : ∀ k, Closure.gate { c with gates := c.gates ++ [⟨tag, lhs, rhs, false⟩] } k =
      if k = c.gates.length then ⟨tag, lhs, rhs, false⟩ else c.gate k := by
    intro k
    unfold Closure.gate
    simp only [List.getD_eq_getElem?_getD, List.getElem?_append]
    by_cases hk : k < c.gates.length
    · rw [if_pos hk, if_neg (by omega)]
    · rw [if_neg hk]
      by_cases hk' : k = c.gates.length
      · subst hk'; simp
      · rw [if_neg hk', List.getElem?_eq_none (l := [_]) (by simp; omega), List.getElem?_eq_none (l := c.gates) (by omega)]
  have h1 : Good orig F0 E { c with gates := c.gates ++ [⟨tag, lhs, rhs, false⟩] } := by
    refine ⟨h.base.congr rfl rfl rfl, fun g _ hn => ?_, fun m g hg => ?_⟩
    · rw [hgate] at hn ⊢
      split at hn
      · rename_i e; rw [if_pos e]; exact hx
      · rename_i e; rw [if_neg e]; exact h.gates g (by simp) hn
    · have hlt := (h.occ m g hg).1
      refine ⟨by show g < (c.gates ++ [_]).length; rw [List.length_append]; omega, fun _ hn ht => ?_⟩
      rw [hgate, if_neg (by omega)] at hn ht ⊢
      exact (h.occ m g hg).2 (by simp) hn ht
  refine ⟨newGate_mono _ _ _, E, ?_, fun _ => ?_⟩
  · unfold Closure.newGate
    rw [(connects_same _ _).1]; exact h.base.inv
  · unfold Closure.newGate
    refine Good.connects rhs h1 ?_ fun l hl _ _ => ?_
    · show _ < (c.gates ++ [_]).length; rw [List.length_append]; simp
    · rw [hgate, if_pos rfl]
      exact ⟨l, hl, rfl⟩

theorem Good.out (h : Good orig F0 E c) (ho : Out orig F0 E c c') : Res orig F0 c c' :=
  ⟨ho.rel.mono, E, ho.inv, fun hi => GoodX.out h ho hi⟩

theorem Good.newAnd (h : Good orig F0 E c) (order : State → List Nat) {lits : List Nat} {lhs : Nat} (hl : Ok c.solver lhs)
    (hr : ∀ r ∈ lits, r ≠ lhs → Ok c.solver r) (ha : AndOk (base c.solver E) lhs ((lits.filter (· ≠ lhs)).map neg)) :
    Res orig F0 c (c.newAnd order lits lhs) := by
  have ha := ha.mem (rhs' := sortLits ((lits.filter (· ≠ lhs)).map neg)) mem_sortLits
  have hok : ∀ r ∈ sortLits ((lits.filter (· ≠ lhs)).map neg), Ok c.solver r := by
    intro r hm
    rw [mem_sortLits] at hm
    obtain ⟨x, hx, rfl⟩ := List.mem_map.1 hm
    obtain ⟨h1, h2⟩ := List.mem_filter.1 hx
    exact (hr x h1 (by simpa using h2)).neg
  unfold Closure.newAnd
  simp only
  generalize sortLits ((lits.filter (· ≠ lhs)).map neg) = rhs at ha hok ⊢
  cases hf : c.findGate .and rhs none with
  | none => exact h.newGate ⟨hl, hok, ha⟩
  | some k =>
    obtain ⟨_, k2, k3, k4⟩ := findGate_some hf
    obtain ⟨g1, g2, g3⟩ := h.gates k (by simp) k2
    rw [k3] at g3
    simp only [k4] at g3
    exact h.out (h.base.merge order g1 hl (g3.match_ ha) ((ha.match_ g3).weaken (by simp)))

theorem Good.newXor (h : Good orig F0 E c) (order : State → List Nat) {lits : List Nat} {lhs : Nat} (hl : Ok c.solver lhs)
    (hr : ∀ r ∈ lits, Ok c.solver r) (hx : XorOk (base c.solver E) lhs (lits.filter fun l => l ≠ lhs ∧ l ≠ neg lhs))
    (he : ∀ r ∈ lits, r ≠ lhs → r ≠ neg lhs → r % 2 = 0) (hnd : lits.Nodup) (hne : ∃ r ∈ lits, r ≠ lhs ∧ r ≠ neg lhs) :
    Res orig F0 c (c.newXor order lits lhs) := by
  have hp := sortLits_perm (lits.filter fun l => decide (l ≠ lhs ∧ l ≠ neg lhs))
  have hx := hx.perm hp.symm
  have hall : ∀ r ∈ sortLits (lits.filter fun l => decide (l ≠ lhs ∧ l ≠ neg lhs)), Ok c.solver r ∧ r % 2 = 0 := by
    intro r hm
    rw [mem_sortLits] at hm
    obtain ⟨h1, h2⟩ := List.mem_filter.1 hm
    have h2 : r ≠ lhs ∧ r ≠ neg lhs := by simpa using h2
    exact ⟨hr r h1, he r h1 h2.1 h2.2⟩
  have hnd' : (sortLits (lits.filter fun l => decide (l ≠ lhs ∧ l ≠ neg lhs))).Nodup := hp.nodup_iff.2 (hnd.filter _)
  have hne' : sortLits (lits.filter fun l => decide (l ≠ lhs ∧ l ≠ neg lhs)) ≠ [] := by
    obtain ⟨r, h1, h2⟩ := hne
    intro e
    have : r ∈ sortLits (lits.filter fun l => decide (l ≠ lhs ∧ l ≠ neg lhs)) := (mem_sortLits r).2 (List.mem_filter.2 ⟨h1, by simpa using h2⟩)
    rw [e] at this; cases this
  unfold Closure.newXor
  simp only
  generalize sortLits (lits.filter fun l => decide (l ≠ lhs ∧ l ≠ neg lhs)) = rhs at hx hall hnd' hne' ⊢
  cases hf : c.findGate .xor rhs none with
  | none => exact h.newGate ⟨hl, fun r hr => (hall r hr).1, hx, fun r hr => (hall r hr).2, hnd'⟩
  | some k =>
    obtain ⟨_, k2, k3, k4⟩ := findGate_some hf
    obtain ⟨g1, g2, g3⟩ := h.gates k (by simp) k2
    rw [k3] at g3
    simp only [k4] at g3 ⊢
    exact h.out (h.base.xorMerge order g1 hl (fun r hr => (hall r hr).1) hne' g3.1 hx)

theorem Good.newIte (h : Good orig F0 E c) (order : State → List Nat) {l a t e : Nat} (hl : Ok c.solver l)
    (ha : Ok c.solver a) (ht : Ok c.solver t) (he : Ok c.solver e) (hat : a / 2 ≠ t / 2) (hae : a / 2 ≠ e / 2)
    (hite : IteOk (base c.solver E) l a t e) : Res orig F0 c (c.newIte order l a t e) := by
  unfold Closure.newIte
  have f := hite.facts
  have M : ∀ {x : Nat} {A : List Nat}, x ∈ A → Imp (base c.solver E) A x := fun hx => Imp.mem hx
  by_cases e1 : e = neg t
  · rw [if_pos e1]; exact h.res
  rw [if_neg e1]
  by_cases e2 : e = t
  · rw [if_pos e2]
    subst e2
    refine h.out (h.base.merge order hl ht ?_ ?_)
    · exact Bot.contra (l := a) (f.f4c.two (M (by simp)) (M (by simp))) (f.f2c.two (M (by simp)) (M (by simp)))
    · exact Bot.contra (l := a) (f.f3c.two (M (by simp)) (M (by simp))) (f.f1c.two (M (by simp)) (M (by simp)))
  rw [if_neg e2]
  have hte : t / 2 ≠ e / 2 := by
    intro h3
    rcases eq_or_eq_neg h3 with h4 | h4
    · exact e2 h4.symm
    · exact e1 (by rw [h4, neg_neg])
  obtain ⟨n, a', t', e', hnorm, hn1, hn2, hn3⟩ := normalizeIte_ok a t e
  rw [hnorm]
  simp only
  have y1 := hn1 _ l hite
  have hlok : Ok c.solver (if n = true then neg l else l) := by
    split
    · exact hl.neg
    · exact hl
  generalize (if n = true then neg l else l) = lhs at y1 hlok ⊢
  have oka : Ok c.solver a' := ok_var ha hn2
  have okt : Ok c.solver t' := by
    rcases hn3 with ⟨h1, h2⟩ | ⟨h1, h2⟩
    · exact ok_var ht h1
    · exact ok_var he h1
  have oke : Ok c.solver e' := by
    rcases hn3 with ⟨h1, h2⟩ | ⟨h1, h2⟩
    · exact ok_var he h2
    · exact ok_var ht h2
  have hdd : a' / 2 ≠ t' / 2 ∧ a' / 2 ≠ e' / 2 ∧ t' / 2 ≠ e' / 2 := by
    rcases hn3 with ⟨h1, h2⟩ | ⟨h1, h2⟩
    · rw [hn2, h1, h2]; exact ⟨hat, hae, hte⟩
    · rw [hn2, h1, h2]; exact ⟨hae, hat, fun e => hte e.symm⟩
  cases hf : c.findGate .ite [a', t', e'] none with
  | none =>
    refine h.newGate ⟨hlok, fun r hr => ?_, a', t', e', rfl, y1, hdd⟩
    simp only [List.mem_cons, List.not_mem_nil, or_false] at hr
    rcases hr with rfl | rfl | rfl <;> assumption
  | some k =>
    obtain ⟨_, k2, k3, k4⟩ := findGate_some hf
    obtain ⟨g1, g2, g3⟩ := h.gates k (by simp) k2
    rw [k3] at g3
    simp only [k4] at g3 ⊢
    obtain ⟨a2, t2, e2, q1, q2, _⟩ := g3
    simp only [List.cons.injEq, and_true] at q1
    obtain ⟨rfl, rfl, rfl⟩ := q1
    exact h.out (h.base.iteMerge order g1 hlok oka q2 y1)

end Verif.Congruence
