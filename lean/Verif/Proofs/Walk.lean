import Verif.Model.Walk
import Verif.Spec.Broken
import Verif.Proofs.Cnf
import Verif.Proofs.Lists

/-! # Local search: counters, unsatisfied clauses and the best assignment -/

namespace Verif.Walk

open Verif.Spec

theorem set_apply {α : Type} (f : Nat → α) (i : Nat) (a : α) (j : Nat) :
    set f i a j = if j = i then a else f j := rfl

/-! ## The stack of unsatisfied clauses -/

/-- The stack has exactly the clauses whose counter is zero. -/
structure UInv (w : Walker) : Prop where
  mem : ∀ i r, w.unsat[i]? = some r → r < w.refs.length ∧ w.count r = 0 ∧ w.pos r = i
  pos : ∀ r, r < w.refs.length → w.count r = 0 → w.unsat[w.pos r]? = some r

/-- Only counters and the stack differ. -/
def Same (w w' : Walker) : Prop :=
  { w' with count := w.count, pos := w.pos, unsat := w.unsat, current := w.current } = w

namespace Same
variable {w w' : Walker} (h : Same w w')
include h
theorem vars : w'.vars = w.vars := by have := congrArg Walker.vars h; exact this
theorem values : w'.values = w.values := by have := congrArg Walker.values h; exact this
theorem watches : w'.watches = w.watches := by have := congrArg Walker.watches h; exact this
theorem refs : w'.refs = w.refs := by have := congrArg Walker.refs h; exact this
theorem trail : w'.trail = w.trail := by have := congrArg Walker.trail h; exact this
theorem bestTrail : w'.bestTrail = w.bestTrail := by
  have := congrArg Walker.bestTrail h; exact this
theorem best : w'.best = w.best := by have := congrArg Walker.best h; exact this
theorem initial : w'.initial = w.initial := by have := congrArg Walker.initial h; exact this
theorem minimum : w'.minimum = w.minimum := by have := congrArg Walker.minimum h; exact this
theorem trans {w'' : Walker} (h' : Same w' w'') : Same w w'' := by
  have e := congrArg (fun x : Walker =>
    { x with count := w.count, pos := w.pos, unsat := w.unsat, current := w.current }) h'
  exact Eq.trans e h
end Same

theorem Same.refl (w : Walker) : Same w w := rfl

theorem makeClause_ok {w : Walker} (h : UInv w) {r : Nat} (hr : r < w.refs.length) :
    UInv (makeClause w r) ∧ (∀ x, (makeClause w r).count x = if x = r then w.count r + 1
      else w.count x) ∧ Same w (makeClause w r) := by
  unfold makeClause
  simp only
  by_cases hn : w.count r ≠ 0
  · rw [if_pos hn]
    refine ⟨⟨?_, ?_⟩, fun x => rfl, rfl⟩
    · intro i x hx
      obtain ⟨a, b, c⟩ := h.mem i x hx
      refine ⟨a, ?_, c⟩
      show set w.count r _ x = 0
      rw [set_apply, if_neg]
      · exact b
      · rintro rfl; exact hn b
    · intro x hx h0
      have h0 : set w.count r _ x = 0 := h0
      rw [set_apply] at h0
      split at h0
      · omega
      · exact h.pos x hx h0
  · rw [if_neg hn]
    have h0 : w.count r = 0 := by omega
    have hp := h.pos r hr h0
    have hlt := (List.getElem?_eq_some_iff.1 hp).1
    have hne : w.unsat ≠ [] := by intro e; rw [e] at hlt; simp at hlt
    obtain ⟨front, last, hfl⟩ : ∃ front last, w.unsat = front ++ [last] :=
      ⟨w.unsat.dropLast, w.unsat.getLast hne, (List.dropLast_concat_getLast hne).symm⟩
    have hlast : w.unsat.getLastD 0 = last := by rw [hfl]; simp
    have hdrop : w.unsat.dropLast = front := by rw [hfl]; simp
    have hmem := h.mem
    have hpos := h.pos
    rw [hfl] at hmem hpos hp hlt
    have hl := hmem front.length last (by simp)
    unfold popUnsat
    simp only
    rw [hlast, hdrop]
    by_cases e : r ≠ last
    · rw [if_pos e]
      have hpl : w.pos r < front.length := by
        simp only [List.length_append, List.length_cons, List.length_nil] at hlt
        rcases Nat.lt_or_ge (w.pos r) front.length with h | h
        · exact h
        · have : w.pos r = front.length := by omega
          rw [this] at hp
          simp at hp
          exact absurd hp.symm e
      refine ⟨⟨?_, ?_⟩, fun x => rfl, rfl⟩
      · intro i x hx
        have hx : (front.set (w.pos r) last)[i]? = some x := hx
        show x < w.refs.length ∧ set w.count r _ x = 0 ∧ set w.pos last (w.pos r) x = i
        rw [List.getElem?_set] at hx
        split at hx
        · rename_i hi
          have hx : last = x := by simpa [hpl] using hx
          subst hx
          rw [set_apply, set_apply, if_pos rfl, if_neg (Ne.symm e)]
          exact ⟨hl.1, hl.2.1, hi⟩
        · rename_i hi
          have hif := (List.getElem?_eq_some_iff.1 hx).1
          obtain ⟨a, b, c⟩ := hmem i x (by rw [List.getElem?_append_left hif]; exact hx)
          rw [set_apply, set_apply, if_neg, if_neg]
          · exact ⟨a, b, c⟩
          · rintro rfl; omega
          · rintro rfl; exact hi c
      · intro x hx hx0
        have hx0 : set w.count r _ x = 0 := hx0
        show (front.set (w.pos r) last)[set w.pos last (w.pos r) x]? = some x
        rw [set_apply] at hx0
        split at hx0
        · omega
        · rename_i hxr
          rw [set_apply]
          split
          · rename_i hxl
            rw [List.getElem?_set, if_pos rfl, if_pos hpl, hxl]
          · rename_i hxl
            have := hpos x hx hx0
            have hxf : w.pos x < front.length := by
              have hlt' := (List.getElem?_eq_some_iff.1 this).1
              simp only [List.length_append, List.length_cons, List.length_nil] at hlt'
              rcases Nat.lt_or_ge (w.pos x) front.length with h | h
              · exact h
              · have e' : w.pos x = front.length := by omega
                rw [e'] at this
                simp at this
                exact absurd this.symm hxl
            rw [List.getElem?_append_left hxf] at this
            rw [List.getElem?_set_ne, this]
            intro e'
            rw [List.getElem?_append_left hpl] at hp
            rw [← e', hp] at this
            cases this
            exact hxr rfl
    · rw [if_neg e]
      have e : r = last := by omega
      refine ⟨⟨?_, ?_⟩, fun x => rfl, rfl⟩
      · intro i x hx
        have hx : front[i]? = some x := hx
        have hif := (List.getElem?_eq_some_iff.1 hx).1
        obtain ⟨a, b, c⟩ := hmem i x (by rw [List.getElem?_append_left hif]; exact hx)
        refine ⟨a, ?_, c⟩
        show set w.count r _ x = 0
        rw [set_apply, if_neg]
        · exact b
        · rintro rfl; rw [e] at c; omega
      · intro x hx hx0
        have hx0 : set w.count r _ x = 0 := hx0
        show front[w.pos x]? = some x
        rw [set_apply] at hx0
        split at hx0
        · omega
        · rename_i hxr
          have := hpos x hx hx0
          have hlt' := (List.getElem?_eq_some_iff.1 this).1
          simp only [List.length_append, List.length_cons, List.length_nil] at hlt'
          rcases Nat.lt_or_ge (w.pos x) front.length with h | h
          · rwa [List.getElem?_append_left h] at this
          · have e' : w.pos x = front.length := by omega
            rw [e'] at this
            simp at this
            omega

theorem breakClause_ok {w : Walker} (h : UInv w) {r : Nat} (hr : r < w.refs.length)
    (hpos : 0 < w.count r) :
    UInv (breakClause w r) ∧ (∀ x, (breakClause w r).count x = if x = r then w.count r - 1
      else w.count x) ∧ Same w (breakClause w r) := by
  unfold breakClause
  simp only
  by_cases hn : w.count r - 1 ≠ 0
  · rw [if_pos hn]
    refine ⟨⟨?_, ?_⟩, fun x => rfl, rfl⟩
    · intro i x hx
      obtain ⟨a, b, c⟩ := h.mem i x hx
      refine ⟨a, ?_, c⟩
      show set w.count r _ x = 0
      rw [set_apply, if_neg]
      · exact b
      · rintro rfl; omega
    · intro x hx h0
      have h0 : set w.count r _ x = 0 := h0
      rw [set_apply] at h0
      split at h0
      · omega
      · exact h.pos x hx h0
  · rw [if_neg hn]
    unfold pushUnsat
    refine ⟨⟨?_, ?_⟩, fun x => rfl, rfl⟩
    · intro i x hx
      have hx : (w.unsat ++ [r])[i]? = some x := hx
      show x < w.refs.length ∧ set w.count r _ x = 0 ∧ set w.pos r w.unsat.length x = i
      rcases Nat.lt_or_ge i w.unsat.length with hi | hi
      · rw [List.getElem?_append_left hi] at hx
        obtain ⟨a, b, c⟩ := h.mem i x hx
        have hxr : x ≠ r := by rintro rfl; omega
        rw [set_apply, set_apply, if_neg hxr, if_neg hxr]
        exact ⟨a, b, c⟩
      · have hlt := (List.getElem?_eq_some_iff.1 hx).1
        simp only [List.length_append, List.length_cons, List.length_nil] at hlt
        have : i = w.unsat.length := by omega
        subst this
        simp at hx
        subst hx
        rw [set_apply, set_apply, if_pos rfl, if_pos rfl]
        exact ⟨hr, by omega, rfl⟩
    · intro x hx h0
      have h0 : set w.count r _ x = 0 := h0
      show (w.unsat ++ [r])[set w.pos r w.unsat.length x]? = some x
      rw [set_apply] at h0 ⊢
      split
      · rename_i e; subst e; simp
      · rename_i e
        rw [if_neg e] at h0
        have := h.pos x hx h0
        rw [List.getElem?_append_left (List.getElem?_eq_some_iff.1 this).1]; exact this

theorem make_loop : ∀ (ws : List Nat) {w : Walker}, UInv w → (∀ r ∈ ws, r < w.refs.length) →
    UInv (ws.foldl makeClause w) ∧
    (∀ x, (ws.foldl makeClause w).count x = w.count x + ws.count x) ∧
    Same w (ws.foldl makeClause w)
  | [], w, h, _ => ⟨h, fun x => by simp, rfl⟩
  | r :: ws, w, h, hr => by
    obtain ⟨a, b, c⟩ := makeClause_ok h (hr r (by simp))
    rw [List.foldl_cons]
    obtain ⟨a', b', c'⟩ := make_loop ws a fun x hx => by rw [c.refs]; exact hr x (by simp [hx])
    refine ⟨a', fun x => ?_, c.trans c'⟩
    rw [b', b, List.count_cons]
    by_cases e : x = r
    · subst e; simp; omega
    · rw [if_neg e, if_neg (by simpa using Ne.symm e)]; omega

theorem break_loop : ∀ (ws : List Nat) {w : Walker}, UInv w → (∀ r ∈ ws, r < w.refs.length) →
    (∀ x, ws.count x ≤ w.count x) →
    UInv (ws.foldl breakClause w) ∧
    (∀ x, (ws.foldl breakClause w).count x = w.count x - ws.count x) ∧
    Same w (ws.foldl breakClause w)
  | [], w, h, _, _ => ⟨h, fun x => by simp, rfl⟩
  | r :: ws, w, h, hr, hle => by
    have h1 := hle r
    rw [List.count_cons_self] at h1
    obtain ⟨a, b, c⟩ := breakClause_ok h (hr r (by simp)) (by omega)
    rw [List.foldl_cons]
    have hle' : ∀ x, ws.count x ≤ (breakClause w r).count x := fun x => by
      have := hle x
      rw [List.count_cons] at this
      rw [b]
      by_cases e : x = r
      · subst e; simp at this ⊢; omega
      · rw [if_neg e]; omega
    obtain ⟨a', b', c'⟩ := break_loop ws a (fun x hx => by rw [c.refs]; exact hr x (by simp [hx])) hle'
    refine ⟨a', fun x => ?_, c.trans c'⟩
    rw [b', b, List.count_cons]
    by_cases e : x = r
    · subst e; simp; omega
    · rw [if_neg e, if_neg (by simpa using Ne.symm e)]; omega

/-! ## Counters -/

/-- Counters, watches and values fit together. -/
structure WInv (w : Walker) : Prop where
  u : UInv w
  dom : ∀ l, w.values l = 1 ∨ w.values l = 0 ∨ w.values l = -1
  anti : ∀ l, w.values (neg l) = - w.values l
  bound : ∀ l, w.values l ≠ 0 → l / 2 < w.vars
  count : ∀ r, r < w.refs.length →
    w.count r = (w.refs.getD r []).countP fun l => 0 < w.values l
  watch : ∀ l, w.values l ≠ 0 → ∀ r, (w.watches l).count r = (w.refs.getD r []).count l
  some : ∀ c ∈ w.refs, ∃ l ∈ c, w.values l ≠ 0

theorem countP_flip {v : Nat → Int} {lit : Nat} (h : v lit = -1) (ha : v (neg lit) = 1)
    (c : List Nat) :
    (c.countP fun l => 0 < set (set v lit 1) (neg lit) (-1) l) + c.count (neg lit) =
      (c.countP fun l => 0 < v l) + c.count lit := by
  induction c with
  | nil => simp
  | cons x c ih =>
    rw [List.countP_cons, List.countP_cons, List.count_cons, List.count_cons]
    generalize (c.countP fun l => decide (0 < set (set v lit 1) (neg lit) (-1) l)) = A at ih ⊢
    generalize (c.countP fun l => decide (0 < v l)) = B at ih ⊢
    by_cases e1 : x = neg lit
    · subst e1
      have hne : (neg lit == lit) = false := by simpa using (Ne.symm (ne_neg lit))
      rw [hne, set_apply, if_pos rfl, ha]
      simp
      omega
    · by_cases e2 : x = lit
      · subst e2
        have hne : (x == neg x) = false := by simpa using ne_neg x
        rw [hne, set_apply, if_neg e1, set_apply, if_pos rfl, h]
        simp
        omega
      · have h1 : (x == lit) = false := by simpa using e2
        have h2 : (x == neg lit) = false := by simpa using e1
        rw [h1, h2, set_apply, if_neg e1, set_apply, if_neg e2]
        simp
        omega

theorem count_le_countP {v : Nat → Int} {x : Nat} (h : 0 < v x) (c : List Nat) :
    c.count x ≤ c.countP fun l => 0 < v l := by
  rw [List.count_eq_countP]
  refine List.countP_mono_left fun y _ hy => ?_
  have : y = x := by simpa using hy
  subst this
  simpa using h

/-- Only flipping differs. -/
structure Flipped (w w' : Walker) (lit : Nat) : Prop where
  vars : w'.vars = w.vars
  values : w'.values = set (set w.values lit 1) (neg lit) (-1)
  watches : w'.watches = w.watches
  refs : w'.refs = w.refs
  trail : w'.trail = w.trail
  bestTrail : w'.bestTrail = w.bestTrail
  best : w'.best = w.best
  initial : w'.initial = w.initial
  minimum : w'.minimum = w.minimum
  current : w'.current = w'.unsat.length

theorem flip_ok {w : Walker} (h : WInv w) {lit : Nat} (hl : w.values lit = -1) :
    WInv (flipLiteral w lit) ∧ Flipped w (flipLiteral w lit) lit := by
  have hneg : w.values (neg lit) = 1 := by rw [h.anti, hl]; rfl
  have hin : ∀ l, w.values l ≠ 0 → ∀ r ∈ w.watches l, r < w.refs.length := by
    intro l hl r hr
    have h1 := List.count_pos_iff.2 hr
    rw [h.watch l hl] at h1
    rcases Nat.lt_or_ge r w.refs.length with h2 | h2
    · exact h2
    · rw [List.getD_eq_getElem?_getD, List.getElem?_eq_none h2] at h1
      simp at h1
  unfold flipLiteral
  simp only
  rw [hl]
  have hm : - (-1 : Int) = 1 := rfl
  rw [hm]
  generalize hv : set (set w.values lit 1) (neg lit) (-1) = v'
  have hu1 : UInv { w with values := v' } := ⟨h.u.mem, h.u.pos⟩
  obtain ⟨a, b, c⟩ := make_loop (w.watches lit) hu1 (hin lit (by omega))
  generalize (w.watches lit).foldl makeClause { w with values := v' } = w1 at a b c
  have hw1 : w1.watches = w.watches := c.watches
  rw [hw1]
  have hcount : ∀ r, w1.count r = w.count r + (w.watches lit).count r := b
  have hout : ∀ l, w.values l ≠ 0 → ∀ r, ¬ r < w.refs.length → (w.watches l).count r = 0 := by
    intro l hl r hr
    rw [List.count_eq_zero]
    exact fun hm => hr (hin l hl r hm)
  obtain ⟨a', b', c'⟩ := break_loop (w.watches (neg lit)) a
    (fun r hr => by rw [c.refs]; exact hin (neg lit) (by omega) r hr)
    (by
      intro r
      rw [hcount]
      by_cases hr : r < w.refs.length
      · rw [h.watch _ (by omega), h.count r hr]
        have := count_le_countP (v := w.values) (x := neg lit) (by omega) (w.refs.getD r [])
        omega
      · rw [hout _ (by omega) r hr]; omega)
  generalize (w.watches (neg lit)).foldl breakClause w1 = w2 at a' b' c'
  have hs : Same { w with values := v' } w2 := c.trans c'
  have hvals : w2.values = v' := hs.values
  have hnz : ∀ l, w2.values l ≠ 0 ↔ w.values l ≠ 0 := by
    intro l
    rw [hvals, ← hv, set_apply, set_apply]
    split
    · rename_i e; rw [e]; omega
    · split
      · rename_i e; rw [e]; omega
      · exact Iff.rfl
  have hrefs : w2.refs = w.refs := hs.refs
  refine ⟨⟨⟨a'.mem, a'.pos⟩, ?_, ?_, ?_, ?_, ?_, ?_⟩,
    ⟨hs.vars, ?_, hs.watches, hs.refs, hs.trail, hs.bestTrail, hs.best, hs.initial, hs.minimum, rfl⟩⟩
  · intro l
    show w2.values l = 1 ∨ w2.values l = 0 ∨ w2.values l = -1
    rw [hvals, ← hv, set_apply, set_apply]
    split
    · omega
    · split
      · omega
      · exact h.dom l
  · intro l
    show w2.values (neg l) = - w2.values l
    rw [hvals, ← hv, set_apply, set_apply, set_apply, set_apply]
    by_cases e1 : l = lit
    · subst e1
      rw [if_pos rfl, if_neg (ne_neg l), if_pos rfl]
    · by_cases e2 : l = neg lit
      · subst e2
        rw [neg_neg, if_neg (ne_neg lit), if_pos rfl, if_pos rfl]; rfl
      · rw [if_neg, if_neg, if_neg e2, if_neg e1]
        · exact h.anti l
        · intro e; exact e2 (by rw [← e, neg_neg])
        · intro e
          have := congrArg neg e
          rw [neg_neg, neg_neg] at this
          exact e1 this
  · intro l hl
    have := hs.vars
    show l / 2 < w2.vars
    rw [this]
    exact h.bound l ((hnz l).1 hl)
  · intro r hr
    have hr : r < w2.refs.length := hr
    rw [hrefs] at hr
    show w2.count r = (w2.refs.getD r []).countP fun l => 0 < w2.values l
    rw [b', hcount, hrefs, hvals, h.watch _ (by omega), h.watch _ (by omega), h.count r hr, ← hv]
    have := countP_flip hl hneg (w.refs.getD r [])
    omega
  · intro l hl r
    show (w2.watches l).count r = (w2.refs.getD r []).count l
    have e : w2.watches = w.watches := hs.watches
    rw [e, hrefs]
    exact h.watch l ((hnz l).1 hl) r
  · intro c hc
    have hc : c ∈ w2.refs := hc
    rw [hrefs] at hc
    obtain ⟨l, h1, h2⟩ := h.some c hc
    exact ⟨l, h1, (hnz l).2 h2⟩
  · show w2.values = _
    rw [hvals, hv]

/-! ## Number of unsatisfied clauses -/

theorem nodup_same_length {l m : List Nat} (hl : l.Nodup) (hm : m.Nodup)
    (h : ∀ x, x ∈ l ↔ x ∈ m) : l.length = m.length :=
  Nat.le_antisymm (nodup_length_le hl fun x hx => (h x).1 hx)
    (nodup_length_le hm fun x hx => (h x).2 hx)

theorem range_filter_length {α : Type} (p : α → Bool) (d : α) (cs : List α) :
    ((List.range cs.length).filter fun r => p (cs.getD r d)).length = cs.countP p := by
  induction cs with
  | nil => rfl
  | cons c cs ih =>
    rw [List.length_cons, List.range_succ_eq_map, List.filter_cons, List.countP_cons,
      List.filter_map, ← ih]
    have : ((fun r => p ((c :: cs).getD r d)) ∘ Nat.succ) = fun r => p (cs.getD r d) := by
      funext r; simp [Function.comp]
    rw [this]
    by_cases hp : p c = true
    · simp [hp]
    · simp [hp]

theorem UInv.nodup {w : Walker} (h : UInv w) : w.unsat.Nodup := by
  rw [List.nodup_iff_pairwise_ne, List.pairwise_iff_getElem]
  intro i j hi hj hij e
  have h1 := (h.mem i _ (List.getElem?_eq_getElem hi)).2.2
  have h2 := (h.mem j _ (List.getElem?_eq_getElem hj)).2.2
  rw [e] at h1
  omega

/-- The size of the stack is the number of clauses without true literal. -/
theorem WInv.unsat_length {w : Walker} (h : WInv w) :
    w.unsat.length = w.refs.countP fun c => !c.any fun l => 0 < w.values l := by
  rw [← range_filter_length _ []]
  refine nodup_same_length h.u.nodup (List.Nodup.sublist List.filter_sublist List.nodup_range) fun r => ?_
  rw [List.mem_filter, List.mem_range]
  have hz : r < w.refs.length → (w.count r = 0 ↔
      (!(w.refs.getD r []).any fun l => decide (0 < w.values l)) = true) := by
    intro hr
    rw [h.count r hr, List.countP_eq_zero]
    simp
  constructor
  · intro hm
    obtain ⟨i, hi⟩ := List.mem_iff_getElem?.1 hm
    obtain ⟨a, b, _⟩ := h.u.mem i r hi
    exact ⟨a, (hz a).1 b⟩
  · rintro ⟨a, b⟩
    exact List.mem_iff_getElem?.2 ⟨_, h.u.pos r a ((hz a).2 b)⟩

/-! ## The best assignment -/

/-- Value of a literal under values of variables. -/
def litValue (b : Nat → Int) (l : Nat) : Int := if l % 2 = 0 then b (l / 2) else - b (l / 2)

/-- Number of clauses falsified if the active variables have values `b`. -/
def falsifiedBy (act : Nat → Prop) [DecidablePred act] (refs : List (List Nat)) (b : Nat → Int) : Nat :=
  refs.countP fun c => !c.any fun l => decide (act (l / 2)) && decide (0 < litValue b l)

/-- The assignment with the minimum number of falsified clauses. -/
def bestNow (w : Walker) : Nat → Int :=
  match w.bestTrail with
  | none => w.best
  | some p => (w.trail.take p).foldl store w.best

/-- The invariant between local search steps. -/
structure BInv (act : Nat → Prop) [DecidablePred act] (w : Walker) : Prop where
  inv : WInv w
  active : ∀ l, w.values l ≠ 0 ↔ act (l / 2)
  current : w.current = w.unsat.length
  le : w.minimum ≤ w.current
  minimum : w.minimum = falsifiedBy act w.refs (bestNow w)
  dom : ∀ v, act v → w.best v = 1 ∨ w.best v = -1
  flipped : ∀ l ∈ w.trail, act (l / 2)
  trail : ∀ p, w.bestTrail = some p → p ≤ w.trail.length ∧
    ∀ v, act v → w.values (2 * v) = (w.trail.foldl store w.best) v
  lost : w.bestTrail = none → w.trail = []

variable {act : Nat → Prop} [DecidablePred act]

theorem lit_value {w : Walker} (ha : ∀ l, w.values (neg l) = - w.values l) (l : Nat) :
    w.values l = litValue (fun v => w.values (2 * v)) l := by
  unfold litValue
  rcases Nat.mod_two_eq_zero_or_one l with e | e
  · rw [if_pos e]; show _ = w.values (2 * (l / 2)); rw [show 2 * (l / 2) = l by omega]
  · rw [if_neg (by omega)]
    have : neg (2 * (l / 2)) = l := by unfold neg; rw [if_pos (by omega)]; omega
    show _ = - w.values (2 * (l / 2))
    rw [← ha, this]

/-- If the values of active variables are `b` then the stack has as many clauses as `b`
falsifies. -/
theorem falsified_current {w : Walker} (h : WInv w) (hact : ∀ l, w.values l ≠ 0 ↔ act (l / 2))
    {b : Nat → Int} (hb : ∀ v, act v → w.values (2 * v) = b v) :
    w.unsat.length = falsifiedBy act w.refs b := by
  rw [h.unsat_length]
  unfold falsifiedBy
  congr 1
  funext c
  congr 2
  funext l
  by_cases hl : act (l / 2)
  · rw [lit_value h.anti l]
    have : litValue (fun v => w.values (2 * v)) l = litValue b l := by
      unfold litValue
      simp only
      rw [hb _ hl]
    rw [this]; simp [hl]
  · have : w.values l = 0 := Classical.byContradiction fun hn => hl ((hact l).1 hn)
    simp [hl, this]

theorem store_apply (b : Nat → Int) (l v : Nat) :
    store b l v = if v = l / 2 then (if l % 2 = 0 then 1 else -1) else b v := rfl

theorem store_dom {P : Nat → Prop} : ∀ (ls : List Nat) {b : Nat → Int},
    (∀ v, P v → b v = 1 ∨ b v = -1) → ∀ v, P v →
    (ls.foldl store b) v = 1 ∨ (ls.foldl store b) v = -1
  | [], _, h, v, hv => h v hv
  | l :: ls, b, h, v, hv => by
    rw [List.foldl_cons]
    refine store_dom ls (fun v hv => ?_) v hv
    rw [store_apply]
    split
    · split <;> simp
    · exact h v hv

theorem pick_ok {w : Walker} (h : BInv act w) (h0 : w.current ≠ 0) (choice : Nat) :
    ∃ lit n, pickLiteral w choice = some ({ w with flipped := n }, lit) ∧ w.values lit = -1 := by
  unfold pickLiteral
  rw [if_neg h0]
  have hlt : w.flipped % w.current < w.unsat.length := by
    rw [← h.current]; exact Nat.mod_lt _ (Nat.pos_of_ne_zero h0)
  simp only
  rw [List.getElem?_eq_getElem hlt]
  simp only
  generalize hr : w.unsat[w.flipped % w.current] = r
  obtain ⟨a, b, _⟩ := h.inv.u.mem _ r (by rw [List.getElem?_eq_getElem hlt, hr])
  rw [h.inv.count r a, List.countP_eq_zero] at b
  have hmem : w.refs.getD r [] ∈ w.refs := by
    rw [List.getD_eq_getElem?_getD, List.getElem?_eq_getElem a]
    exact List.getElem_mem a
  obtain ⟨l, h1, h2⟩ := h.inv.some _ hmem
  generalize hlits : ((w.refs.getD r []).filter fun l => decide (w.values l ≠ 0)) = lits
  have hin : ∀ x ∈ lits, w.values x = -1 := by
    intro x hx
    rw [← hlits, List.mem_filter] at hx
    have h3 := b x hx.1
    have h4 := h.inv.dom x
    have h5 : w.values x ≠ 0 := by simpa using hx.2
    simp only [decide_eq_true_eq] at h3
    omega
  have hne : lits ≠ [] := by
    intro e
    have : l ∈ lits := by rw [← hlits, List.mem_filter]; exact ⟨h1, by simpa using h2⟩
    rw [e] at this; simp at this
  cases hc : lits[choice]? with
  | some lit =>
    exact ⟨lit, w.flipped + 1, by simp, hin lit (List.mem_iff_getElem?.2 ⟨_, hc⟩)⟩
  | none =>
    refine ⟨lits.getLast hne, w.flipped + 1, by simp [List.getLast?_eq_some_getLast hne], hin _ (List.getLast_mem hne)⟩

/-- The literal just flipped has the value the trail stores. -/
theorem store_flip {v : Nat → Int} {b : Nat → Int} {lit : Nat} {P : Nat → Prop}
    (hb : ∀ x, P x → v (2 * x) = b x) :
    ∀ x, P x → set (set v lit 1) (neg lit) (-1) (2 * x) = store b lit x := by
  intro x hx
  rw [set_apply, set_apply, store_apply]
  rcases Nat.mod_two_eq_zero_or_one lit with e | e
  · have hn : neg lit = lit + 1 := by unfold neg; rw [if_pos e]
    rw [if_neg (by omega), if_pos e]
    by_cases hx' : x = lit / 2
    · rw [if_pos (by omega), if_pos hx']
    · rw [if_neg (by omega), if_neg hx']; exact hb x hx
  · have hn : neg lit = lit - 1 := by unfold neg; rw [if_neg (by omega)]
    by_cases hx' : x = lit / 2
    · rw [if_pos (by omega), if_pos hx', if_neg (by omega)]
    · rw [if_neg (by omega), if_neg (by omega), if_neg hx']; exact hb x hx

/-- What steps do not change. -/
structure Fixed (w w' : Walker) : Prop where
  vars : w'.vars = w.vars
  refs : w'.refs = w.refs
  initial : w'.initial = w.initial
  minimum : w'.minimum ≤ w.minimum

theorem WInv.congr {w w' : Walker} (h : WInv w) (h1 : w'.vars = w.vars)
    (h2 : w'.values = w.values) (h3 : w'.watches = w.watches) (h4 : w'.refs = w.refs)
    (h5 : w'.count = w.count) (h6 : w'.pos = w.pos) (h7 : w'.unsat = w.unsat) : WInv w' := by
  obtain ⟨⟨a, b⟩, c, d, e, f, g, i⟩ := h
  refine ⟨⟨?_, ?_⟩, ?_, ?_, ?_, ?_, ?_, ?_⟩ <;> simp only [h1, h2, h3, h4, h5, h6, h7] <;> assumption

/-- Pushing the flipped literal keeps the best assignment. -/
theorem pushFlipped_ok {w : Walker} {lit : Nat} (hw : WInv w)
    (hact : ∀ l, w.values l ≠ 0 ↔ act (l / 2)) (hlit : act (lit / 2))
    (hc : w.current = w.unsat.length)
    (hmin : w.minimum = falsifiedBy act w.refs (bestNow w))
    (hdom : ∀ v, act v → w.best v = 1 ∨ w.best v = -1)
    (hfl : ∀ l ∈ w.trail, act (l / 2))
    (htr : ∀ p, w.bestTrail = some p → p ≤ w.trail.length ∧
      ∀ v, act v → w.values (2 * v) = store (w.trail.foldl store w.best) lit v)
    (hlost : w.bestTrail = none → w.trail = []) :
    let w' := pushFlipped w lit
    WInv w' ∧ (∀ l, w'.values l ≠ 0 ↔ act (l / 2)) ∧ w'.current = w'.unsat.length ∧
    w'.current = w.current ∧
    w'.minimum = falsifiedBy act w'.refs (bestNow w') ∧
    (∀ v, act v → w'.best v = 1 ∨ w'.best v = -1) ∧ (∀ l ∈ w'.trail, act (l / 2)) ∧
    (∀ p, w'.bestTrail = some p → p ≤ w'.trail.length ∧
      ∀ v, act v → w'.values (2 * v) = (w'.trail.foldl store w'.best) v) ∧
    (w'.bestTrail = none → w'.trail = []) ∧
    w'.vars = w.vars ∧ w'.refs = w.refs ∧ w'.initial = w.initial ∧ w'.minimum = w.minimum := by
  intro w'
  have hw'def : w' = pushFlipped w lit := rfl
  unfold pushFlipped at hw'def
  cases hb : w.bestTrail with
  | none =>
    rw [hb] at hw'def
    have e : w' = w := hw'def
    rw [e]
    refine ⟨hw, hact, hc, rfl, hmin, hdom, hfl, ?_, hlost, rfl, rfl, rfl, rfl⟩
    intro p hp
    rw [hb] at hp; cases hp
  | some p =>
    rw [hb] at hw'def
    simp only at hw'def
    obtain ⟨hp, hval⟩ := htr p hb
    have hbn : bestNow w = (w.trail.take p).foldl store w.best := by unfold bestNow; rw [hb]
    by_cases h1 : w.trail.length < w.vars / 4 + 1
    · rw [if_pos h1] at hw'def
      rw [hw'def]
      refine ⟨hw.congr rfl rfl rfl rfl rfl rfl rfl, hact, hc, rfl, ?_, hdom, ?_, ?_, ?_,
        rfl, rfl, rfl, rfl⟩
      · show w.minimum = falsifiedBy act w.refs _
        rw [hmin]; congr 1
        rw [hbn]
        show _ = ((w.trail ++ [lit]).take p).foldl store w.best
        rw [List.take_append_of_le_length hp]
      · intro l hl
        rcases List.mem_append.1 hl with hl | hl
        · exact hfl l hl
        · rw [List.mem_singleton.1 hl]; exact hlit
      · intro q hq
        have hq : some p = some q := hq
        cases hq
        refine ⟨?_, fun v hv => ?_⟩
        · show p ≤ (w.trail ++ [lit]).length
          rw [List.length_append]; omega
        · show w.values (2 * v) = ((w.trail ++ [lit]).foldl store w.best) v
          rw [List.foldl_append]; exact hval v hv
      · intro hn
        have hn : some p = none := hn
        cases hn
    · rw [if_neg h1] at hw'def
      by_cases h2 : p ≠ 0
      · rw [if_pos h2] at hw'def
        unfold saveTrail at hw'def
        rw [if_pos rfl] at hw'def
        rw [hw'def]
        refine ⟨hw.congr rfl rfl rfl rfl rfl rfl rfl, hact, hc, rfl, ?_, ?_, ?_, ?_, ?_,
          rfl, rfl, rfl, rfl⟩
        · show w.minimum = falsifiedBy act w.refs _
          rw [hmin]; congr 1
        · intro v hv; exact store_dom _ hdom v hv
        · intro l hl
          have hl : l ∈ w.trail.drop p ++ [lit] := hl
          rcases List.mem_append.1 hl with hl | hl
          · exact hfl l (List.mem_of_mem_drop hl)
          · rw [List.mem_singleton.1 hl]; exact hlit
        · intro q hq
          have hq : some 0 = some q := hq
          cases hq
          refine ⟨Nat.zero_le _, fun v hv => ?_⟩
          show w.values (2 * v) =
            ((w.trail.drop p ++ [lit]).foldl store ((w.trail.take p).foldl store w.best)) v
          rw [← List.foldl_append, ← List.append_assoc, List.take_append_drop, List.foldl_append]
          exact hval v hv
        · intro hn
          have hn : some 0 = none := hn
          cases hn
      · rw [if_neg h2] at hw'def
        have h2 : p = 0 := by omega
        subst h2
        rw [hw'def]
        refine ⟨hw.congr rfl rfl rfl rfl rfl rfl rfl, hact, hc, rfl, ?_, hdom, ?_, ?_, ?_,
          rfl, rfl, rfl, rfl⟩
        · show w.minimum = falsifiedBy act w.refs _
          rw [hmin]; congr 1
        · intro l hl
          have hl : l ∈ ([] : List Nat) := hl
          cases hl
        · intro q hq
          have hq : none = some q := hq
          cases hq
        · intro _; rfl

theorem updateBest_ok {w : Walker} (h : WInv w) (hact : ∀ l, w.values l ≠ 0 ↔ act (l / 2))
    (hc : w.current = w.unsat.length)
    (hdom : ∀ v, act v → w.best v = 1 ∨ w.best v = -1)
    (hfl : ∀ l ∈ w.trail, act (l / 2))
    (htr : ∀ p, w.bestTrail = some p → p ≤ w.trail.length ∧
      ∀ v, act v → w.values (2 * v) = (w.trail.foldl store w.best) v)
    (hlost : w.bestTrail = none → w.trail = []) (hlt : w.current < w.minimum) :
    BInv act (updateBest w) ∧ Fixed w (updateBest w) := by
  have h2 : ∀ v, (2 * v) / 2 = v := fun v => by omega
  unfold updateBest
  simp only
  cases hb : w.bestTrail with
  | none =>
    simp only
    unfold saveAllValues
    have hval : ∀ v, act v →
        w.values (2 * v) = if v < w.vars ∧ w.values (2 * v) ≠ 0 then w.values (2 * v) else w.best v := by
      intro v hv
      have hne := (hact (2 * v)).2 (by rw [h2]; exact hv)
      have := h.bound _ hne
      rw [h2] at this
      rw [if_pos ⟨this, hne⟩]
    refine ⟨⟨h.congr rfl rfl rfl rfl rfl rfl rfl, hact, hc, Nat.le_refl _, ?_, ?_, hfl, ?_, ?_⟩,
      ⟨rfl, rfl, rfl, Nat.le_of_lt hlt⟩⟩
    · show w.current = falsifiedBy act w.refs _
      rw [hc]
      exact falsified_current h hact hval
    · intro v hv
      show (if v < w.vars ∧ w.values (2 * v) ≠ 0 then w.values (2 * v) else w.best v) = 1 ∨
        (if v < w.vars ∧ w.values (2 * v) ≠ 0 then w.values (2 * v) else w.best v) = -1
      rw [← hval v hv]
      have := h.dom (2 * v)
      have hne := (hact (2 * v)).2 (by rw [h2]; exact hv)
      omega
    · intro p hp
      have hp : some 0 = some p := hp
      cases hp
      refine ⟨Nat.zero_le _, fun v hv => ?_⟩
      show w.values (2 * v) = (w.trail.foldl store _) v
      rw [hlost hb]
      exact hval v hv
    · intro hn
      have hn : some 0 = none := hn
      cases hn
  | some p =>
    simp only
    obtain ⟨hp, hval⟩ := htr p hb
    refine ⟨⟨h.congr rfl rfl rfl rfl rfl rfl rfl, hact, hc, Nat.le_refl _, ?_, hdom, hfl, ?_, ?_⟩,
      ⟨rfl, rfl, rfl, Nat.le_of_lt hlt⟩⟩
    · show w.current = falsifiedBy act w.refs ((w.trail.take w.trail.length).foldl store w.best)
      rw [List.take_length, hc]
      exact falsified_current h hact hval
    · intro q hq
      have hq : some w.trail.length = some q := hq
      cases hq
      exact ⟨Nat.le_refl _, hval⟩
    · intro hn
      have hn : some w.trail.length = none := hn
      cases hn

/-- One local search step. -/
theorem step_ok {w : Walker} (h : BInv act w) (h0 : w.minimum ≠ 0) (choice : Nat) :
    ∃ w', localSearchStep w choice = some w' ∧ BInv act w' ∧ Fixed w w' := by
  have hcur : w.current ≠ 0 := by have := h.le; omega
  have h' : BInv act { w with flipped := w.flipped + 1 } :=
    ⟨h.inv.congr rfl rfl rfl rfl rfl rfl rfl, h.active, h.current, h.le, h.minimum, h.dom, h.flipped,
      h.trail, h.lost⟩
  obtain ⟨lit, n, hp, hl⟩ := pick_ok h' hcur choice
  unfold localSearchStep
  rw [hp]
  simp only
  have hl : w.values lit = -1 := hl
  have hw1 : WInv { w with flipped := n } := h.inv.congr rfl rfl rfl rfl rfl rfl rfl
  obtain ⟨g1, g2⟩ := flip_ok hw1 (lit := lit) hl
  generalize hwf : flipLiteral { w with flipped := n } lit = wf at g1 g2
  have hlit : act (lit / 2) := (h.active lit).1 (by omega)
  have hneg : w.values (neg lit) = 1 := by rw [h.inv.anti, hl]; rfl
  have hvals : wf.values = set (set w.values lit 1) (neg lit) (-1) := g2.values
  have hactf : ∀ l, wf.values l ≠ 0 ↔ act (l / 2) := by
    intro l
    rw [← h.active l, hvals, set_apply, set_apply]
    split
    · rename_i e; rw [e]; omega
    · split
      · rename_i e; rw [e]; omega
      · exact Iff.rfl
  have hbn : bestNow wf = bestNow w := by
    unfold bestNow
    have e1 : wf.bestTrail = w.bestTrail := g2.bestTrail
    have e2 : wf.trail = w.trail := g2.trail
    have e3 : wf.best = w.best := g2.best
    rw [e1, e2, e3]
  have hrefs : wf.refs = w.refs := g2.refs
  have hmin : wf.minimum = w.minimum := g2.minimum
  obtain ⟨k1, k2, k3, k4, k5, k6, k7, k8, k9, k10, k11, k12, k13⟩ := pushFlipped_ok g1 hactf hlit g2.current
    (by rw [hmin, hbn, hrefs]; exact h.minimum)
    (by rw [show wf.best = w.best from g2.best]; exact h.dom)
    (by rw [show wf.trail = w.trail from g2.trail]; exact h.flipped)
    (by
      intro p hp
      have hp : w.bestTrail = some p := (show wf.bestTrail = w.bestTrail from g2.bestTrail) ▸ hp
      obtain ⟨a, b⟩ := h.trail p hp
      rw [show wf.trail = w.trail from g2.trail, show wf.best = w.best from g2.best]
      refine ⟨a, ?_⟩
      rw [hvals]
      exact store_flip b)
    (by
      intro hn
      have hn : w.bestTrail = none := (show wf.bestTrail = w.bestTrail from g2.bestTrail) ▸ hn
      rw [show wf.trail = w.trail from g2.trail]; exact h.lost hn)
  generalize pushFlipped wf lit = w2 at *
  refine ⟨_, rfl, ?_⟩
  have hfix : Fixed w w2 := ⟨k10.trans g2.vars, k11.trans g2.refs, k12.trans g2.initial,
    by rw [k13, hmin]; exact Nat.le_refl _⟩
  by_cases hlt : w2.current < w2.minimum
  · rw [if_pos hlt]
    obtain ⟨m1, m2⟩ := updateBest_ok k1 k2 k3 k6 k7 k8 k9 hlt
    exact ⟨m1, ⟨m2.vars.trans hfix.vars, m2.refs.trans hfix.refs, m2.initial.trans hfix.initial,
      Nat.le_trans m2.minimum hfix.minimum⟩⟩
  · rw [if_neg hlt]
    exact ⟨⟨k1, k2, k3, by omega, k5, k6, k7, k8, k9⟩, hfix⟩

theorem round_ok : ∀ (choices : List Nat) {w : Walker}, BInv act w →
    ∃ w', localSearchRound choices w = some w' ∧ BInv act w' ∧ Fixed w w'
  | [], w, h => ⟨w, rfl, h, ⟨rfl, rfl, rfl, Nat.le_refl _⟩⟩
  | c :: cs, w, h => by
    unfold localSearchRound
    by_cases h0 : w.minimum = 0
    · rw [if_pos h0]; exact ⟨w, rfl, h, ⟨rfl, rfl, rfl, Nat.le_refl _⟩⟩
    · rw [if_neg h0]
      obtain ⟨w1, e, h1, f1⟩ := step_ok h h0 c
      rw [e]
      obtain ⟨w2, e2, h2, f2⟩ := round_ok cs h1
      exact ⟨w2, e2, h2, ⟨f2.vars.trans f1.vars, f2.refs.trans f1.refs, f2.initial.trans f1.initial,
        Nat.le_trans f2.minimum f1.minimum⟩⟩

end Verif.Walk
