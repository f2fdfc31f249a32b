import Verif.Proofs.Simp.Probe

/-!
# Backbone extraction
-/

namespace Verif.Simp

open Verif.Spec Verif.Model Verif.Model.Extend

/-! ## Implications -/

theorem State.Implication.contra {s : State} {k l : Nat} (h : s.Implication k l) : s.Implication (neg l) (neg k) := by
  obtain ⟨r, h1, h2, h3, h4, h5, h6⟩ := h
  exact ⟨r, h1, h2, h3, by rw [neg_neg]; exact h5, h4, by rw [neg_neg]; exact fun e => h6 e.symm⟩

theorem State.Implication.watch {s : State} {k l : Nat} (h : s.Implication k l) :
    ∃ r ∈ s.occurrences (neg k), s.binaryOther (neg k) r = some l := by
  obtain ⟨r, h1, h2, h3, h4, h5, h6⟩ := h
  refine ⟨r, mem_occurrences.2 ⟨h1, h2, h4⟩, ?_⟩
  unfold State.binaryOther
  rw [if_pos h3]
  cases hf : (s.clause r).lits.find? (· ≠ neg k) with
  | none =>
    have := List.find?_eq_none.1 hf l h5
    simp only [ne_eq, decide_not, Bool.not_eq_true', decide_eq_false_iff_not, Classical.not_not] at this
    exact absurd this h6
  | some o =>
    have ho := List.find?_some hf
    have hm := List.mem_of_find?_eq_some hf
    rcases binary_lits h3 h4 h5 h6 hm with e | e
    · simp [e] at ho
    · rw [e]

/-- Unit propagation goes from one literal to the other. -/
def Leads (s : State) (a b : Nat) : Prop := ∀ A, UP s.irr A a → UP s.irr A b

theorem State.Implication.leads {s : State} {a b : Nat} (h : s.Implication a b) : Leads s a b := by
  obtain ⟨r, h1, h2, h3, h4, h5, h6⟩ := h
  exact fun A hA => up_binary (clause_irr h1 h2) h3 h4 h5 h6 hA

/-- Nothing is implied by an unassigned literal to be false. -/
theorem State.Implication.value {orig : List (List Nat)} {s : State} (h : Struct orig s) (hn : s.unitBinary (fun _ => true) = none)
    {a b : Nat} (hi : s.Implication a b) (ha : s.values a = 0) : 0 ≤ s.values b := by
  by_cases e : 0 ≤ s.values b
  · exact e
  · exfalso
    obtain ⟨r, h1, h2, h3, h4, h5, h6⟩ := hi.contra
    have := implied_true h hn rfl h1 h2 h3 h4 h5 h6 (by rw [h.neg]; omega)
    rw [h.neg] at this; omega

/-! ## Trails -/

/-- Literals on the temporary trail. -/
structure Temp (s : State) (trail : List Assigned) : Prop where
  free : ∀ a ∈ trail, s.values a.1 = 0 ∧ s.InRange a.1 ∧ s.removed (a.1 / 2) = false
  nodup : (trail.map fun a => a.1 / 2).Nodup

/-- Everything implied by the literals in `xs` is on the trail. -/
def Implied (s : State) (trail xs : List Assigned) : Prop :=
  ∀ a ∈ xs, ∀ o, s.Implication a.1 o → o ∈ trail.map Prod.fst ∨ 0 < s.values o

/-- The part of a trail after a decision. -/
inductive Seg (s : State) (d : Nat) : List Assigned → Prop
  | start : Seg s d [(d, none)]
  | more {seg : List Assigned} {r l : Nat} : Seg s d seg → r ∈ seg.map Prod.fst → s.Implication r l → Seg s d (seg ++ [(l, some r)])

theorem Seg.decision {s : State} {d : Nat} {seg : List Assigned} (h : Seg s d seg) : d ∈ seg.map Prod.fst := by
  induction h with
  | start => simp
  | more _ _ _ ih => rw [List.map_append]; exact List.mem_append_left _ ih

theorem Temp.append {s : State} {trail : List Assigned} (h : Temp s trail) {a : Assigned}
    (ha : s.values a.1 = 0 ∧ s.InRange a.1 ∧ s.removed (a.1 / 2) = false) (hn : a.1 / 2 ∉ trail.map fun a => a.1 / 2) :
    Temp s (trail ++ [a]) := by
  refine ⟨fun b hb => ?_, ?_⟩
  · rcases List.mem_append.1 hb with hb | hb
    · exact h.free b hb
    · rw [List.mem_singleton.1 hb]; exact ha
  · rw [List.map_append, List.nodup_append]
    refine ⟨h.nodup, by simp, fun x hx y hy e => ?_⟩
    simp only [List.map_cons, List.map_nil, List.mem_singleton] at hy
    rw [e, hy] at hx; exact hn hx

theorem Temp.length {s : State} {trail : List Assigned} (h : Temp s trail) : trail.length ≤ s.exports.length := by
  have := nodup_length_le (m := List.range s.exports.length) h.nodup fun v hv => by
    obtain ⟨a, ha, rfl⟩ := List.mem_map.1 hv
    exact List.mem_range.2 (h.free a ha).2.1
  simpa using this

/-- Two literals on the trail with the same variable are the same. -/
theorem Temp.inj {s : State} : ∀ {trail : List Assigned}, Temp s trail → ∀ {x y : Nat}, x ∈ trail.map Prod.fst →
    y ∈ trail.map Prod.fst → x / 2 = y / 2 → x = y
  | [], _, x, y, hx, _, _ => by cases hx
  | a :: trail, h, x, y, hx, hy, he => by
    have hnd := List.nodup_cons.1 h.nodup
    have ht : Temp s trail := ⟨fun b hb => h.free b (List.mem_cons_of_mem _ hb), hnd.2⟩
    have hin : ∀ z, z ∈ trail.map Prod.fst → z / 2 ∈ trail.map fun a => a.1 / 2 := fun z hz => by
      obtain ⟨b, hb, rfl⟩ := List.mem_map.1 hz
      exact List.mem_map.2 ⟨b, hb, rfl⟩
    rcases List.mem_cons.1 hx with ex | hx <;> rcases List.mem_cons.1 hy with ey | hy
    · exact ex.trans ey.symm
    · rw [ex] at he
      exact absurd (show a.1 / 2 ∈ _ by rw [he]; exact hin y hy) hnd.1
    · rw [ey] at he
      exact absurd (show a.1 / 2 ∈ _ by rw [← he]; exact hin x hx) hnd.1
    · exact ht.inj hx hy he

theorem mem_vars {trail : List Assigned} {x : Nat} (h : x ∈ trail.map Prod.fst) : x / 2 ∈ trail.map fun a => a.1 / 2 := by
  obtain ⟨b, hb, rfl⟩ := List.mem_map.1 h
  exact List.mem_map.2 ⟨b, hb, rfl⟩

theorem value_zero {s : State} {trail : List Assigned} {o : Nat} (h : s.probeValue (trail.map Prod.fst) o = 0) :
    s.values o = 0 ∧ o / 2 ∉ trail.map fun a => a.1 / 2 := by
  unfold State.probeValue at h
  split at h
  · cases h
  · rename_i h1
    split at h
    · cases h
    · rename_i h2
      refine ⟨h, fun hc => ?_⟩
      obtain ⟨b, hb, e⟩ := List.mem_map.1 hc
      have hb' := List.mem_map_of_mem (f := Prod.fst) hb
      rcases eq_or_eq_neg e with e | e
      · rw [e] at hb'; exact h1 (by simpa using hb')
      · rw [e] at hb'; exact h2 (by simpa using hb')

theorem value_pos {s : State} {trail : List Assigned} {o : Nat} (h : 0 < s.probeValue (trail.map Prod.fst) o) :
    o ∈ trail.map Prod.fst ∨ 0 < s.values o := by
  unfold State.probeValue at h
  split at h
  · rename_i h1; exact Or.inl (by simpa using h1)
  · split at h
    · cases h
    · exact Or.inr h

theorem value_neg {s : State} {trail : List Nat} {o : Nat} (h : s.probeValue trail o < 0) (h0 : 0 ≤ s.values o) :
    neg o ∈ trail := by
  unfold State.probeValue at h
  split at h
  · cases h
  · split at h
    · rename_i h1; simpa using h1
    · omega

/-! ## Analysis -/

theorem analyze_spec {s : State} {pre : List Assigned} {d c1 c2 : Nat} : ∀ {seg : List Assigned}, Seg s d seg → Temp s (pre ++ seg) →
    ∀ {A : List Nat} {x y : Nat}, x ∈ seg.map Prod.fst → y ∈ seg.map Prod.fst → x ≠ y →
    (∀ z ∈ seg.map Prod.fst, z / 2 ∈ A ↔ z = x ∨ z = y) → Leads s x c1 → Leads s y c2 →
    ∃ uip ∈ seg.map Prod.fst, backboneAnalyze (pre ++ seg).reverse A = some uip ∧ Leads s uip c1 ∧ Leads s uip c2 := by
  intro seg hseg
  induction hseg generalizing c1 c2 with
  | start =>
    intro _ A x y hx hy hxy
    simp only [List.map_cons, List.map_nil, List.mem_singleton] at hx hy
    exact absurd (hx.trans hy.symm) hxy
  | @more seg r l hseg hr hi ih =>
    intro ht A x y hx hy hxy hA hx1 hy1
    rw [← List.append_assoc] at ht ⊢
    have hpre : Temp s (pre ++ seg) :=
      ⟨fun a ha => ht.free a (List.mem_append_left _ ha), by
        have := ht.nodup
        rw [List.map_append, List.nodup_append] at this
        exact this.1⟩
    have hfresh : ∀ z ∈ seg.map Prod.fst, z ≠ l := by
      intro z hz e
      have := ht.nodup
      rw [List.map_append, List.nodup_append] at this
      refine this.2.2 (z / 2) ?_ (l / 2) (by simp) (by rw [e])
      exact mem_vars (by rw [List.map_append]; exact List.mem_append_right _ hz)
    have hsub : ∀ z ∈ seg.map Prod.fst, z ∈ (seg ++ [(l, some r)]).map Prod.fst := fun z hz => by
      rw [List.map_append]; exact List.mem_append_left _ hz
    have hcase : ∀ z, z ∈ (seg ++ [(l, some r)]).map Prod.fst → z ≠ l → z ∈ seg.map Prod.fst := fun z hz hne => by
      rw [List.map_append] at hz
      rcases List.mem_append.1 hz with hz | hz
      · exact hz
      · simp only [List.map_cons, List.map_nil, List.mem_singleton] at hz
        exact absurd hz hne
    have hl : l ∈ (seg ++ [(l, some r)]).map Prod.fst := by simp
    rw [List.reverse_append]
    simp only [List.reverse_cons, List.reverse_nil, List.nil_append, List.cons_append]
    unfold backboneAnalyze
    by_cases c : l / 2 ∈ A
    · rw [if_neg (by simpa using c)]
      dsimp only
      -- the last literal is one of both
      have key : ∀ (y d1 d2 : Nat), y ∈ seg.map Prod.fst → (∀ z ∈ seg.map Prod.fst, z / 2 ∈ A ↔ z = y) →
          Leads s l d1 → Leads s y d2 →
          ∃ uip ∈ (seg ++ [(l, some r)]).map Prod.fst, (if (!A.contains (r / 2)) = true then
            backboneAnalyze (pre ++ seg).reverse (r / 2 :: A) else some r) = some uip ∧ Leads s uip d1 ∧ Leads s uip d2 := by
        intro y d1 d2 hy hA hl1 hy1
        have hr1 : Leads s r d1 := fun B hB => hl1 B (hi.leads B hB)
        by_cases c' : r / 2 ∈ A
        · rw [if_neg (by simpa using c')]
          have := (hA r hr).1 c'
          subst this
          exact ⟨r, hsub r hr, rfl, hr1, hy1⟩
        · rw [if_pos (by simpa using c')]
          have hry : r ≠ y := fun e => c' ((hA r hr).2 e)
          obtain ⟨uip, u1, u2, u3, u4⟩ := ih (c1 := d1) (c2 := d2) hpre (A := r / 2 :: A) hr hy hry (fun z hz => by
            rw [List.mem_cons, hA z hz]
            constructor
            · rintro (e | e)
              · left
                exact hpre.inj (by rw [List.map_append]; exact List.mem_append_right _ hz)
                  (by rw [List.map_append]; exact List.mem_append_right _ hr) e
              · exact Or.inr e
            · rintro (e | e)
              · exact Or.inl (by rw [e])
              · exact Or.inr e) hr1 hy1
          exact ⟨uip, hsub uip u1, u2, u3, u4⟩
      rcases (hA l hl).1 c with e | e
      · subst e
        exact key y c1 c2 (hcase y hy (fun e => hxy e.symm)) (fun z hz => by
          rw [hA z (hsub z hz)]
          exact ⟨fun h => h.resolve_left (hfresh z hz), Or.inr⟩) hx1 hy1
      · subst e
        obtain ⟨uip, u1, u2, u3, u4⟩ := key x c2 c1 (hcase x hx hxy) (fun z hz => by
          rw [hA z (hsub z hz)]
          exact ⟨fun h => h.resolve_right (hfresh z hz), Or.inl⟩) hy1 hx1
        exact ⟨uip, u1, u2, u4, u3⟩
    · rw [if_pos (by simpa using c)]
      have hxl : x ≠ l := fun e => c ((hA l hl).2 (Or.inl e.symm))
      have hyl : y ≠ l := fun e => c ((hA l hl).2 (Or.inr e.symm))
      obtain ⟨uip, u1, u2, u3, u4⟩ := ih (c1 := c1) (c2 := c2) hpre (hcase x hx hxl) (hcase y hy hyl) hxy
        (fun z hz => hA z (hsub z hz)) hx1 hy1
      exact ⟨uip, hsub uip u1, u2, u3, u4⟩

/-! ## Propagation -/

/-- The trail during propagation: `k` literals after the decision are propagated. -/
structure During (s : State) (pre : List Assigned) (d : Nat) (seg : List Assigned) (k : Nat) : Prop where
  temp : Temp s (pre ++ seg)
  chain : Seg s d seg
  old : Implied s pre pre
  done : Implied s (pre ++ seg) (seg.take k)

/-- How propagation ends. -/
def Ends (s : State) (pre : List Assigned) (d : Nat) : List Assigned × Option (Nat × Nat) → Prop
  | (trail, none) => ∃ seg, trail = pre ++ seg ∧ Temp s (pre ++ seg) ∧ Implied s (pre ++ seg) (pre ++ seg) ∧ Seg s d seg
  | (trail, some (a, b)) => ∃ seg, trail = pre ++ seg ∧ Temp s (pre ++ seg) ∧ Seg s d seg ∧ s.Implication (neg a) b ∧
      neg a ∈ seg.map Prod.fst ∧ neg b ∈ seg.map Prod.fst

theorem during_watches {orig : List (List Nat)} {s : State} (h : Struct orig s) (hn : s.unitBinary (fun _ => true) = none)
    {pre : List Assigned} {d k : Nat} {lit : Nat} {re : Option Nat} : ∀ (qs : List Nat) (seg : List Assigned),
    During s pre d seg k → seg[k]? = some (lit, re) → (∀ q ∈ qs, q ∈ s.occurrences (neg lit)) →
    (∀ o, s.Implication lit o → (o ∈ (pre ++ seg).map Prod.fst ∨ 0 < s.values o) ∨ ∃ q ∈ qs, s.binaryOther (neg lit) q = some o) →
    ∀ {t : List Assigned} {c : Option (Nat × Nat)}, s.backboneWatches lit qs (pre ++ seg) = (t, c) →
    (∀ x, c = some x → Ends s pre d (t, some x)) ∧
    (c = none → ∃ seg', t = pre ++ seg' ∧ During s pre d seg' (k + 1) ∧ k < seg'.length)
  | [], seg, hd, hk, _, hall, t, c, he => by
    unfold State.backboneWatches at he
    cases he
    refine ⟨fun _ h => (by cases h), fun _ => ⟨seg, rfl, ⟨hd.temp, hd.chain, hd.old, ?_⟩, (List.getElem?_eq_some_iff.1 hk).1⟩⟩
    intro a ha o ho
    rw [List.take_add_one, hk] at ha
    rcases List.mem_append.1 ha with ha | ha
    · exact hd.done a ha o ho
    · simp only [Option.toList_some, List.mem_singleton] at ha
      subst ha
      rcases hall o ho with h1 | ⟨q, hq, _⟩
      · exact h1
      · cases hq
  | q :: qs, seg, hd, hk, hocc, hall, t, c, he => by
    have hlit : lit ∈ seg.map Prod.fst := List.mem_map.2 ⟨_, List.mem_of_getElem? hk, rfl⟩
    have hlit' : lit ∈ (pre ++ seg).map Prod.fst := by rw [List.map_append]; exact List.mem_append_right _ hlit
    have hlit0 : s.values lit = 0 := (hd.temp.free _ (List.mem_append_right _ (List.mem_of_getElem? hk))).1
    have hqs : ∀ x ∈ qs, x ∈ s.occurrences (neg lit) := fun x hx => hocc x (List.mem_cons_of_mem _ hx)
    unfold State.backboneWatches at he
    cases hb : s.binaryOther (neg lit) q with
    | none =>
      rw [hb] at he
      refine during_watches h hn qs seg hd hk hqs (fun o ho => ?_) he
      rcases hall o ho with h1 | ⟨q', hq', h2⟩
      · exact Or.inl h1
      · rcases List.mem_cons.1 hq' with e | hq'
        · rw [e, hb] at h2; cases h2
        · exact Or.inr ⟨q', hq', h2⟩
    | some other =>
      rw [hb] at he
      dsimp only at he
      have hi : s.Implication lit other := implication_of (hocc q (by simp)) hb
      have h0 := hi.value h hn hlit0
      have hrest : ∀ (seg' : List Assigned), (∀ o, o ∈ (pre ++ seg).map Prod.fst → o ∈ (pre ++ seg').map Prod.fst) →
          (other ∈ (pre ++ seg').map Prod.fst ∨ 0 < s.values other) → ∀ o, s.Implication lit o →
          (o ∈ (pre ++ seg').map Prod.fst ∨ 0 < s.values o) ∨ ∃ q ∈ qs, s.binaryOther (neg lit) q = some o := by
        intro seg' hsub hother o ho
        rcases hall o ho with h1 | ⟨q', hq', h2⟩
        · exact Or.inl (h1.imp_left (hsub o))
        · rcases List.mem_cons.1 hq' with e | hq'
          · rw [e, hb] at h2
            injection h2 with h2
            rw [← h2]; exact Or.inl hother
          · exact Or.inr ⟨q', hq', h2⟩
      by_cases c1 : s.probeValue ((pre ++ seg).map Prod.fst) other > 0
      · rw [if_pos c1] at he
        exact during_watches h hn qs seg hd hk hqs (hrest seg (fun _ h => h) (value_pos c1)) he
      · rw [if_neg c1] at he
        by_cases c2 : s.probeValue ((pre ++ seg).map Prod.fst) other < 0
        · rw [if_pos c2] at he
          cases he
          refine ⟨fun x hx => ?_, fun h => (by cases h)⟩
          cases hx
          refine ⟨seg, rfl, hd.temp, hd.chain, by rw [neg_neg]; exact hi, by rw [neg_neg]; exact hlit, ?_⟩
          have hneg := value_neg c2 h0
          rw [List.map_append] at hneg
          rcases List.mem_append.1 hneg with hneg | hneg
          · exfalso
            obtain ⟨b, hb1, hb2⟩ := List.mem_map.1 hneg
            rcases hd.old b hb1 (neg lit) (by rw [hb2]; exact hi.contra) with h1 | h1
            · have : neg lit ∈ (pre ++ seg).map Prod.fst := by rw [List.map_append]; exact List.mem_append_left _ h1
              exact absurd (hd.temp.inj this hlit' (neg_div lit)) (neg_ne lit)
            · rw [h.neg, hlit0] at h1; cases h1
          · exact hneg
        · rw [if_neg c2] at he
          obtain ⟨v1, v2⟩ := value_zero (show s.probeValue ((pre ++ seg).map Prod.fst) other = 0 by omega)
          have hr : s.InRange other ∧ s.removed (other / 2) = false := by
            obtain ⟨r, r1, r2, _, _, r5, _⟩ := hi
            exact ⟨h.clause r r1 other r5, h.removed r r1 r2 other r5⟩
          rw [List.append_assoc] at he
          have hklt : k < seg.length := by
            have := List.getElem?_eq_some_iff.1 hk
            exact this.1
          have htemp := hd.temp.append (a := (other, some lit)) ⟨v1, hr⟩ v2
          rw [List.append_assoc] at htemp
          refine during_watches (re := re) h hn qs (seg ++ [(other, some lit)]) ⟨htemp, hd.chain.more hlit hi, hd.old, ?_⟩ ?_ hqs
            (hrest _ (fun o ho => ?_) (Or.inl (by simp))) he
          · rw [List.take_append_of_le_length (by omega)]
            intro a ha o ho
            refine (hd.done a ha o ho).imp_left fun h => ?_
            rw [← List.append_assoc, List.map_append]
            exact List.mem_append_left _ h
          · rw [List.getElem?_append_left hklt]; exact hk
          · rw [← List.append_assoc, List.map_append]
            exact List.mem_append_left _ ho

theorem during_propagate {orig : List (List Nat)} {s : State} (h : Struct orig s) (hn : s.unitBinary (fun _ => true) = none)
    {pre : List Assigned} {d : Nat} : ∀ (fuel : Nat) (seg : List Assigned) (k : Nat), During s pre d seg k → k ≤ seg.length →
    s.exports.length + 1 ≤ fuel + k →
    Ends s pre d (s.backbonePropagate fuel (pre ++ seg) (pre.length + k))
  | 0, seg, k, hd, hk, hf => by
    have := hd.temp.length
    rw [List.length_append] at this
    omega
  | fuel + 1, seg, k, hd, hk, hf => by
    unfold State.backbonePropagate
    cases hg : (pre ++ seg)[pre.length + k]? with
    | none =>
      rw [List.getElem?_append_right (by omega), Nat.add_sub_cancel_left] at hg
      have hlen : k = seg.length := by
        have := List.getElem?_eq_none_iff.1 hg
        omega
      refine ⟨seg, rfl, hd.temp, fun a ha o ho => ?_, hd.chain⟩
      rcases List.mem_append.1 ha with ha | ha
      · refine (hd.old a ha o ho).imp_left fun h => ?_
        rw [List.map_append]; exact List.mem_append_left _ h
      · exact hd.done a (by rw [hlen, List.take_length]; exact ha) o ho
    | some a =>
      obtain ⟨lit, re⟩ := a
      dsimp only
      rw [List.getElem?_append_right (by omega), Nat.add_sub_cancel_left] at hg
      cases hw : s.backboneWatches lit (s.occurrences (neg lit)) (pre ++ seg) with
      | mk t c =>
        obtain ⟨w1, w2⟩ := during_watches h hn _ seg hd hg (fun _ h => h) (fun o ho => Or.inr (ho.watch)) hw
        cases c with
        | some x => exact w1 x rfl
        | none =>
          dsimp only
          obtain ⟨seg', rfl, hd', hlt⟩ := w2 rfl
          exact during_propagate h hn fuel seg' (k + 1) hd' (by omega) (by omega)

theorem Ends.of_decision {orig : List (List Nat)} {s : State} (h : Struct orig s) (hn : s.unitBinary (fun _ => true) = none)
    {pre : List Assigned} (hp : Temp s pre) (hi : Implied s pre pre) {d : Nat}
    (hd : s.values d = 0 ∧ s.InRange d ∧ s.removed (d / 2) = false) (hv : d / 2 ∉ pre.map fun a => a.1 / 2) :
    Ends s pre d (s.backbonePropagate (s.exports.length + 1) (pre ++ [(d, none)]) pre.length) :=
  during_propagate h hn _ [(d, none)] 0
    ⟨hp.append hd hv, .start, hi, fun a ha => (by cases ha)⟩ (Nat.zero_le _) (Nat.le_refl _)

/-- The unit found from a conflict. -/
theorem Ends.analyze {orig : List (List Nat)} {s : State} (h : Struct orig s) {pre t : List Assigned} {d a b : Nat}
    (he : Ends s pre d (t, some (a, b))) : ∃ uip, backboneAnalyze t.reverse [b / 2, a / 2] = some uip ∧
    RUP s.irr [neg uip] ∧ s.values (neg uip) = 0 ∧ s.InRange (neg uip) ∧ s.removed (neg uip / 2) = false ∧
    neg uip / 2 ∉ pre.map fun a => a.1 / 2 := by
  obtain ⟨seg, rfl, ht, hs, hi, ha, hb⟩ := he
  have hne : neg a ≠ neg b := by
    intro e
    obtain ⟨r, h1, h2, h3, h4, h5, h6⟩ := hi
    rw [neg_neg] at h4 h6
    exact h6 (neg_inj e).symm
  have hsub : ∀ z ∈ seg.map Prod.fst, z ∈ (pre ++ seg).map Prod.fst := fun z hz => by
    rw [List.map_append]; exact List.mem_append_right _ hz
  obtain ⟨uip, u1, u2, u3, u4⟩ := analyze_spec (A := [b / 2, a / 2]) hs ht ha hb hne (fun z hz => by
    simp only [List.mem_cons, List.not_mem_nil, or_false]
    constructor
    · rintro (e | e)
      · exact Or.inr (ht.inj (hsub z hz) (hsub _ hb) (by rw [neg_div]; exact e))
      · exact Or.inl (ht.inj (hsub z hz) (hsub _ ha) (by rw [neg_div]; exact e))
    · rintro (e | e)
      · exact Or.inr (by rw [e, neg_div])
      · exact Or.inl (by rw [e, neg_div])) (fun _ h => h) (fun _ h => h)
  refine ⟨uip, u2, Or.inl ?_, ?_⟩
  · have hu : UP s.irr (fun l => neg l ∈ [neg uip]) uip := .assumed (by simp)
    obtain ⟨r, h1, h2, h3, h4, h5, h6⟩ := hi
    refine ⟨_, clause_irr h1 h2, fun m hm => ?_⟩
    rcases binary_lits h3 h4 h5 h6 hm with e | e
    · rw [e, neg_neg]; exact u3 _ hu
    · rw [e]; exact u4 _ hu
  · obtain ⟨x, hx, rfl⟩ := List.mem_map.1 u1
    obtain ⟨f1, f2, f3⟩ := ht.free x (List.mem_append_right _ hx)
    refine ⟨by rw [h.neg, f1]; rfl, ?_, by rw [neg_div]; exact f3, ?_⟩
    · unfold State.InRange at f2 ⊢
      rw [neg_div]; exact f2
    · rw [neg_div]
      intro hc
      have := ht.nodup
      rw [List.map_append, List.nodup_append] at this
      exact this.2.2 _ hc _ (List.mem_map_of_mem (f := fun a => a.1 / 2) hx) rfl

/-! ## Rounds -/

/-- Units which can be learned one after the other. -/
structure Units (s : State) (units : List Nat) : Prop where
  free : ∀ u ∈ units, s.values u = 0 ∧ s.InRange u ∧ s.removed (u / 2) = false
  rup : ∀ u ∈ units, RUP s.irr [u]
  nodup : (units.map (· / 2)).Nodup

theorem round_spec {orig : List (List Nat)} {s : State} (h : Struct orig s) (hn : s.unitBinary (fun _ => true) = none) :
    ∀ (cs : List Nat) (trail : List Assigned) (units : List Nat), (∀ c ∈ cs, s.active (c / 2) = true) → Temp s trail →
    Implied s trail trail → Units s units → (∀ u ∈ units, u ∈ trail.map Prod.fst) →
    ∃ f us, s.backboneRound cs trail units = some (f, us) ∧ Units s us ∧ ∀ u, f = some u → u ∈ us
  | [], trail, units, _, _, _, hu, _ => ⟨none, units, rfl, hu, fun _ h => (by cases h)⟩
  | probe :: cs, trail, units, hcs, ht, hi, hu, hut => by
    have hcs' : ∀ c ∈ cs, s.active (c / 2) = true := fun c hc => hcs c (List.mem_cons_of_mem _ hc)
    unfold State.backboneRound
    by_cases c1 : s.probeValue (trail.map Prod.fst) probe ≠ 0
    · rw [if_pos c1]; exact round_spec h hn cs trail units hcs' ht hi hu hut
    · rw [if_neg c1]
      obtain ⟨v1, v2⟩ := value_zero (show s.probeValue (trail.map Prod.fst) probe = 0 by omega)
      have hact := hcs probe (by simp)
      unfold State.active at hact
      simp only [Bool.and_eq_true, decide_eq_true_eq, Bool.not_eq_true'] at hact
      have he := Ends.of_decision h hn ht hi (d := probe) ⟨v1, hact.1.1, hact.1.2⟩ v2
      cases hp : s.backbonePropagate (s.exports.length + 1) (trail ++ [(probe, none)]) trail.length with
      | mk t c =>
        rw [hp] at he
        cases c with
        | none =>
          dsimp only
          obtain ⟨seg, rfl, e1, e2, _⟩ := he
          exact round_spec h hn cs _ units hcs' e1 e2 hu fun u hu => by
            rw [List.map_append]; exact List.mem_append_left _ (hut u hu)
        | some ab =>
          obtain ⟨a, b⟩ := ab
          dsimp only
          obtain ⟨uip, u1, u2, u3, u4, u5, u6⟩ := he.analyze h
          rw [u1]
          dsimp only
          have he' := Ends.of_decision h hn ht hi (d := neg uip) ⟨u3, u4, u5⟩ u6
          have hunits : Units s (units ++ [neg uip]) := by
            refine ⟨fun u hm => ?_, fun u hm => ?_, ?_⟩
            · rcases List.mem_append.1 hm with hm | hm
              · exact hu.free u hm
              · rw [List.mem_singleton.1 hm]; exact ⟨u3, u4, u5⟩
            · rcases List.mem_append.1 hm with hm | hm
              · exact hu.rup u hm
              · rw [List.mem_singleton.1 hm]; exact u2
            · rw [List.map_append, List.nodup_append]
              refine ⟨hu.nodup, by simp, fun x hx y hy e => ?_⟩
              simp only [List.map_cons, List.map_nil, List.mem_singleton] at hy
              obtain ⟨z, hz, hz2⟩ := List.mem_map.1 hx
              have := mem_vars (hut z hz)
              rw [hz2, e, hy] at this
              exact u6 this
          cases hp' : s.backbonePropagate (s.exports.length + 1) (trail ++ [(neg uip, none)]) trail.length with
          | mk t' c' =>
            rw [hp'] at he'
            cases c' with
            | some _ => exact ⟨_, _, rfl, hunits, fun u e => by cases e; simp⟩
            | none =>
              dsimp only
              obtain ⟨seg, rfl, e1, e2, e3⟩ := he'
              refine round_spec h hn cs _ _ hcs' e1 e2 hunits fun u hm => ?_
              rw [List.map_append]
              rcases List.mem_append.1 hm with hm | hm
              · exact List.mem_append_left _ (hut u hm)
              · rw [List.mem_singleton.1 hm]; exact List.mem_append_right _ e3.decision

theorem Inv.units {orig : List (List Nat)} : ∀ (us : List Nat) {s : State}, Inv orig none s → Units s us →
    Inv orig none (us.foldl State.learnedUnit s) ∧ Preserves s (us.foldl State.learnedUnit s)
  | [], s, h, _ => ⟨h, .refl _⟩
  | u :: us, s, h, hu => by
    obtain ⟨f1, f2, f3⟩ := hu.free u (by simp)
    have hr := rup_formula (hu.rup u (by simp))
    have h1 := h.learnedUnit f1 f2 f3 hr
    obtain ⟨n1, n2⟩ := List.nodup_cons.1 hu.nodup
    obtain ⟨i1, i2⟩ := Inv.units us h1 ⟨fun w hw => by
      obtain ⟨g1, g2, g3⟩ := hu.free w (List.mem_cons_of_mem _ hw)
      have hne : w / 2 ≠ u / 2 := fun e => n1 (by show u / 2 ∈ _; rw [← e]; exact List.mem_map_of_mem (f := (· / 2)) hw)
      refine ⟨?_, g2, g3⟩
      rw [values_learned, if_neg (by rintro rfl; exact hne rfl), if_neg (by rintro rfl; exact hne (neg_div u))]
      exact g1, fun w hw =>
      RUP.mono (fun c hc => ⟨c, irr_learnedUnit.2 (Or.inr hc), .refl _⟩) (fun _ h => h) (hu.rup w (List.mem_cons_of_mem _ hw)), n2⟩
    exact ⟨i1, (preserves_unit hr.entails).trans i2⟩

theorem Inv.propagateAll_complete {orig : List (List Nat)} {s : State} (h : Inv orig none s) (order : List Nat) :
    (s.propagateRoot (fun _ => true) order).inconsistent = true ∨
    (s.propagateRoot (fun _ => true) order).unitBinary (fun _ => true) = none :=
  (h.propagateRoot (V := fun _ => True) watched_true order).2.2

/-- Backbone extraction never accesses memory out of bounds, keeps the invariant, and learns only implied units. -/
theorem Inv.backbone {orig : List (List Nat)} : ∀ (rounds : List (List Nat × List Nat)) {s : State}, Inv orig none s →
    s.inconsistent = true ∨ s.unitBinary (fun _ => true) = none →
    ∃ s', s.backbone rounds = some s' ∧ Inv orig none s' ∧ Preserves s s' ∧
      (s'.inconsistent = true ∨ s'.unitBinary (fun _ => true) = none)
  | [], s, h, hn => ⟨s, rfl, h, .refl _, hn⟩
  | (cs, order) :: rounds, s, h, hn => by
    unfold State.backbone
    by_cases c1 : s.inconsistent = true
    · rw [if_pos c1]; exact ⟨s, rfl, h, .refl _, Or.inl c1⟩
    · rw [if_neg c1]
      have hn' := hn.resolve_left c1
      obtain ⟨f, us, e, hu, hf⟩ := round_spec h.struct hn' (cs.filter fun l => s.active (l / 2)) [] []
        (fun c hc => (List.mem_filter.1 hc).2) ⟨fun a ha => (by cases ha), List.nodup_nil⟩ (fun a ha => (by cases ha))
        ⟨fun a ha => (by cases ha), fun a ha => (by cases ha), List.nodup_nil⟩ (fun a ha => (by cases ha))
      rw [e]
      cases f with
      | some u =>
        dsimp only
        obtain ⟨f1, f2, f3⟩ := hu.free u (hf u rfl)
        have hr := rup_formula (hu.rup u (hf u rfl))
        have h1 := h.learnedUnit f1 f2 f3 hr
        exact ⟨_, rfl, h1.propagateAll order, (preserves_unit hr.entails).trans (preserves_propagateRoot h1 order),
          h1.propagateAll_complete order⟩
      | none =>
        match us, hu with
        | [], _ => exact Inv.backbone rounds h hn
        | u :: us, hu =>
          dsimp only
          obtain ⟨i1, i2⟩ := h.units (u :: us) hu
          obtain ⟨s', e1, e2, e3, e4⟩ := Inv.backbone rounds (i1.propagateAll order) (i1.propagateAll_complete order)
          exact ⟨s', e1, e2, (i2.trans (preserves_propagateRoot i1 order)).trans e3, e4⟩

theorem backbone_keeps : ∀ (rounds : List (List Nat × List Nat)) {s s' : State}, s.backbone rounds = some s' →
    s'.arena = s.arena ∧ ∀ l ∈ s.trail, l ∈ s'.trail
  | [], s, s', h => by
    unfold State.backbone at h
    injection h with h
    rw [← h]; exact ⟨rfl, fun _ h => h⟩
  | (cs, order) :: rounds, s, s', h => by
    have hu : ∀ (s : State) (u : Nat), (s.learnedUnit u).arena = s.arena ∧ ∀ l ∈ s.trail, l ∈ (s.learnedUnit u).trail :=
      fun s u => ⟨rfl, fun l hl => List.mem_append_left _ hl⟩
    have hv : ∀ (s : State) (r : Nat), (s.visit r).arena = s.arena ∧ ∀ l ∈ s.trail, l ∈ (s.visit r).trail := by
      intro s r
      unfold State.visit
      split
      · exact ⟨rfl, fun _ h => h⟩
      · split
        · exact ⟨rfl, fun _ h => h⟩
        · split
          · exact ⟨rfl, fun _ h => h⟩
          · exact hu s _
        · exact ⟨rfl, fun _ h => h⟩
    have hvs : ∀ (w : Nat → Bool) (rs : List Nat) (s : State), (s.visits w rs).arena = s.arena ∧
        ∀ l ∈ s.trail, l ∈ (s.visits w rs).trail := by
      intro w rs
      induction rs with
      | nil => exact fun s => ⟨rfl, fun _ h => h⟩
      | cons r rs ih =>
        intro s
        unfold State.visits
        split
        · exact ⟨rfl, fun _ h => h⟩
        · split
          · obtain ⟨h1, h2⟩ := ih (s.visit r)
            exact ⟨h1.trans (hv s r).1, fun l hl => h2 l ((hv s r).2 l hl)⟩
          · exact ih s
    have hc : ∀ (w : Nat → Bool) (fuel : Nat) (s : State), (s.complete w fuel).arena = s.arena ∧
        ∀ l ∈ s.trail, l ∈ (s.complete w fuel).trail := by
      intro w fuel
      induction fuel with
      | zero => exact fun s => ⟨rfl, fun _ h => h⟩
      | succ fuel ih =>
        intro s
        unfold State.complete
        split
        · exact ⟨rfl, fun _ h => h⟩
        · split
          · exact ⟨rfl, fun _ h => h⟩
          · obtain ⟨h1, h2⟩ := ih (s.visit _)
            exact ⟨h1.trans (hv s _).1, fun l hl => h2 l ((hv s _).2 l hl)⟩
    have hp : ∀ (s : State), (s.propagateRoot (fun _ => true) order).arena = s.arena ∧
        ∀ l ∈ s.trail, l ∈ (s.propagateRoot (fun _ => true) order).trail := by
      intro s
      unfold State.propagateRoot
      obtain ⟨h1, h2⟩ := hvs (fun _ => true) order s
      obtain ⟨h3, h4⟩ := hc (fun _ => true) (s.exports.length + 1) (s.visits (fun _ => true) order)
      exact ⟨h3.trans h1, fun l hl => h4 l (h2 l hl)⟩
    have hus : ∀ (us : List Nat) (s : State), (us.foldl State.learnedUnit s).arena = s.arena ∧
        ∀ l ∈ s.trail, l ∈ (us.foldl State.learnedUnit s).trail := by
      intro us
      induction us with
      | nil => exact fun s => ⟨rfl, fun _ h => h⟩
      | cons u us ih =>
        intro s
        obtain ⟨h1, h2⟩ := ih (s.learnedUnit u)
        exact ⟨h1, fun l hl => h2 l ((hu s u).2 l hl)⟩
    unfold State.backbone at h
    split at h
    · injection h with h
      rw [← h]; exact ⟨rfl, fun _ h => h⟩
    · split at h
      · cases h
      · rename_i u _ _
        injection h with h
        rw [← h]
        obtain ⟨h1, h2⟩ := hp (s.learnedUnit u)
        exact ⟨h1, fun l hl => h2 l ((hu s u).2 l hl)⟩
      · exact backbone_keeps rounds h
      · rename_i us _ _
        obtain ⟨h1, h2⟩ := backbone_keeps rounds h
        obtain ⟨h3, h4⟩ := hp (us.foldl State.learnedUnit s)
        obtain ⟨h5, h6⟩ := hus us s
        exact ⟨(h1.trans h3).trans h5, fun l hl => h2 l (h4 l (h6 l hl))⟩

end Verif.Simp
