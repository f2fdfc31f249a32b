import Verif.Proofs.Compact.Renumber

/-! # Compaction: copying of arrays and the decision queue -/

namespace Verif.Compact

open Verif.Spec
open Verif.Core (upd)
open Verif.Model.Queue

/-- Copying upwards moves all entries if the new index is never larger and different for
different indices. -/
theorem copyUp_ok {α : Type} {m : Nat → Option Nat} {n : Nat} (f : Nat → α)
    (hle : ∀ v d, v < n → m v = some d → d ≤ v)
    (hinj : ∀ v w d, v < n → w < n → m v = some d → m w = some d → v = w) :
    ∀ v d, v < n → m v = some d → copyUp m n f d = f v := by
  have key := foldl_range (fun (f : Nat → α) iidx =>
    match m iidx with
    | none => f
    | some midx => upd f midx (f iidx))
    (fun k g => (∀ v d, v < k → m v = some d → g d = f v) ∧ ∀ j, k ≤ j → g j = f j) f n
    ⟨fun v d hv => absurd hv (Nat.not_lt_zero _), fun j _ => rfl⟩ (fun k g hk hg => by
      obtain ⟨h1, h2⟩ := hg
      cases hm : m k with
      | none =>
        simp only
        refine ⟨fun v d hv hd => ?_, fun j hj => h2 j (by omega)⟩
        by_cases e : v = k
        · rw [e, hm] at hd; cases hd
        · exact h1 v d (by omega) hd
      | some x =>
        simp only
        have hx := hle k x hk hm
        refine ⟨fun v d hv hd => ?_, fun j hj => ?_⟩
        · by_cases e : v = k
          · rw [e, hm] at hd; cases hd
            rw [upd_apply, if_pos rfl, h2 k (Nat.le_refl _), e]
          · have hne : d ≠ x := by
              intro e2; rw [e2] at hd
              exact e (hinj v k x (by omega) hk hd hm)
            rw [upd_apply, if_neg hne]
            exact h1 v d (by omega) hd
        · rw [upd_apply, if_neg (by omega)]; exact h2 j (by omega))
  exact key.1

theorem copyValues_ok {map : Nat → Option Nat} {n : Nat} (f : Nat → Int) {μ : Nat → Nat}
    (hmap : ∀ v x, v < n → map (2 * v) = some x → x = 2 * μ v ∧ μ v ≤ v)
    (hinj : ∀ v w, v < n → w < n → map (2 * v) ≠ none → map (2 * w) ≠ none → μ v = μ w → v = w) :
    ∀ v, v < n → map (2 * v) ≠ none → copyValues map n f (2 * μ v) = f (2 * v) ∧
      copyValues map n f (2 * μ v + 1) = f (2 * v + 1) := by
  have hneg : ∀ v, neg (2 * v) = 2 * v + 1 := fun v => by unfold neg; rw [if_pos (by omega)]
  have key := foldl_range (fun (f : Nat → Int) iidx =>
    match map (2 * iidx) with
    | none => f
    | some mlit => upd (upd f mlit (f (2 * iidx))) (neg mlit) (f (neg (2 * iidx))))
    (fun k g => (∀ v, v < k → map (2 * v) ≠ none → g (2 * μ v) = f (2 * v) ∧
      g (2 * μ v + 1) = f (2 * v + 1)) ∧ ∀ j, 2 * k ≤ j → g j = f j) f n
    ⟨fun v hv => absurd hv (Nat.not_lt_zero _), fun j _ => rfl⟩ (fun k g hk hg => by
      obtain ⟨h1, h2⟩ := hg
      cases hm : map (2 * k) with
      | none =>
        simp only
        refine ⟨fun v hv hd => ?_, fun j hj => h2 j (by omega)⟩
        by_cases e : v = k
        · rw [e] at hd; exact absurd hm hd
        · exact h1 v (by omega) hd
      | some x =>
        simp only
        obtain ⟨hx, hle⟩ := hmap k x hk hm
        subst hx
        rw [hneg, hneg]
        refine ⟨fun v hv hd => ?_, fun j hj => ?_⟩
        · by_cases e : v = k
          · subst e
            refine ⟨?_, ?_⟩
            · rw [upd_apply, if_neg (by omega), upd_apply, if_pos rfl]; exact h2 _ (by omega)
            · rw [upd_apply, if_pos rfl]; exact h2 _ (by omega)
          · have hne : μ v ≠ μ k := fun e2 => e (hinj v k (by omega) hk hd (by rw [hm]; simp) e2)
            obtain ⟨h3, h4⟩ := h1 v (by omega) hd
            refine ⟨?_, ?_⟩
            · rw [upd_apply, if_neg (by omega), upd_apply, if_neg (by omega)]; exact h3
            · rw [upd_apply, if_neg (by omega), upd_apply, if_neg (by omega)]; exact h4
        · rw [upd_apply, if_neg (by omega), upd_apply, if_neg (by omega)]; exact h2 j (by omega))
  exact key.1

/-! ## The queue -/

/-- Links of old indices with mapped contents. -/
def Linked (μ : Nat → Nat) (prev next : Nat → Option Nat) : Option Nat → List Nat → Prop
  | _, [] => True
  | p, v :: b => prev v = p ∧ next v = b.head?.map μ ∧ Linked μ prev next (some (μ v)) b

/-- Chain of `next` pointers. -/
def Chain (next : Nat → Option Nat) : List Nat → Prop
  | [] => True
  | v :: b => next v = b.head? ∧ Chain next b

theorem Chain.congr {next next' : Nat → Option Nat} : ∀ {b : List Nat}, Chain next b →
    (∀ v ∈ b, next' v = next v) → Chain next' b
  | [], _, _ => trivial
  | v :: b, h, he => ⟨(he v (by simp)).trans h.1, Chain.congr h.2 fun w hw => he w (by simp [hw])⟩

theorem Linked.congr {μ : Nat → Nat} {prev next prev' next' : Nat → Option Nat} : ∀ {b : List Nat} {p : Option Nat},
    Linked μ prev next p b → (∀ v ∈ b, prev' v = prev v) → (∀ v ∈ b, next' v = next v) →
    Linked μ prev' next' p b
  | [], _, _, _, _ => trivial
  | v :: b, p, h, h1, h2 => ⟨(h1 v (by simp)).trans h.1, (h2 v (by simp)).trans h.2.1,
      Linked.congr h.2.2 (fun w hw => h1 w (by simp [hw])) fun w hw => h2 w (by simp [hw])⟩

/-- Time stamps are consecutive numbers. -/
def Stamped (stampOf : Nat → Nat) : Nat → List Nat → Prop
  | _, [] => True
  | k, v :: b => stampOf v = k + 1 ∧ Stamped stampOf (k + 1) b

theorem Stamped.congr {s s' : Nat → Nat} : ∀ {b : List Nat} {k : Nat}, Stamped s k b →
    (∀ v ∈ b, s' v = s v) → Stamped s' k b
  | [], _, _, _ => trivial
  | v :: b, k, h, he => ⟨(he v (by simp)).trans h.1, Stamped.congr h.2 fun w hw => he w (by simp [hw])⟩

theorem Stamped.range {s : Nat → Nat} : ∀ {b : List Nat} {k : Nat}, Stamped s k b →
    ∀ v ∈ b, k < s v ∧ s v ≤ k + b.length
  | [], _, _, v, hv => by cases hv
  | w :: b, k, h, v, hv => by
    rcases List.mem_cons.1 hv with rfl | hv
    · rw [h.1, List.length_cons]; omega
    · have := Stamped.range h.2 v hv
      rw [List.length_cons]; omega

/-- What the first loop of `compact_queue` computes. -/
structure Looped (μ : Nat → Nat) (b : List Nat) (p prev : Option Nat) (q q' : Queue) : Prop where
  vars : q'.vars = q.vars
  place : place q' p = b.head?.map μ
  linked : Linked μ q'.prev q'.next prev b
  stamped : Stamped q'.stampOf q.stamp b
  stamp : q'.stamp = q.stamp + b.length
  next : ∀ v, v ∉ b → p ≠ some v → q'.next v = q.next v
  prev : ∀ v, v ∉ b → q'.prev v = q.prev v
  stampOf : ∀ v, v ∉ b → q'.stampOf v = q.stampOf v
  first : p ≠ none → q'.first = q.first
  outside : (∀ x, q.search = some x → x ∉ b) → q'.search = q.search ∧ q'.searchStamp = q.searchStamp
  inside : ∀ x, q.search = some x → x ∈ b → ∃ w ∈ b, q'.search = some (μ w) ∧
    q'.searchStamp = q'.stampOf w ∧ q'.stampOf x ≤ q'.stampOf w

theorem queueLoop_ok {m : Nat → Option Nat} {μ : Nat → Nat} : ∀ (b : List Nat) (n : Nat)
    (p prev : Option Nat) (q : Queue), b.length < n → place q p = b.head? → Chain q.next b → b.Nodup →
    (∀ v, p = some v → v ∉ b) → (∀ v ∈ b, m v = some (μ v)) →
    ∃ q', queueLoop m n p prev q = some (q', b.getLast?.or p, (b.getLast?.map μ).or prev) ∧
      Looped μ b p prev q q'
  | [], n + 1, p, prev, q, _, hp, _, _, _, _ => by
    refine ⟨q, ?_, ⟨rfl, hp, trivial, trivial, rfl, fun _ _ _ => rfl, fun _ _ => rfl, fun _ _ => rfl,
      fun _ => rfl, fun _ => ⟨rfl, rfl⟩, fun x _ hx => (by cases hx)⟩⟩
    unfold queueLoop
    rw [show place q p = none from hp]
    rfl
  | v :: b, n + 1, p, prev, q, hn, hp, hc, hd, hpb, hm => by
    unfold queueLoop
    rw [show place q p = some v from hp]
    simp only
    rw [hm v (by simp)]
    simp only
    rw [List.nodup_cons] at hd
    rw [List.length_cons] at hn
    have hpv : p ≠ some v := fun e => hpb v e (by simp)
    -- the state after the body of the loop
    generalize hq1 : (if q.search = some v then
      { { q with
          prev := upd q.prev v prev
          stamp := q.stamp + 1
          stampOf := upd q.stampOf v (q.stamp + 1) : Queue } with
        search := some (μ v), searchStamp := q.stamp + 1 } else
      { q with
          prev := upd q.prev v prev
          stamp := q.stamp + 1
          stampOf := upd q.stampOf v (q.stamp + 1) }) = q1
    have a1 : q1.prev = upd q.prev v prev := by rw [← hq1]; split <;> rfl
    have a2 : q1.next = q.next := by rw [← hq1]; split <;> rfl
    have a3 : q1.stampOf = upd q.stampOf v (q.stamp + 1) := by rw [← hq1]; split <;> rfl
    have a4 : q1.stamp = q.stamp + 1 := by rw [← hq1]; split <;> rfl
    have a5 : q1.first = q.first := by rw [← hq1]; split <;> rfl
    have a6 : q1.search = if q.search = some v then some (μ v) else q.search := by
      rw [← hq1]; split <;> rfl
    have a7 : q1.searchStamp = if q.search = some v then q.stamp + 1 else q.searchStamp := by
      rw [← hq1]; split <;> rfl
    have a8 : q1.vars = q.vars := by rw [← hq1]; split <;> rfl
    generalize hq2 : setPlace q1 p (some (μ v)) = q2
    have b1 : q2.prev = upd q.prev v prev := by rw [← hq2, ← a1]; cases p <;> rfl
    have b3 : q2.stampOf = upd q.stampOf v (q.stamp + 1) := by rw [← hq2, ← a3]; cases p <;> rfl
    have b4 : q2.stamp = q.stamp + 1 := by rw [← hq2, ← a4]; cases p <;> rfl
    have b6 : q2.search = if q.search = some v then some (μ v) else q.search := by
      rw [← hq2, ← a6]; cases p <;> rfl
    have b7 : q2.searchStamp = if q.search = some v then q.stamp + 1 else q.searchStamp := by
      rw [← hq2, ← a7]; cases p <;> rfl
    have b8 : q2.vars = q.vars := by rw [← hq2, ← a8]; cases p <;> rfl
    have b5 : place q2 p = some (μ v) := by
      rw [← hq2]
      cases p with
      | none => rfl
      | some l => show upd q1.next l _ l = _; rw [upd_apply, if_pos rfl]
    have b2 : ∀ w, p ≠ some w → q2.next w = q.next w := by
      intro w hw
      rw [← hq2]
      cases p with
      | none => show q1.next w = _; rw [a2]
      | some l =>
        show upd q1.next l _ w = _
        rw [upd_apply, if_neg (fun e => hw (by rw [e])), a2]
    have b9 : p ≠ none → q2.first = q.first := by
      intro hne
      rw [← hq2]
      cases p with
      | none => exact absurd rfl hne
      | some l => exact a5
    obtain ⟨q', hq', hl⟩ := queueLoop_ok (m := m) (μ := μ) b n (some v) (some (μ v)) q2 (by omega)
      (by show q2.next v = _; rw [b2 v hpv]; exact hc.1)
      (hc.2.congr fun w hw => b2 w fun e => hpb w e (by simp [hw])) hd.2
      (fun w hw => by cases hw; exact hd.1) (fun w hw => hm w (by simp [hw]))
    refine ⟨q', ?_, ?_⟩
    · rw [hq']
      congr 2
      cases b with
      | nil => rfl
      | cons w b => simp [List.getLast?_cons_cons, List.getLast?_eq_some_getLast]
    · have hplace : place q' p = some (μ v) := by
        rw [← b5]
        cases p with
        | none => exact hl.first (by simp)
        | some l => exact hl.next l (fun hc => hpb l rfl (by simp [hc])) (fun e => hpv e.symm)
      refine ⟨hl.vars.trans b8, hplace, ⟨?_, hl.place, hl.linked⟩, ⟨?_, ?_⟩, ?_, fun w hw hpw => ?_,
        fun w hw => ?_, fun w hw => ?_, fun hne => ?_, fun hout => ?_, fun x hx hxb => ?_⟩
      · rw [hl.prev v hd.1, b1, upd_apply, if_pos rfl]
      · rw [hl.stampOf v hd.1, b3, upd_apply, if_pos rfl]
      · rw [← b4]; exact hl.stamped
      · rw [hl.stamp, b4, List.length_cons]; omega
      · rw [List.mem_cons, not_or] at hw
        rw [hl.next w hw.2 (fun e => hw.1 (by cases e; rfl)), b2 w hpw]
      · rw [List.mem_cons, not_or] at hw
        rw [hl.prev w hw.2, b1, upd_apply, if_neg hw.1]
      · rw [List.mem_cons, not_or] at hw
        rw [hl.stampOf w hw.2, b3, upd_apply, if_neg hw.1]
      · rw [hl.first (by simp), b9 hne]
      · have hsv : q.search ≠ some v := fun e => hout v e (by simp)
        rw [if_neg hsv] at b6 b7
        obtain ⟨h1, h2⟩ := hl.outside fun x hx hb => hout x (by rw [← b6]; exact hx) (by simp [hb])
        exact ⟨h1.trans b6, h2.trans b7⟩
      · by_cases e : x = v
        · subst e
          rw [if_pos hx] at b6 b7
          have hsx : q'.stampOf x = q.stamp + 1 := by
            rw [hl.stampOf x hd.1, b3, upd_apply, if_pos rfl]
          by_cases hb : μ x ∈ b
          · obtain ⟨w, h1, h2, h3, h4⟩ := hl.inside (μ x) b6 hb
            refine ⟨w, by simp [h1], h2, h3, ?_⟩
            have := hl.stamped.range w h1
            rw [hsx]; omega
          · obtain ⟨h1, h2⟩ := hl.outside fun y hy => by
              rw [b6] at hy; cases hy; exact hb
            exact ⟨x, by simp, h1.trans b6, by rw [h2, b7, hsx], Nat.le_refl _⟩
        · have hxb : x ∈ b := by
            rcases List.mem_cons.1 hxb with h | h
            · exact absurd h e
            · exact h
          rw [if_neg (by rw [hx]; intro e2; cases e2; exact e rfl)] at b6
          obtain ⟨w, h1, h2⟩ := hl.inside x (b6.trans hx) hxb
          exact ⟨w, by simp [h1], h2⟩

theorem Seg.chain {prev next : Nat → Option Nat} : ∀ {l : List Nat} {p : Option Nat}, Seg prev next p l none →
    Chain next l
  | [], _, _ => trivial
  | v :: l, p, h => ⟨by rw [h.2.1]; simp, Seg.chain h.2.2⟩

theorem Linked.seg {μ : Nat → Nat} {prev next prev' next' : Nat → Option Nat} : ∀ {l : List Nat} {p : Option Nat},
    Linked μ prev next p l → (∀ v ∈ l, prev' (μ v) = prev v ∧ next' (μ v) = next v) →
    Seg prev' next' p (l.map μ) none
  | [], _, _, _ => trivial
  | v :: l, p, h, he => by
    refine ⟨(he v (by simp)).1.trans h.1, ?_, Linked.seg h.2.2 fun w hw => he w (by simp [hw])⟩
    rw [(he v (by simp)).2, h.2.1]
    simp

theorem Stamped.pairwise {s s' : Nat → Nat} {μ : Nat → Nat} : ∀ {l : List Nat} {k : Nat}, Stamped s k l →
    (∀ v ∈ l, s' (μ v) = s v) → (l.map μ).Pairwise fun a b => s' a < s' b
  | [], _, _, _ => by simp
  | v :: l, k, h, he => by
    rw [List.map_cons, List.pairwise_cons]
    refine ⟨fun w hw => ?_, Stamped.pairwise h.2 fun w hw => he w (by simp [hw])⟩
    obtain ⟨x, hx, rfl⟩ := List.mem_map.1 hw
    rw [he v (by simp), he x (by simp [hx]), h.1]
    exact (h.2.range x hx).1

/-- The queue after compaction holds the renumbered variables in the same order; the search
position is the old one or a later one. -/
theorem compactQueue_ok {m : Nat → Option Nat} {μ : Nat → Nat} {q : Queue} {l : List Nat} {n : Nat}
    (h : QInv q l) (hm : ∀ v ∈ l, m v = some (μ v))
    (hle : ∀ v d, v < q.vars → m v = some d → d ≤ v)
    (hinj : ∀ v w d, v < q.vars → w < q.vars → m v = some d → m w = some d → v = w)
    (hn : ∀ v ∈ l, μ v < n) (hnq : n ≤ q.vars) :
    ∃ q', compactQueue m n q = some q' ∧ QInv q' (l.map μ) ∧ q'.vars = n ∧
      (q.search = none → q'.search = none) ∧
      (∀ s, q.search = some s → ∃ w, q'.search = some (μ w) ∧ w ∈ l ∧
        q.stampOf s ≤ q.stampOf w ∧ q'.stampOf (μ s) ≤ q'.searchStamp) := by
  have hlen := h.holds.length
  obtain ⟨r, hr, hl⟩ := queueLoop_ok (m := m) (μ := μ) l (q.vars + 1) none none { q with stamp := 0 }
    (by omega) h.holds.first (Seg.chain h.holds.seg) h.holds.nodup (fun v e => by cases e) hm
  unfold compactQueue
  rw [hr]
  simp only
  generalize hr' : setPlace { r with last := (l.getLast?.map μ).or none } (l.getLast?.or none) none = r'
  unfold setPlace at hr'
  have e1 : r'.prev = r.prev := by rw [← hr']; split <;> rfl
  have e3 : r'.stampOf = r.stampOf := by rw [← hr']; split <;> rfl
  have e4 : r'.stamp = l.length := by
    have : r'.stamp = r.stamp := by rw [← hr']; split <;> rfl
    rw [this, hl.stamp]
    show 0 + l.length = l.length
    omega
  have e5 : r'.search = r.search := by rw [← hr']; split <;> rfl
  have e6 : r'.searchStamp = r.searchStamp := by rw [← hr']; split <;> rfl
  have e7 : r'.last = l.getLast?.map μ := by
    have : r'.last = (l.getLast?.map μ).or none := by rw [← hr']; split <;> rfl
    rw [this]; simp
  have hlastnext : ∀ {l : List Nat} {p : Option Nat} {x : Nat}, Linked μ r.prev r.next p l →
      l.getLast? = some x → r.next x = none := by
    intro l
    induction l with
    | nil => intro p x _ h; cases h
    | cons v l ih =>
      intro p x hL hx
      cases l with
      | nil =>
        simp at hx; subst hx
        exact hL.2.1
      | cons w l =>
        rw [List.getLast?_cons_cons] at hx
        exact ih hL.2.2 hx
  have e2 : r'.next = r.next := by
    rw [← hr']
    split
    · rfl
    · rename_i x hx
      have hx : l.getLast? = some x := by simpa using hx
      funext y
      show upd r.next x none y = _
      rw [upd_apply]
      split
      · rename_i e; rw [e, hlastnext hl.linked hx]
      · rfl
  have e8 : r'.first = l.head?.map μ := by
    rw [← hl.place, ← hr']
    split
    · rename_i hx
      have hx : l.getLast? = none := by simpa using hx
      have : l = [] := by simpa using hx
      have h2 := hl.place
      rw [this] at h2
      exact h2.symm
    · rfl
  have hcopy : ∀ {α : Type} (f : Nat → α) (v : Nat), v ∈ l → copyUp m q.vars f (μ v) = f v :=
    fun f v hv => copyUp_ok f hle hinj v (μ v) (h.holds.vars v hv) (hm v hv)
  have hst : ∀ v ∈ l, copyUp m q.vars r'.stampOf (μ v) = r.stampOf v := fun v hv => by
    rw [hcopy _ v hv, e3]
  have hs0 : ({ q with stamp := 0 } : Queue).stamp = 0 := rfl
  have hstamped : Stamped r.stampOf 0 l := hl.stamped
  have hord : ∀ v ∈ l, ∀ w ∈ l, r.stampOf v ≤ r.stampOf w → q.stampOf v ≤ q.stampOf w := by
    intro v hv w hw hvw
    have p1 : l.Pairwise (fun a b => r.stampOf a < r.stampOf b) := by
      have := hstamped.pairwise (s' := r.stampOf) (μ := id) (fun _ _ => rfl)
      simpa using this
    have p2 := h.stamps.incr
    have p3 : l.Pairwise (fun a b => r.stampOf a < r.stampOf b ∧ q.stampOf a < q.stampOf b) := by
      rw [List.pairwise_iff_getElem] at p1 p2 ⊢
      exact fun i j hi hj hij => ⟨p1 i j hi hj hij, p2 i j hi hj hij⟩
    by_cases e : v = w
    · rw [e]; exact Nat.le_refl _
    · obtain ⟨i, hi, rfl⟩ := List.getElem_of_mem hv
      obtain ⟨j, hj, rfl⟩ := List.getElem_of_mem hw
      rw [List.pairwise_iff_getElem] at p3
      rcases Nat.lt_trichotomy i j with hij | hij | hij
      · exact Nat.le_of_lt (p3 i j hi hj hij).2
      · subst hij; exact absurd rfl e
      · have := (p3 j i hj hi hij).1; omega
  refine ⟨_, rfl, ⟨⟨?_, ?_, ?_, ?_, ?_⟩, ⟨?_, ?_, ?_, ?_⟩, ?_, ?_, ?_⟩, rfl, ?_, ?_⟩
  · show r'.first = _; rw [e8]; simp
  · show r'.last = _; rw [e7]; simp
  · refine hl.linked.seg fun v hv => ⟨?_, ?_⟩
    · show copyUp m q.vars r'.prev (μ v) = _
      rw [hcopy _ v hv, e1]
    · show copyUp m q.vars r'.next (μ v) = _
      rw [hcopy _ v hv, e2]
  · rw [List.nodup_iff_pairwise_ne, List.pairwise_map]
    have := h.holds.nodup
    rw [List.nodup_iff_pairwise_ne] at this
    refine List.Pairwise.imp_of_mem ?_ this
    intro a b ha hb hab e
    exact hab (hinj a b (μ a) (h.holds.vars a ha) (h.holds.vars b hb) (hm a ha) (by rw [hm b hb, e]))
  · intro v hv
    obtain ⟨w, hw, rfl⟩ := List.mem_map.1 hv
    exact hn w hw
  · exact hstamped.pairwise (s' := copyUp m q.vars r'.stampOf) hst
  · intro v hv
    obtain ⟨w, hw, rfl⟩ := List.mem_map.1 hv
    show copyUp m q.vars r'.stampOf (μ w) ≤ r'.stamp
    rw [hst w hw, e4]
    have := (hstamped.range w hw).2
    omega
  · intro v hv
    obtain ⟨w, hw, rfl⟩ := List.mem_map.1 hv
    show 0 < copyUp m q.vars r'.stampOf (μ w)
    rw [hst w hw]
    exact (hstamped.range w hw).1
  · show r'.stamp ≤ _
    rw [e4]
    have := h.bound
    omega
  · show n ≤ 2 ^ 32 - 1
    have := h.bound
    omega
  · intro s hs
    have hs : r'.search = some s := hs
    rw [e5] at hs
    cases hq : q.search with
    | none =>
      have := (hl.outside fun x hx => by rw [hq] at hx; cases hx).1
      rw [hs] at this
      have : some s = q.search := this
      rw [hq] at this; cases this
    | some x =>
      obtain ⟨w, h1, h2, h3, h4⟩ := hl.inside x hq (h.inside x hq).1
      rw [h2] at hs
      cases hs
      refine ⟨List.mem_map.2 ⟨w, h1, rfl⟩, ?_⟩
      show r'.searchStamp = copyUp m q.vars r'.stampOf (μ w)
      rw [hst w h1, e6, h3]
  · intro hs
    have hs : r'.search = none := hs
    rw [e5] at hs
    cases hq : q.search with
    | none =>
      obtain ⟨h1, h2⟩ := h.outside hq
      subst h1
      refine ⟨rfl, ?_⟩
      have := (hl.outside fun x hx => by rw [show q.search = some x from hx] at hq; cases hq).2
      show r'.searchStamp = 0
      rw [e6, this]; exact h2
    | some x =>
      obtain ⟨w, h1, h2, h3, h4⟩ := hl.inside x hq (h.inside x hq).1
      rw [h2] at hs; cases hs
  · intro hq
    show r'.search = none
    rw [e5, (hl.outside fun x hx => by rw [hq] at hx; cases hx).1]
    exact hq
  · intro s hs
    have hsl := (h.inside s hs).1
    obtain ⟨w, h1, h2, h3, h4⟩ := hl.inside s hs hsl
    refine ⟨w, ?_, h1, hord s hsl w h1 h4, ?_⟩
    · show r'.search = _; rw [e5, h2]
    · show copyUp m q.vars r'.stampOf (μ s) ≤ r'.searchStamp
      rw [hst s hsl, e6, h3]; exact h4

end Verif.Compact
