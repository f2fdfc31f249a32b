import Verif.Proofs.Core.Minimize

/-! # Shrinking of learned clauses -/

namespace Verif.Core

open Verif.Spec

/-- Variables that may be used as antecedents. -/
def Avail (t : Shrink) (v : Nat) : Prop := v ∈ t.shrinkable ∨ v ∈ t.marks.removable

/-- Literals of `rest` that are shrinkable. -/
def pending (t : Shrink) (x : Nat) : Bool := decide (x / 2 ∈ t.shrinkable)

/-- Invariant of shrinking a block of level `lv`. -/
structure SInv (s : Solver) (lv : Nat) (rest : List Nat) (base : Nat) (t : Shrink) : Prop where
  count : t.unresolved = base + (rest.filter (pending t)).length
  low : ∀ v ∈ t.shrinkable, ∃ x, x / 2 = v ∧ s.values x = 1 ∧ s.lev x = lv
  failed : t.failed = false

theorem shrinkLiteral_spec {s : Solver} {L k : Nat} (h : InvAt s L k) (hL : s.level ≤ L)
    {used : Nat → Nat} {lv : Nat} (hlv : lv < s.level) {rest : List Nat} {base : Nat}
    (hb : s.Below rest) {t : Shrink} (hi : SInv s lv rest base t) {lit : Nat}
    (hv : s.values lit = -1) (hl : s.lev lit ≤ lv) (hp : s.lev lit = 0 ∨ s.pos lit < rest.length) :
    Ext s t.marks (shrinkLiteral s used lv t lit).1.marks ∧
    (∀ v ∈ t.shrinkable, v ∈ (shrinkLiteral s used lv t lit).1.shrinkable) ∧
    (∀ v ∈ (shrinkLiteral s used lv t lit).1.shrinkable, v ∈ t.shrinkable ∨
      v = lit / 2 ∧ (shrinkLiteral s used lv t lit).2 = some true) ∧
    (shrinkLiteral s used lv t lit).1.unresolved = t.unresolved ∧
    (shrinkLiteral s used lv t lit).1.failed = t.failed ∧
    match (shrinkLiteral s used lv t lit).2 with
    | none => s.lev lit < lv
    | some false => (s.lev lit = 0 ∨ Avail (shrinkLiteral s used lv t lit).1 (lit / 2)) ∧
        (shrinkLiteral s used lv t lit).1.shrinkable = t.shrinkable
    | some true => SInv s lv rest (base + 1) { (shrinkLiteral s used lv t lit).1 with
          unresolved := t.unresolved + 2 } ∧ s.lev lit = lv ∧ neg lit ∈ rest ∧
        lit / 2 ∈ (shrinkLiteral s used lv t lit).1.shrinkable := by
  have ht := h.trail
  unfold shrinkLiteral
  simp only
  by_cases h0 : (s.assigned (lit / 2)).level = 0
  · rw [if_pos h0]
    exact ⟨.refl s _, fun _ h => h, fun _ h => .inl h, rfl, rfl, .inl h0, rfl⟩
  · rw [if_neg h0]
    by_cases hs : lit / 2 ∈ t.shrinkable
    · rw [if_pos hs]
      exact ⟨.refl s _, fun _ h => h, fun _ h => .inl h, rfl, rfl, .inr (.inl hs), rfl⟩
    · rw [if_neg hs]
      have h0 : s.lev lit ≠ 0 := h0
      by_cases hlt : (s.assigned (lit / 2)).level < lv
      · rw [if_pos hlt]
        have hlt : s.lev lit < lv := hlt
        by_cases hr : lit / 2 ∈ t.marks.removable
        · rw [if_pos hr]
          exact ⟨.refl s _, fun _ h => h, fun _ h => .inl h, rfl, rfl, .inr (.inr hr), rfl⟩
        · rw [if_neg hr]
          by_cases ho : 2 < s.options.shrink
          · rw [if_pos ho]
            obtain ⟨m1, m2⟩ := minimizeLiteral_spec h hL (used := used) (mi := false)
              (s.options.minimizedepth - 1) false t.marks lit ⟨hv, by omega⟩
            generalize minimizeLiteral s used false (s.options.minimizedepth - 1) false t.marks lit
              = res at m1 m2 ⊢
            obtain ⟨r, m⟩ := res
            simp only at m1 m2 ⊢
            cases r with
            | false => exact ⟨m1, fun _ h => h, fun _ h => .inl h, rfl, rfl, hlt⟩
            | true =>
              exact ⟨m1, fun _ h => h, fun _ h => .inl h, rfl, rfl,
                .inr (.inr (by simpa using (m2 rfl).resolve_left h0)), rfl⟩
          · rw [if_neg ho]
            exact ⟨.refl s _, fun _ h => h, fun _ h => .inl h, rfl, rfl, hlt⟩
      · rw [if_neg hlt]
        have hlt : ¬ s.lev lit < lv := hlt
        have hv1 := ht.neg_pos.2 hv
        have hin : neg lit ∈ rest := (hb.mem ht).2
          ⟨ht.on_trail hv1 (by rw [lev_neg]; exact h0), by rw [pos_neg]; omega⟩
        refine ⟨.refl s _, fun _ h => List.mem_cons_of_mem _ h, fun v hv => ?_, rfl, rfl,
          ⟨?_, ?_, hi.failed⟩, by omega, hin, List.mem_cons_self ..⟩
        · rcases List.mem_cons.1 hv with h | h
          · exact .inr ⟨h, rfl⟩
          · exact .inl h
        · show t.unresolved + 2 = base + 1 +
            (rest.filter (fun x => decide (x / 2 ∈ lit / 2 :: t.shrinkable))).length
          have := count_insert (p := pending t) (q := fun x =>
            decide (x / 2 ∈ lit / 2 :: t.shrinkable)) (y := neg lit)
            (hb.nodup ht) hin (by simp [pending, hs]) (by
              intro x hx
              by_cases e : x = neg lit
              · simp [e]
              · have : x / 2 ≠ lit / 2 := fun e' => by
                  rcases eq_or_eq_neg e' with e' | e'
                  · have := ht.tval _ ((hb.mem ht).1 hx).1
                    rw [e'] at this; omega
                  · exact e e'
                simp [e, this, pending])
          have := hi.count
          omega
        · intro v hv
          rcases List.mem_cons.1 hv with rfl | hv
          · exact ⟨neg lit, neg_div lit, hv1, by rw [lev_neg]; omega⟩
          · exact hi.low v hv

theorem SInv.setUnresolved {s : Solver} {lv base base' : Nat} {rest : List Nat} {t : Shrink} {u : Nat}
    (h : SInv s lv rest base t) (e : t.unresolved + base' = u + base) :
    SInv s lv rest base' { t with unresolved := u } := by
  refine ⟨?_, h.low, h.failed⟩
  show u = base' + (rest.filter (pending t)).length
  have := h.count; omega

theorem shrinkLarge_spec {s : Solver} {L k : Nat} (h : InvAt s L k) (hL : s.level ≤ L)
    {used : Nat → Nat} {lv : Nat} (hlv : lv < s.level) {rest : List Nat} {base : Nat}
    (hb : s.Below rest) : ∀ (ls : List Nat) (t : Shrink), SInv s lv rest base t →
    (∀ m ∈ ls, s.values m = -1 ∧ s.lev m ≤ lv ∧ (s.lev m = 0 ∨ s.pos m < rest.length)) →
    Ext s t.marks (shrinkLarge s used lv ls t).marks ∧
    (∀ v ∈ t.shrinkable, v ∈ (shrinkLarge s used lv ls t).shrinkable) ∧
    ((shrinkLarge s used lv ls t).failed = false →
      SInv s lv rest base (shrinkLarge s used lv ls t) ∧
      (∀ v ∈ (shrinkLarge s used lv ls t).shrinkable, v ∈ t.shrinkable ∨ ∃ x ∈ rest, x / 2 = v) ∧
      ∀ m ∈ ls, s.lev m = 0 ∨ Avail (shrinkLarge s used lv ls t) (m / 2)) := by
  have ht := h.trail
  intro ls
  induction ls with
  | nil =>
    intro t hi _
    exact ⟨.refl s _, fun _ h => h, fun _ => ⟨hi, fun _ h => .inl h, by simp⟩⟩
  | cons l ls ih =>
    intro t hi hls
    obtain ⟨l1, l2, l3⟩ := hls l (by simp)
    have hls' : ∀ m ∈ ls, s.values m = -1 ∧ s.lev m ≤ lv ∧ (s.lev m = 0 ∨ s.pos m < rest.length) :=
      fun m hm => hls m (by simp [hm])
    unfold shrinkLarge
    obtain ⟨a1, a2, a3, a4, a5, a6⟩ := shrinkLiteral_spec h hL (used := used) hlv hb hi l1 l2 l3
    generalize shrinkLiteral s used lv t l = res at a1 a2 a3 a4 a5 a6 ⊢
    obtain ⟨t', r⟩ := res
    simp only at a1 a2 a3 a4 a5 a6 ⊢
    match r, a3, a6 with
    | none, a3, a6 => exact ⟨a1, a2, by simp⟩
    | some false, a3, a6 =>
      obtain ⟨a6, e⟩ := a6
      have hi' : SInv s lv rest base t' := by
        refine ⟨?_, by rw [e]; exact hi.low, a5.trans hi.failed⟩
        rw [a4, hi.count]
        have : pending t = pending t' := by funext x; unfold pending; rw [e]
        rw [this]
      obtain ⟨i1, i2, i3⟩ := ih t' hi' hls'
      refine ⟨a1.trans i1, fun v hv => i2 v (a2 v hv), fun hf => ?_⟩
      obtain ⟨j1, j2, j3⟩ := i3 hf
      refine ⟨j1, fun v hv => by rw [← e]; exact j2 v hv, fun m hm => ?_⟩
      rcases List.mem_cons.1 hm with rfl | hm
      · exact a6.imp id fun h => h.imp (i2 _) (i1.sub _)
      · exact j3 m hm
    | some true, a3, a6 =>
      obtain ⟨b1, b2, b3, b4⟩ := a6
      have hi' : SInv s lv rest base { t' with unresolved := t'.unresolved + 1 } := by
        have := b1.setUnresolved (base' := base) (u := t'.unresolved + 1)
          (by show t.unresolved + 2 + base = _; omega)
        exact this
      obtain ⟨i1, i2, i3⟩ := ih { t' with unresolved := t'.unresolved + 1 } hi' hls'
      refine ⟨a1.trans i1, fun v hv => i2 v (a2 v hv), fun hf => ?_⟩
      obtain ⟨j1, j2, j3⟩ := i3 hf
      refine ⟨j1, fun v hv => ?_, fun m hm => ?_⟩
      · rcases j2 v hv with h' | h'
        · rcases a3 v h' with h' | ⟨h', _⟩
          · exact .inl h'
          · exact .inr ⟨neg l, b3, by rw [h', neg_div]⟩
        · exact .inr h'
      · rcases List.mem_cons.1 hm with rfl | hm
        · exact .inr (.inl (i2 _ b4))
        · exact j3 m hm

theorem shrinkAlong_spec {s : Solver} {L k : Nat} (h : InvAt s L k) (hL : s.level ≤ L)
    {used : Nat → Nat} {lv : Nat} (hlv : lv < s.level) (hlv0 : 0 < lv) {rest : List Nat} {base : Nat}
    (hb : s.Below rest) {t : Shrink} (hi : SInv s lv rest base t) {uip : Nat}
    (hv : s.values uip = 1) (hl : s.lev uip = lv) (hp : s.pos uip ≤ rest.length) :
    Ext s t.marks (shrinkAlong s used lv uip t).marks ∧
    (∀ v ∈ t.shrinkable, v ∈ (shrinkAlong s used lv uip t).shrinkable) ∧
    ((shrinkAlong s used lv uip t).failed = false →
      SInv s lv rest base (shrinkAlong s used lv uip t) ∧
      (∀ v ∈ (shrinkAlong s used lv uip t).shrinkable, v ∈ t.shrinkable ∨ ∃ x ∈ rest, x / 2 = v) ∧
      Impl s (Avail (shrinkAlong s used lv uip t)) (uip / 2)) := by
  unfold shrinkAlong
  cases hre : (s.assigned (uip / 2)).reason with
  | unit => exact ⟨.refl s _, fun _ h => h, by simp⟩
  | decision => exact ⟨.refl s _, fun _ h => h, by simp⟩
  | binary o =>
    simp only
    obtain ⟨b1, b2, b3, _⟩ := h.reason.binary uip o hv hre
    obtain ⟨a1, a2, a3, a4, a5, a6⟩ := shrinkLiteral_spec h hL (used := used) hlv hb hi
      (lit := o) b1 (by omega) (.inr (by omega))
    generalize shrinkLiteral s used lv t o = res at a1 a2 a3 a4 a5 a6 ⊢
    obtain ⟨t', r⟩ := res
    simp only at a1 a2 a3 a4 a5 a6 ⊢
    have himpl : ∀ R : Nat → Prop, R (o / 2) → Impl s R (uip / 2) := fun R hR =>
      ⟨uip, rfl, hv, by omega, by omega, by rw [hre]; simp, fun m hm => by
        unfold Solver.antecedents at hm
        rw [hre] at hm
        simp only [List.mem_singleton] at hm
        subst hm; exact .inr hR⟩
    match r, a3, a6 with
    | none, a3, a6 => omega
    | some false, a3, a6 =>
      obtain ⟨a6, e⟩ := a6
      refine ⟨a1, a2, fun _ => ⟨⟨?_, by rw [e]; exact hi.low, a5.trans hi.failed⟩,
        fun v hv => by rw [e] at hv; exact .inl hv, himpl _ (a6.resolve_left (by omega))⟩⟩
      rw [a4, hi.count]
      have : pending t = pending t' := by funext x; unfold pending; rw [e]
      rw [this]
    | some true, a3, a6 =>
      obtain ⟨c1, c2, c3, c4⟩ := a6
      refine ⟨a1, a2, fun _ => ⟨?_, fun v hv => ?_, himpl _ (.inl c4)⟩⟩
      · exact c1.setUnresolved (base' := base) (u := t'.unresolved + 1)
          (by show t.unresolved + 2 + base = _; omega)
      · rcases a3 v hv with h' | ⟨h', _⟩
        · exact .inl h'
        · exact .inr ⟨neg o, c3, by rw [h', neg_div]⟩
  | large ref =>
    simp only
    split
    · obtain ⟨d1, d2, d3, _⟩ := h.reason.large uip ref hv hre (.inl (by omega))
      obtain ⟨i1, i2, i3⟩ := shrinkLarge_spec h hL (used := used) hlv hb
        ((s.clause ref).lits.filter (· ≠ uip)) t hi (by
          intro m hm
          obtain ⟨hm1, hm2⟩ := List.mem_filter.1 hm
          obtain ⟨e1, e2, e3⟩ := d3 m hm1 (by simpa using hm2)
          exact ⟨e1, by omega, by omega⟩)
      refine ⟨i1, i2, fun hf => ?_⟩
      obtain ⟨j1, j2, j3⟩ := i3 hf
      refine ⟨j1, j2, uip, rfl, hv, by omega, by omega, by rw [hre]; simp, fun m hm => ?_⟩
      unfold Solver.antecedents at hm
      rw [hre] at hm
      exact j3 m hm
    · exact ⟨.refl s _, fun _ h => h, by simp⟩

theorem shrinkLoop_spec {s : Solver} {L k : Nat} (h : InvAt s L k) (hL : s.level ≤ L)
    {used : Nat → Nat} {lv : Nat} (hlv : lv < s.level) (hlv0 : 0 < lv) :
    ∀ (rest : List Nat) (t : Shrink), s.Below rest → SInv s lv rest 0 t →
    (∀ v ∈ t.shrinkable, (∃ x ∈ rest, x / 2 = v) ∨ Impl s (Avail t) v) →
    Ext s t.marks (shrinkLoop s used lv rest t).1.marks ∧
    ∀ u, (shrinkLoop s used lv rest t).2 = some u →
      s.values u = 1 ∧ s.lev u = lv ∧
      (∀ v ∈ t.shrinkable, v ∈ (shrinkLoop s used lv rest t).1.shrinkable) ∧
      ∀ v ∈ (shrinkLoop s used lv rest t).1.shrinkable, v = u / 2 ∨
        Impl s (Avail (shrinkLoop s used lv rest t).1) v := by
  have ht := h.trail
  intro rest
  induction rest with
  | nil => intro t _ _ _; exact ⟨.refl s _, by simp [shrinkLoop]⟩
  | cons uip rest ih =>
    intro t hb hi himp
    obtain ⟨hb', hon, hpl⟩ := hb.tail ht
    have hv := ht.tval _ hon
    unfold shrinkLoop
    by_cases hm : uip / 2 ∈ t.shrinkable
    · rw [if_pos hm]
      have hcnt := hi.count
      rw [List.filter_cons_of_pos (by simp [pending, hm]), List.length_cons] at hcnt
      have hlev : s.lev uip = lv := by
        obtain ⟨x, e, hx, hl⟩ := hi.low _ hm
        rcases eq_or_eq_neg e with rfl | rfl
        · exact hl
        · rw [ht.anti] at hx; omega
      by_cases h1 : t.unresolved = 1
      · rw [if_pos h1]
        refine ⟨.refl s _, fun u hu => ?_⟩
        cases hu
        refine ⟨hv, hlev, fun _ h => h, fun v hv' => ?_⟩
        rcases himp v hv' with ⟨x, hx, e⟩ | h
        · left
          rcases List.mem_cons.1 hx with rfl | hx
          · exact e.symm
          · have : x ∈ rest.filter (pending t) :=
              List.mem_filter.2 ⟨hx, by simp [pending, e, hv']⟩
            have := List.length_pos_of_mem this
            omega
        · exact .inr h
      · rw [if_neg h1]
        simp only
        have hi1 : SInv s lv rest 1 t := ⟨by omega, hi.low, hi.failed⟩
        obtain ⟨a1, a2, a3⟩ := shrinkAlong_spec h hL (used := used) hlv hlv0 hb' hi1 hv hlev
          (by omega)
        generalize shrinkAlong s used lv uip t = t' at a1 a2 a3 ⊢
        by_cases hf : t'.failed = true
        · rw [if_pos hf]; exact ⟨a1, by simp⟩
        · rw [if_neg hf]
          obtain ⟨b1, b2, b3⟩ := a3 (by simpa using hf)
          obtain ⟨i1, i2⟩ := ih { t' with unresolved := t'.unresolved - 1 } hb'
            (b1.setUnresolved (base' := 0) (by have := b1.count; omega)) (by
              intro v hv'
              have hv' : v ∈ t'.shrinkable := hv'
              show (∃ x ∈ rest, x / 2 = v) ∨ Impl s (Avail t') v
              rcases b2 v hv' with h' | h'
              · rcases himp v h' with ⟨x, hx, e⟩ | h''
                · rcases List.mem_cons.1 hx with rfl | hx
                  · rw [← e]; exact .inr b3
                  · exact .inl ⟨x, hx, e⟩
                · exact .inr (h''.mono fun w hw => hw.imp (a2 w) (a1.sub w))
              · exact .inl h')
          refine ⟨a1.trans i1, fun u hu => ?_⟩
          obtain ⟨j1, j2, j3, j4⟩ := i2 u hu
          exact ⟨j1, j2, fun v hv => j3 v (a2 v hv), j4⟩
    · rw [if_neg hm]
      refine ih t hb' ⟨?_, hi.low, hi.failed⟩ fun v hv' => ?_
      · rw [hi.count, List.filter_cons_of_neg (by simp [pending, hm])]
      · rcases himp v hv' with ⟨x, hx, e⟩ | h'
        · rcases List.mem_cons.1 hx with rfl | hx
          · rw [e] at hm; exact absurd hv' hm
          · exact .inl ⟨x, hx, e⟩
        · exact .inr h'

/-- Literals of a block. -/
structure Block (s : Solver) (lv : Nat) (block : List Nat) : Prop where
  false : ∀ l ∈ block, s.values l = -1
  lev : ∀ l ∈ block, s.lev l = lv
  nodup : block.Nodup

theorem shrinkInit_spec {s : Solver} (ht : TrailInv s) {used : Nat → Nat} {lv : Nat}
    (hlv0 : 0 < lv) (m : Marks) (n : Nat) : ∀ (block : List Nat) (S : List Nat), Block s lv block →
    (∀ l ∈ block, l / 2 ∉ S) →
    ∃ S', block.foldl (fun t l => (shrinkLiteral s used lv t l).1) ⟨m, S, n, false⟩ =
      ⟨m, S', n, false⟩ ∧ ∀ v, v ∈ S' ↔ v ∈ S ∨ ∃ l ∈ block, l / 2 = v := by
  intro block
  induction block with
  | nil => intro S _ _; exact ⟨S, rfl, by simp⟩
  | cons l block ih =>
    intro S hb hS
    have hl := hb.lev l (by simp)
    have hn := hb.nodup
    rw [List.nodup_cons] at hn
    have e : (shrinkLiteral s used lv ⟨m, S, n, false⟩ l).1 = ⟨m, l / 2 :: S, n, false⟩ := by
      have hl' : (s.assigned (l / 2)).level = lv := hl
      unfold shrinkLiteral
      simp only [hl']
      rw [if_neg (by omega), if_neg (hS l (by simp)), if_neg (by omega)]
    rw [List.foldl_cons, e]
    obtain ⟨S', h1, h2⟩ := ih (l / 2 :: S)
      ⟨fun x hx => hb.false x (by simp [hx]), fun x hx => hb.lev x (by simp [hx]), hn.2⟩ (by
        intro x hx hm
        rcases List.mem_cons.1 hm with e | hm
        · rcases eq_or_eq_neg e with e | e
          · exact hn.1 (e ▸ hx)
          · have h1 := hb.false x (by simp [hx])
            have h2 := hb.false l (by simp)
            rw [e, ht.anti] at h1; omega
        · exact hS x (by simp [hx]) hm)
    refine ⟨S', h1, fun v => ?_⟩
    rw [h2]
    constructor
    · rintro (h | ⟨x, hx, e⟩)
      · rcases List.mem_cons.1 h with h | h
        · exact .inr ⟨l, by simp, h.symm⟩
        · exact .inl h
      · exact .inr ⟨x, by simp [hx], e⟩
    · rintro (h | ⟨x, hx, e'⟩)
      · exact .inl (List.mem_cons_of_mem _ h)
      · rcases List.mem_cons.1 hx with rfl | hx
        · exact .inl (List.mem_cons.2 (.inl e'.symm))
        · exact .inr ⟨x, hx, e'⟩

theorem foldl_max_le (f : Nat → Nat) : ∀ (l : List Nat) (a : Nat),
    a ≤ l.foldl (fun r x => max r (f x)) a ∧
    ∀ x ∈ l, f x ≤ l.foldl (fun r x => max r (f x)) a := by
  intro l
  induction l with
  | nil => intro a; simp
  | cons y l ih =>
    intro a
    rw [List.foldl_cons]
    obtain ⟨h1, h2⟩ := ih (max a (f y))
    refine ⟨by omega, fun x hx => ?_⟩
    rcases List.mem_cons.1 hx with rfl | hx
    · omega
    · exact h2 x hx

theorem shrinkBlock_spec {s : Solver} {L k : Nat} (h : InvAt s L k) (hL : s.level ≤ L)
    {used : Nat → Nat} {lv : Nat} {block : List Nat} (hb : Block s lv block) {m : Marks}
    {A : Nat → Prop} (hlv : 2 ≤ block.length → 0 < lv ∧ lv < s.level)
    (hc : Closed s (· ∈ m.removable) (fun x => A x ∨ x ∈ block)) :
    Closed s (· ∈ (shrinkBlock s used block m).2.removable)
      (fun x => A x ∨ x ∈ (shrinkBlock s used block m).1) ∧
    Block s lv (shrinkBlock s used block m).1 ∧
    (∀ v ∈ m.removable, v ∈ (shrinkBlock s used block m).2.removable) ∧
    (block.length < 2 → (shrinkBlock s used block m).1 = block) := by
  have ht := h.trail
  unfold shrinkBlock
  by_cases hlen : block.length < 2
  · rw [if_pos hlen]; exact ⟨hc, hb, fun _ h => h, fun _ => rfl⟩
  · rw [if_neg hlen]
    obtain ⟨h0, h1⟩ := hlv (by omega)
    have hne : block ≠ [] := by rintro rfl; simp at hlen
    have hlast : s.lev (block.getLast?.getD 0) = lv := by
      rw [List.getLast?_eq_some_getLast hne]
      exact hb.lev _ (List.getLast_mem hne)
    simp only
    rw [hlast]
    obtain ⟨S, hS1, hS2⟩ := shrinkInit_spec ht (used := used) h0 m block.length block [] hb
      (by simp)
    rw [hS1]
    have hmax := foldl_max_le (fun l => (s.assigned (l / 2)).trail) block 0
    generalize block.foldl (fun r l => max r (s.assigned (l / 2)).trail) 0 = mx at hmax ⊢
    have hbel := s.below_take (mx + 1)
    have hon : ∀ l ∈ block, neg l ∈ s.trail := fun l hl =>
      ht.on_trail (ht.neg_pos.2 (hb.false l hl)) (by rw [lev_neg, hb.lev l hl]; omega)
    have hrest : ∀ l ∈ block, neg l ∈ (s.trail.take (mx + 1)).reverse := by
      intro l hl
      rw [List.mem_reverse, ht.mem_take (hon l hl), pos_neg]
      have := hmax.2 l hl
      unfold Solver.pos; omega
    have hinit : SInv s lv (s.trail.take (mx + 1)).reverse 0 ⟨m, S, block.length, false⟩ := by
      refine ⟨?_, fun v hv => ?_, rfl⟩
      · show block.length = 0 + _
        have hmem : ∀ x ∈ (s.trail.take (mx + 1)).reverse,
            pending ⟨m, S, block.length, false⟩ x = true ↔ neg x ∈ block := by
          intro x hx
          have hx1 := ht.tval _ ((hbel.mem ht).1 hx).1
          simp only [pending, decide_eq_true_eq]
          rw [hS2]
          constructor
          · rintro (h | ⟨l, hl, e⟩)
            · cases h
            · have := hb.false l hl
              rcases eq_or_eq_neg e with rfl | rfl
              · omega
              · exact hl
          · intro hx; exact .inr ⟨_, hx, neg_div x⟩
        have a1 := nodup_length_le (l := block.map neg)
          (m := (s.trail.take (mx + 1)).reverse.filter (pending ⟨m, S, block.length, false⟩))
          (List.pairwise_map.2 (hb.nodup.imp fun hne e => hne (neg_inj e))) (by
            intro x hx
            obtain ⟨l, hl, rfl⟩ := List.mem_map.1 hx
            refine List.mem_filter.2 ⟨hrest l hl, (hmem _ (hrest l hl)).2 (by rw [neg_neg]; exact hl)⟩)
        have a2 := nodup_length_le
          (l := (s.trail.take (mx + 1)).reverse.filter (pending ⟨m, S, block.length, false⟩))
          (m := block.map neg) (List.filter_sublist.nodup (hbel.nodup ht)) (by
            intro x hx
            obtain ⟨hx1, hx2⟩ := List.mem_filter.1 hx
            exact List.mem_map.2 ⟨neg x, (hmem x hx1).1 hx2, neg_neg x⟩)
        rw [List.length_map] at a1 a2
        omega
      · rcases (hS2 v).1 hv with h | ⟨l, hl, e⟩
        · cases h
        · exact ⟨neg l, by rw [neg_div]; exact e, ht.neg_pos.2 (hb.false l hl),
            by rw [lev_neg]; exact hb.lev l hl⟩
    obtain ⟨l1, l2⟩ := shrinkLoop_spec h hL (used := used) h1 h0 _ _ hbel hinit (by
      intro v hv
      rcases (hS2 v).1 hv with h | ⟨l, hl, e⟩
      · cases h
      · exact .inl ⟨neg l, hrest l hl, by rw [neg_div]; exact e⟩)
    generalize shrinkLoop s used lv (s.trail.take (mx + 1)).reverse ⟨m, S, block.length, false⟩
      = res at l1 l2 ⊢
    obtain ⟨t, r⟩ := res
    cases r with
    | none =>
      simp only at l1 ⊢
      unfold minimizeBlock
      obtain ⟨i1, i2, i3⟩ := minimizeLoop_spec h hL (used := used) (mi := false) block t.marks A
        (fun l hl => ⟨⟨hb.false l hl, by rw [hb.lev l hl]; exact h1⟩, by rw [hb.lev l hl]; omega⟩)
        (l1.closed hc)
      exact ⟨i3, ⟨fun l hl => hb.false l (i2.subset hl), fun l hl => hb.lev l (i2.subset hl),
        i2.nodup hb.nodup⟩, (l1.trans i1).sub, fun h => absurd h hlen⟩
    | some u =>
      obtain ⟨j1, j2, j3, j4⟩ := l2 u rfl
      simp only at l1 j3 j4 ⊢
      have hmem : ∀ v, v ∈ t.shrinkable ++ t.marks.removable ↔ Avail t v := fun v =>
        List.mem_append
      refine ⟨?_, ⟨?_, ?_, by simp⟩, ?_, fun h => absurd h hlen⟩
      · intro v hv
        have hS : ∀ w ∈ t.shrinkable, (∃ l, (A l ∨ l ∈ [neg u]) ∧ l / 2 = w) ∨
            Impl s (· ∈ t.shrinkable ++ t.marks.removable) w := fun w hw => by
          rcases j4 w hw with e | hi
          · exact .inl ⟨neg u, .inr (by simp), by rw [neg_div]; exact e.symm⟩
          · exact .inr (hi.mono fun w hw => (hmem w).2 hw)
        rcases (hmem v).1 hv with hv | hv
        · exact hS v hv
        · rcases l1.closed hc v hv with ⟨l, hl, e⟩ | hi
          · rcases hl with hl | hl
            · exact .inl ⟨l, .inl hl, e⟩
            · exact hS v (j3 v ((hS2 v).2 (.inr ⟨l, hl, e⟩)))
          · exact .inr (hi.mono fun w hw => (hmem w).2 (.inr hw))
      · intro l hl
        rw [List.mem_singleton] at hl; subst hl
        exact ht.neg_one.2 j1
      · intro l hl
        rw [List.mem_singleton] at hl; subst hl
        rw [lev_neg]; exact j2
      · exact fun v hv => (hmem v).2 (.inr (l1.sub v hv))

/-! ## All blocks -/

theorem takeWhile_snoc {p : Nat → Bool} {u : Nat} (hu : p u = false) (l : List Nat) :
    (l ++ [u]).takeWhile p = l.takeWhile p ∧ (l ++ [u]).dropWhile p = l.dropWhile p ++ [u] := by
  induction l with
  | nil => simp [hu]
  | cons a l ih =>
    cases hp : p a with
    | true => simp [hp, ih]
    | false => simp [hp]

theorem dropWhile_gt {f : Nat → Nat} {c : Nat} : ∀ {l : List Nat}, l.Pairwise (fun a b => f a ≤ f b) →
    ∀ x ∈ l.dropWhile (fun k => decide (f k ≤ c)), c < f x := by
  intro l
  induction l with
  | nil => intro _ x hx; cases hx
  | cons a l ih =>
    intro hp x hx
    rw [List.pairwise_cons] at hp
    by_cases ha : f a ≤ c
    · rw [List.dropWhile_cons_of_pos (by simpa using ha)] at hx
      exact ih hp.2 x hx
    · rw [List.dropWhile_cons_of_neg (by simpa using ha)] at hx
      rcases List.mem_cons.1 hx with rfl | hx
      · omega
      · have := hp.1 x hx; omega

/-- The tail of a learned clause. -/
structure Tail (s : Solver) (l : List Nat) : Prop where
  false : ∀ x ∈ l, s.values x = -1
  lev : ∀ x ∈ l, 0 < s.lev x ∧ s.lev x < s.level
  nodup : l.Nodup

theorem Tail.sub {s : Solver} {l l' : List Nat} (h : Tail s l) (hs : l'.Sublist l) : Tail s l' :=
  ⟨fun x hx => h.false x (hs.subset hx), fun x hx => h.lev x (hs.subset hx), hs.nodup h.nodup⟩

theorem shrinkLoopBlocks_spec {s : Solver} {L k : Nat} (h : InvAt s L k) (hL : s.level ≤ L)
    {used : Nat → Nat} {u : Nat} (hu : s.values u = -1) (hul : s.lev u = s.level) :
    ∀ (n : Nat) (tl : List Nat) (m : Marks) (acc : List Nat), tl.length < n → Tail s tl →
    tl.Pairwise (fun a b => s.lev a ≤ s.lev b) → Tail s acc →
    (∀ a ∈ acc, ∀ x ∈ tl, s.lev a < s.lev x) →
    Closed s (· ∈ m.removable) (fun x => (x = u ∨ x ∈ tl) ∨ x ∈ acc) →
    ∃ (tail : List Nat) (R : Nat → Prop), shrinkLoopBlocks s used n (tl ++ [u]) m acc = u :: tail ∧
      Tail s tail ∧ (∀ v ∈ m.removable, R v) ∧ Closed s R (fun x => x ∈ u :: tail) := by
  intro n
  induction n with
  | zero => intro tl m acc hn; omega
  | succ n ih =>
    intro tl m acc hn htl hs hacc hlt hc
    cases tl with
    | nil =>
      rw [List.nil_append]
      unfold shrinkLoopBlocks
      simp only [Nat.le_refl, decide_true, List.takeWhile_cons_of_pos, List.takeWhile_nil,
        List.dropWhile_cons_of_pos, List.dropWhile_nil]
      have e : shrinkBlock s used [u].reverse m = ([u], m) := by
        unfold shrinkBlock; rw [if_pos (by simp)]; rfl
      rw [e]
      simp only
      have e2 : ∀ n, shrinkLoopBlocks s used n [] m ([u] ++ acc) = u :: acc := by
        intro n; cases n <;> simp [shrinkLoopBlocks]
      rw [e2]
      refine ⟨acc, (· ∈ m.removable), rfl, hacc, fun _ h => h, hc.mono fun x hx => ?_⟩
      rcases hx with (rfl | h) | h
      · exact List.mem_cons_self ..
      · cases h
      · exact List.mem_cons_of_mem _ h
    | cons l tl =>
      rw [List.cons_append]
      unfold shrinkLoopBlocks
      have hl := htl.lev l (by simp)
      obtain ⟨e1, e2⟩ := takeWhile_snoc (p := fun k => decide (s.lev k ≤ s.lev l)) (u := u)
        (by simp; omega) (l :: tl)
      rw [List.cons_append] at e1 e2
      simp only
      rw [e1, e2]
      have hsub1 : ((l :: tl).takeWhile fun k => decide (s.lev k ≤ s.lev l)).Sublist (l :: tl) :=
        List.takeWhile_sublist _
      have hsub2 : ((l :: tl).dropWhile fun k => decide (s.lev k ≤ s.lev l)).Sublist (l :: tl) :=
        List.dropWhile_sublist _
      have hgt := dropWhile_gt (f := s.lev) (c := s.lev l) hs
      have hshort : ((l :: tl).dropWhile fun k => decide (s.lev k ≤ s.lev l)).length < n := by
        rw [List.dropWhile_cons_of_pos (by simp)]
        have := (List.dropWhile_sublist (fun k => decide (s.lev k ≤ s.lev l)) (l := tl)).length_le
        simp at hn
        omega
      have happ := List.takeWhile_append_dropWhile (p := fun k => decide (s.lev k ≤ s.lev l))
        (l := l :: tl)
      have htake : ∀ x ∈ (l :: tl).takeWhile fun k => decide (s.lev k ≤ s.lev l),
          s.lev x = s.lev l := by
        intro x hx
        have h1 : s.lev x ≤ s.lev l := by
          have := List.all_takeWhile (p := fun k => decide (s.lev k ≤ s.lev l)) (l := l :: tl)
          rw [List.all_eq_true] at this
          simpa using this x hx
        have h2 := hsub1.subset hx
        rw [List.pairwise_cons] at hs
        rcases List.mem_cons.1 h2 with rfl | h2
        · rfl
        · have := hs.1 x h2; omega
      have hmemall : ∀ x, x ∈ l :: tl → x ∈ ((l :: tl).takeWhile fun k => decide (s.lev k ≤ s.lev l)) ∨
          x ∈ ((l :: tl).dropWhile fun k => decide (s.lev k ≤ s.lev l)) := by
        intro x hx
        rw [← happ] at hx
        exact List.mem_append.1 hx
      generalize ((l :: tl).takeWhile fun k => decide (s.lev k ≤ s.lev l)) = bl at *
      generalize ((l :: tl).dropWhile fun k => decide (s.lev k ≤ s.lev l)) = rs at *
      have hblock : Block s (s.lev l) bl.reverse := by
        refine ⟨fun x hx => ?_, fun x hx => ?_, ?_⟩
        · exact htl.false x (hsub1.subset (List.mem_reverse.1 hx))
        · exact htake x (List.mem_reverse.1 hx)
        · exact (List.reverse_perm _).symm.nodup (hsub1.nodup htl.nodup)
      obtain ⟨b1, b2, b3, _⟩ := shrinkBlock_spec h hL (used := used) hblock (m := m)
        (A := fun x => (x = u ∨ x ∈ rs) ∨ x ∈ acc) (fun _ => hl) (hc.mono fun x hx => by
          rcases hx with (h | h) | h
          · exact .inl (.inl (.inl h))
          · rcases hmemall x h with h | h
            · exact .inr (List.mem_reverse.2 h)
            · exact .inl (.inl (.inr h))
          · exact .inl (.inr h))
      generalize shrinkBlock s used bl.reverse m = res at b1 b2 b3 ⊢
      obtain ⟨ks, m'⟩ := res
      simp only at b1 b2 b3 ⊢
      obtain ⟨tail, R, t1, t2, t3, t4⟩ := ih rs m' (ks ++ acc) hshort (htl.sub hsub2)
        (hs.sublist hsub2) (by
          refine ⟨fun x hx => ?_, fun x hx => ?_, ?_⟩
          · rcases List.mem_append.1 hx with hx | hx
            · exact b2.false x hx
            · exact hacc.false x hx
          · rcases List.mem_append.1 hx with hx | hx
            · rw [b2.lev x hx]; exact hl
            · exact hacc.lev x hx
          · rw [List.nodup_append]
            refine ⟨b2.nodup, hacc.nodup, fun a ha b hb e => ?_⟩
            subst e
            have h1 := b2.lev a ha
            have h2 := hlt a hb l (by simp)
            omega) (by
          intro a ha x hx
          have hx' := hgt x hx
          rcases List.mem_append.1 ha with ha | ha
          · rw [b2.lev a ha]; exact hx'
          · exact hlt a ha x (hsub2.subset hx)) (b1.mono fun x hx => by
          rcases hx with (h | h) | h
          · exact .inl h
          · exact .inr (List.mem_append.2 (.inr h))
          · exact .inr (List.mem_append.2 (.inl h)))
      exact ⟨tail, R, t1, t2, fun v hv => t3 v (b3 v hv), t4⟩

/-! ## Sorting by level -/

theorem insertLevel_mem (l x : Nat) (ls : List Nat) : x ∈ insertLevel l ls ↔ x = l ∨ x ∈ ls := by
  induction ls with
  | nil => simp [insertLevel]
  | cons k ks ih =>
    unfold insertLevel
    split
    · simp
    · rw [List.mem_cons, ih, List.mem_cons]
      constructor
      · rintro (h | h | h) <;> simp [h]
      · rintro (h | h | h) <;> simp [h]

theorem insertLevel_sorted {l : Nat} {ls : List Nat} (h : ls.Pairwise (· > ·)) (hl : l ∉ ls) :
    (insertLevel l ls).Pairwise (· > ·) := by
  induction ls with
  | nil => simp [insertLevel]
  | cons k ks ih =>
    rw [List.pairwise_cons] at h
    unfold insertLevel
    split
    · rename_i hk
      rw [List.pairwise_cons, List.pairwise_cons]
      have : k ≠ l := fun e => hl (by simp [e])
      refine ⟨fun x hx => ?_, h⟩
      rcases List.mem_cons.1 hx with rfl | hx
      · omega
      · have := h.1 x hx; omega
    · rename_i hk
      rw [List.pairwise_cons]
      refine ⟨fun x hx => ?_, ih h.2 fun h => hl (by simp [h])⟩
      rcases (insertLevel_mem l x ks).1 hx with rfl | hx
      · omega
      · exact h.1 x hx

theorem sortLevels_spec {ls : List Nat} (h : ls.Nodup) :
    (sortLevels ls).Pairwise (· > ·) ∧ ∀ x, x ∈ sortLevels ls ↔ x ∈ ls := by
  unfold sortLevels
  induction ls with
  | nil => simp
  | cons l ls ih =>
    rw [List.nodup_cons] at h
    obtain ⟨h1, h2⟩ := ih h.2
    rw [List.foldr_cons]
    refine ⟨insertLevel_sorted h1 (fun hm => h.1 ((h2 l).1 hm)), fun x => ?_⟩
    rw [insertLevel_mem, h2, List.mem_cons]

theorem flatMap_levels {f : Nat → Nat} {c : List Nat} (hc : c.Nodup) : ∀ {ls : List Nat},
    ls.Pairwise (· > ·) →
    (ls.flatMap fun lv => c.filter fun l => f l = lv).Pairwise (fun a b => f b ≤ f a) ∧
    (ls.flatMap fun lv => c.filter fun l => f l = lv).Nodup ∧
    ∀ x, x ∈ (ls.flatMap fun lv => c.filter fun l => f l = lv) ↔ x ∈ c ∧ f x ∈ ls := by
  intro ls
  induction ls with
  | nil => intro _; simp
  | cons k ls ih =>
    intro h
    rw [List.pairwise_cons] at h
    obtain ⟨h1, h2, h3⟩ := ih h.2
    rw [List.flatMap_cons]
    have hf : ∀ x ∈ c.filter (fun l => f l = k), f x = k := fun x hx => by
      simpa using (List.mem_filter.1 hx).2
    refine ⟨?_, ?_, fun x => ?_⟩
    · rw [List.pairwise_append]
      refine ⟨?_, h1, fun a ha b hb => ?_⟩
      · refine List.Pairwise.imp_of_mem (R := fun _ _ => True) ?_ (List.pairwise_of_forall (by simp))
        intro a b ha hb _
        rw [hf a ha, hf b hb]; exact Nat.le_refl _
      · rw [hf a ha]
        exact Nat.le_of_lt (h.1 _ ((h3 b).1 hb).2)
    · rw [List.nodup_append]
      refine ⟨List.filter_sublist.nodup hc, h2, fun a ha b hb e => ?_⟩
      subst e
      have := h.1 _ ((h3 a).1 hb).2
      rw [hf a ha] at this; omega
    · rw [List.mem_append, h3, List.mem_cons, List.mem_filter]
      simp only [decide_eq_true_eq]
      constructor
      · rintro (⟨a, b⟩ | ⟨a, b⟩)
        · exact ⟨a, .inl b⟩
        · exact ⟨a, .inr b⟩
      · rintro ⟨a, b | b⟩
        · exact .inl ⟨a, b⟩
        · exact .inr ⟨a, b⟩

theorem sortDeduced_spec {s : Solver} {k u : Nat} {t : Analysis} (h : Uip s k u t) :
    (sortDeduced s t).Pairwise (fun a b => s.lev b ≤ s.lev a) ∧ (sortDeduced s t).Nodup ∧
    ∀ x, x ∈ sortDeduced s t ↔ x ∈ t.clause := by
  obtain ⟨h1, h2⟩ := sortLevels_spec h.distinct
  obtain ⟨f1, f2, f3⟩ := flatMap_levels (f := s.lev) h.nodup h1
  refine ⟨f1, f2, fun x => ?_⟩
  unfold sortDeduced
  rw [f3]
  exact ⟨fun h => h.1, fun hx => ⟨hx, (h2 _).2 ((h.levels _).2 ⟨x, hx, rfl⟩)⟩⟩

/-! ## The learned clause -/

theorem learnedClause_spec {s : Solver} {k u : Nat} {t : Analysis} (hi : InvAt s s.level k)
    (h : Uip s k u t) : ∃ tail, learnedClause s u t = neg u :: tail ∧ Tail s tail ∧
    UPConflict s.formula (fun x => neg x ∈ neg u :: tail) := by
  have ht := hi.trail
  have hu1 := ht.tval _ h.mem
  have htail : Tail s t.clause := ⟨fun x hx => (h.lower x hx).1, fun x hx => (h.lower x hx).2, h.nodup⟩
  -- conclusion from a closed set
  have fin : ∀ (tail : List Nat) (R : Nat → Prop), Tail s tail → R (u / 2) →
      (∀ x ∈ t.clause, R (x / 2)) → Closed s R (fun x => x ∈ neg u :: tail) →
      UPConflict s.formula (fun x => neg x ∈ neg u :: tail) := by
    intro tail R h1 h2 h3 h4
    refine UPConflict.cut h.rup fun x hx => ?_
    have hx1 : s.values x = 1 := by
      rcases hx with rfl | hx
      · exact hu1
      · exact ht.neg_one.1 (h.lower _ hx).1
    refine h4.up hi (Nat.le_refl _) ?_ _ x (Nat.lt_succ_self _) hx1 ?_
    · intro l hl
      rcases List.mem_cons.1 hl with rfl | hl
      · exact ht.neg_one.2 hu1
      · exact h1.false l hl
    · rcases hx with rfl | hx
      · exact h2
      · have := h3 _ hx; rwa [neg_div] at this
  unfold learnedClause
  split
  · obtain ⟨s1, s2, s3⟩ := sortDeduced_spec h
    have hst : Tail s (sortDeduced s t) :=
      ⟨fun x hx => htail.false x ((s3 x).1 hx), fun x hx => htail.lev x ((s3 x).1 hx), s2⟩
    simp only
    generalize hd : sortDeduced s t = D at s1 s2 s3 hst
    -- minimization
    have hmin : ∃ (E : List Nat) (m : Marks), minimizeClause s (usedOf s D) (neg u) D = (E, m) ∧
        E.Sublist D ∧ (u / 2 ∈ m.removable) ∧ (∀ x ∈ D, x / 2 ∈ m.removable) ∧
        Closed s (· ∈ m.removable) (fun x => x = neg u ∨ x ∈ E) := by
      have hc0 : Closed s (· ∈ neg u / 2 :: D.map (· / 2)) (fun x => x = neg u ∨ x ∈ D) := by
        intro v hv
        left
        rcases List.mem_cons.1 hv with rfl | hv
        · exact ⟨neg u, .inl rfl, rfl⟩
        · obtain ⟨x, hx, e⟩ := List.mem_map.1 hv
          exact ⟨x, .inr hx, e⟩
      have hr0 : ∀ x ∈ D, x / 2 ∈ neg u / 2 :: D.map (· / 2) := fun x hx =>
        List.mem_cons_of_mem _ (List.mem_map.2 ⟨x, hx, rfl⟩)
      have hru : u / 2 ∈ neg u / 2 :: D.map (· / 2) := by rw [neg_div]; exact List.mem_cons_self ..
      unfold minimizeClause
      simp only
      split
      · exact ⟨D, _, rfl, List.Sublist.refl _, hru, hr0, hc0⟩
      · obtain ⟨i1, i2, i3⟩ := minimizeLoop_spec hi (Nat.le_refl _) (used := usedOf s D)
          (mi := true) D.reverse ⟨neg u / 2 :: D.map (· / 2), []⟩ (fun x => x = neg u)
          (fun l hl => by
            have hl := List.mem_reverse.1 hl
            have := hst.lev l hl
            exact ⟨⟨hst.false l hl, this.2⟩, by omega⟩)
          (hc0.mono fun x hx => hx.imp id List.mem_reverse.2)
        generalize minimizeLoop s (usedOf s D) true D.reverse ⟨neg u / 2 :: D.map (· / 2), []⟩
          = res at i1 i2 i3 ⊢
        obtain ⟨ks, m⟩ := res
        refine ⟨ks.reverse, _, rfl, ?_, i1.sub _ hru, fun x hx => i1.sub _ (hr0 x hx),
          i3.mono fun x hx => hx.imp id List.mem_reverse.2⟩
        have := i2.reverse
        rwa [List.reverse_reverse] at this
    obtain ⟨E, m, hE, e1, e2, e3, e4⟩ := hmin
    rw [hE]
    simp only
    split
    · unfold shrinkClause
      rw [List.reverse_cons]
      obtain ⟨tail, R, t1, t2, t3, t4⟩ := shrinkLoopBlocks_spec hi (Nat.le_refl _)
        (used := usedOf s D) (u := neg u) (ht.neg_one.2 hu1) (by rw [lev_neg]; exact h.lev)
        (E.length + 1) E.reverse m [] (by simp)
        (by
          have := hst.sub e1
          exact ⟨fun x hx => this.false x (List.mem_reverse.1 hx),
            fun x hx => this.lev x (List.mem_reverse.1 hx),
            (List.reverse_perm _).symm.nodup this.nodup⟩)
        (by
          rw [List.pairwise_reverse]
          exact s1.sublist e1)
        ⟨by simp, by simp, by simp⟩ (by simp)
        (e4.mono fun x hx => .inl (hx.imp id List.mem_reverse.2))
      exact ⟨tail, t1, t2, fin tail R t2 (t3 _ e2) (fun x hx => t3 _ (e3 x ((s3 x).2 hx))) t4⟩
    · exact ⟨E, rfl, hst.sub e1, fin E _ (hst.sub e1) e2 (fun x hx => e3 x ((s3 x).2 hx))
        (e4.mono fun x hx => List.mem_cons.2 hx)⟩
  · refine ⟨t.clause, rfl, htail, UPConflict.cut h.rup fun x hx => .assumed ?_⟩
    rcases hx with rfl | hx
    · exact List.mem_cons_self ..
    · exact List.mem_cons_of_mem _ hx

end Verif.Core
