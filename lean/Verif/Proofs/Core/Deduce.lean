import Verif.Proofs.Core.Failed

/-! # The first UIP clause -/

namespace Verif.Core

open Verif.Spec

/-- Marked literals of the conflict level. -/
def mark (s : Solver) (t : Analysis) (x : Nat) : Bool :=
  decide (x / 2 ∈ t.analyzed ∧ s.lev x = s.level)

/-- Invariant of marking literals.  `base` counts marked literals above `rest`. -/
structure DInv (s : Solver) (k : Nat) (rest : List Nat) (base : Nat) (t : Analysis) : Prop where
  count : t.unresolved = base + (rest.filter (mark s t)).length
  size : t.resolventSize = t.unresolved + t.clause.length
  pos : ∀ x ∈ rest, x / 2 ∈ t.analyzed → s.lev x = s.level → s.pos x < k
  lower : ∀ m ∈ t.clause, s.values m = -1 ∧ 0 < s.lev m ∧ s.lev m < s.level ∧ m / 2 ∈ t.analyzed
  full : ∀ x, s.values x = 1 → x / 2 ∈ t.analyzed → s.lev x = s.level ∨ neg x ∈ t.clause
  nodup : t.clause.Nodup
  distinct : t.levels.Nodup
  levels : ∀ l, l ∈ t.levels ↔ ∃ m ∈ t.clause, s.lev m = l

/-- A literal that may be marked. -/
def Markable (s : Solver) (k n m : Nat) : Prop :=
  s.values m = -1 ∧ s.lev m ≤ s.level ∧ (s.lev m = s.level → s.pos m < k ∧ s.pos m < n)

theorem analyzeLiteral_spec {s : Solver} (ht : TrailInv s) (h0 : 0 < s.level) {k : Nat}
    {rest : List Nat} {base : Nat}
    (hb : s.Below rest) {t : Analysis} (h : DInv s k rest base t) {m : Nat}
    (hm : Markable s k rest.length m) :
    DInv s k rest base (analyzeLiteral s t m) ∧
    (∀ v ∈ t.analyzed, v ∈ (analyzeLiteral s t m).analyzed) ∧
    (∀ v ∈ (analyzeLiteral s t m).analyzed, v ∈ t.analyzed ∨ (v = m / 2 ∧ s.lev m ≠ 0)) ∧
    (s.lev m = 0 ∨ m / 2 ∈ (analyzeLiteral s t m).analyzed) ∧
    (analyzeLiteral s t m).antecedentSize = t.antecedentSize + (if s.lev m ≠ 0 then 1 else 0) := by
  obtain ⟨hv, hl, hp⟩ := hm
  unfold analyzeLiteral
  simp only
  by_cases hm0 : s.lev m = 0
  · rw [if_pos hm0]; simp [hm0, h]
  · rw [if_neg hm0]
    by_cases ha : m / 2 ∈ t.analyzed
    · rw [if_pos ha]
      simp only [ha, hm0, ne_eq, not_false_eq_true, if_true, or_true, true_and]
      exact ⟨⟨h.1, h.2, h.3, h.4, h.5, h.6, h.7, h.8⟩, fun _ h => h, fun _ h => .inl h, trivial⟩
    · rw [if_neg ha]
      have hv1 := ht.neg_pos.2 hv
      have hon := ht.on_trail hv1 (by rw [lev_neg]; exact hm0)
      have huniq : ∀ x, s.values x = 1 → x / 2 = m / 2 → x = neg m := fun x hx e => by
        rcases eq_or_eq_neg e with rfl | rfl
        · omega
        · rfl
      have htrue : ∀ x ∈ rest, s.values x = 1 := fun x hx => ht.tval _ ((hb.mem ht).1 hx).1
      by_cases hL : s.lev m = s.level
      · rw [if_pos hL]
        obtain ⟨hp1, hp2⟩ := hp hL
        have hin : neg m ∈ rest := (hb.mem ht).2 ⟨hon, by rw [pos_neg]; exact hp2⟩
        refine ⟨⟨?_, ?_, ?_, ?_, ?_, h.nodup, h.distinct, h.levels⟩, ?_, ?_, ?_, ?_⟩
        · show t.unresolved + 1 = base + (rest.filter (fun x =>
            decide (x / 2 ∈ m / 2 :: t.analyzed ∧ s.lev x = s.level))).length
          have := count_insert (p := mark s t) (q := fun x =>
            decide (x / 2 ∈ m / 2 :: t.analyzed ∧ s.lev x = s.level)) (y := neg m)
            (hb.nodup ht) hin (by simp [mark, ha]) (by
              intro x hx
              by_cases e : x = neg m
              · simp [e, lev_neg, hL]
              · have : x / 2 ≠ m / 2 := fun h => e (huniq x (htrue x hx) h)
                simp [e, this, mark])
          have := h.count
          omega
        · show t.resolventSize + 1 = t.unresolved + 1 + t.clause.length
          have := h.size; omega
        · intro x hx hxa hxl
          rcases List.mem_cons.1 hxa with e | hxa
          · rw [huniq x (htrue x hx) e, pos_neg]; exact hp1
          · exact h.pos x hx hxa hxl
        · intro x hx
          obtain ⟨a, b, c, d⟩ := h.lower x hx
          exact ⟨a, b, c, List.mem_cons_of_mem _ d⟩
        · intro x hx hxa
          rcases List.mem_cons.1 hxa with e | hxa
          · rw [huniq x hx e, lev_neg]; exact .inl hL
          · exact h.full x hx hxa
        · intro v hv; exact List.mem_cons_of_mem _ hv
        · intro v hv
          rcases List.mem_cons.1 hv with e | hv
          · exact .inr ⟨e, hm0⟩
          · exact .inl hv
        · exact .inr (List.mem_cons_self ..)
        · rw [if_pos hm0]
      · rw [if_neg hL]
        have hnc : m ∉ t.clause := fun hc => ha (h.lower m hc).2.2.2
        refine ⟨⟨?_, ?_, ?_, ?_, ?_, ?_, ?_, ?_⟩, ?_, ?_, ?_, ?_⟩
        · show t.unresolved = base + (rest.filter (fun x =>
            decide (x / 2 ∈ m / 2 :: t.analyzed ∧ s.lev x = s.level))).length
          rw [h.count]
          congr 2
          apply List.filter_congr
          intro x hx
          unfold mark
          by_cases e : x / 2 = m / 2
          · have e' := huniq x (htrue x hx) e
            have hne : ¬ s.lev x = s.level := by rw [e', lev_neg]; exact hL
            simp [hne]
          · simp [e]
        · show t.resolventSize + 1 = t.unresolved + (t.clause ++ [m]).length
          rw [List.length_append, h.size]; simp; omega
        · intro x hx hxa hxl
          rcases List.mem_cons.1 hxa with e | hxa
          · rw [huniq x (htrue x hx) e, lev_neg] at hxl; exact absurd hxl hL
          · exact h.pos x hx hxa hxl
        · intro x hx
          rcases List.mem_append.1 hx with hx | hx
          · obtain ⟨a, b, c, d⟩ := h.lower x hx
            exact ⟨a, b, c, List.mem_cons_of_mem _ d⟩
          · rw [List.mem_singleton] at hx; subst hx
            exact ⟨hv, by omega, by omega, List.mem_cons_self ..⟩
        · intro x hx hxa
          rcases List.mem_cons.1 hxa with e | hxa
          · rw [huniq x hx e]; exact .inr (by simp)
          · exact (h.full x hx hxa).imp id fun h => List.mem_append.2 (.inl h)
        · show (t.clause ++ [m]).Nodup
          rw [List.nodup_append]
          refine ⟨h.nodup, by simp, fun a ha b hb e => ?_⟩
          rw [List.mem_singleton] at hb
          exact hnc (hb ▸ e ▸ ha)
        · show (if s.lev m ∈ t.levels then t.levels else t.levels ++ [s.lev m]).Nodup
          split
          · exact h.distinct
          · rename_i hn
            rw [List.nodup_append]
            refine ⟨h.distinct, by simp, fun a ha b hb e => ?_⟩
            rw [List.mem_singleton] at hb
            exact hn (hb ▸ e ▸ ha)
        · intro l
          show l ∈ (if s.lev m ∈ t.levels then t.levels else t.levels ++ [s.lev m]) ↔
            ∃ x ∈ t.clause ++ [m], s.lev x = l
          have hx : l ∈ (if s.lev m ∈ t.levels then t.levels else t.levels ++ [s.lev m]) ↔
              l ∈ t.levels ∨ l = s.lev m := by
            split
            · rename_i hin
              exact ⟨.inl, fun h => h.elim id fun e => e ▸ hin⟩
            · simp
          rw [hx, h.levels]
          constructor
          · rintro (⟨x, hx, e⟩ | e)
            · exact ⟨x, List.mem_append.2 (.inl hx), e⟩
            · exact ⟨m, by simp, e.symm⟩
          · rintro ⟨x, hx, e⟩
            rcases List.mem_append.1 hx with hx | hx
            · exact .inl ⟨x, hx, e⟩
            · rw [List.mem_singleton] at hx; exact .inr (by rw [← e, hx])
        · intro v hv; exact List.mem_cons_of_mem _ hv
        · intro v hv
          rcases List.mem_cons.1 hv with e | hv
          · exact .inr ⟨e, hm0⟩
          · exact .inl hv
        · exact .inr (List.mem_cons_self ..)
        · rw [if_pos hm0]

theorem analyzeLiterals_spec {s : Solver} (ht : TrailInv s) (h0 : 0 < s.level) {k : Nat}
    {rest : List Nat} {base : Nat} (hb : s.Below rest) :
    ∀ (lits : List Nat) (t : Analysis), DInv s k rest base t →
    (∀ m ∈ lits, Markable s k rest.length m) →
    DInv s k rest base (lits.foldl (analyzeLiteral s) t) ∧
    (∀ v ∈ t.analyzed, v ∈ (lits.foldl (analyzeLiteral s) t).analyzed) ∧
    (∀ v ∈ (lits.foldl (analyzeLiteral s) t).analyzed, v ∈ t.analyzed ∨
      ∃ m ∈ lits, v = m / 2 ∧ s.lev m ≠ 0) ∧
    (∀ m ∈ lits, s.lev m = 0 ∨ m / 2 ∈ (lits.foldl (analyzeLiteral s) t).analyzed) ∧
    (lits.foldl (analyzeLiteral s) t).antecedentSize =
      t.antecedentSize + (lits.filter fun m => s.lev m ≠ 0).length := by
  intro lits
  induction lits with
  | nil => intro t h _; simp [h]
  | cons m lits ih =>
    intro t h hm
    obtain ⟨a1, a2, a3, a4, a5⟩ := analyzeLiteral_spec ht h0 hb h (hm m (by simp))
    obtain ⟨b1, b2, b3, b4, b5⟩ := ih (analyzeLiteral s t m) a1 fun x hx => hm x (by simp [hx])
    rw [List.foldl_cons]
    refine ⟨b1, fun v hv => b2 v (a2 v hv), fun v hv => ?_, fun x hx => ?_, ?_⟩
    · rcases b3 v hv with h | ⟨x, hx, h⟩
      · rcases a3 v h with h | h
        · exact .inl h
        · exact .inr ⟨m, by simp, h⟩
      · exact .inr ⟨x, by simp [hx], h⟩
    · rcases List.mem_cons.1 hx with rfl | hx
      · exact a4.imp id (b2 _)
      · exact b4 x hx
    · rw [b5, a5]
      by_cases e : s.lev m ≠ 0
      · rw [if_pos e, List.filter_cons_of_pos (by simpa using e), List.length_cons]; omega
      · rw [if_neg e, List.filter_cons_of_neg (by simpa using e)]; omega

/-- The literals that still have to be resolved or are part of the clause. -/
def cut (s : Solver) (rest : List Nat) (t : Analysis) (x : Nat) : Prop :=
  s.values x = 1 ∧ x / 2 ∈ t.analyzed ∧ (s.lev x < s.level ∨ x ∈ rest)

/-- The resolvent as a list of literals. -/
def resolvent (s : Solver) (rest : List Nat) (t : Analysis) : List Nat :=
  t.clause ++ (rest.filter (mark s t)).map neg

theorem DInv.length {s : Solver} {k : Nat} {rest : List Nat} {t : Analysis}
    (h : DInv s k rest 0 t) : (resolvent s rest t).length = t.resolventSize := by
  unfold resolvent
  rw [List.length_append, List.length_map, h.size, h.count]; omega

theorem DInv.cut_mem {s : Solver} {k base : Nat} {rest : List Nat} {t : Analysis}
    (h : DInv s k rest base t) {x : Nat} (hx : cut s rest t x) :
    neg x ∈ resolvent s rest t := by
  obtain ⟨h1, h2, h3⟩ := hx
  unfold resolvent
  rw [List.mem_append]
  rcases h.full x h1 h2 with hl | hc
  · right
    rw [List.mem_map]
    refine ⟨x, List.mem_filter.2 ⟨?_, by simp [mark, h2, hl]⟩, rfl⟩
    rcases h3 with h3 | h3
    · omega
    · exact h3
  · exact .inl hc

/-- What a first UIP clause satisfies. -/
structure Uip (s : Solver) (k u : Nat) (t : Analysis) : Prop where
  mem : u ∈ s.trail
  lev : s.lev u = s.level
  pos : s.pos u < k
  rup : UPConflict s.formula (fun x => x = u ∨ neg x ∈ t.clause)
  lower : ∀ m ∈ t.clause, s.values m = -1 ∧ 0 < s.lev m ∧ s.lev m < s.level
  nodup : t.clause.Nodup
  distinct : t.levels.Nodup
  levels : ∀ l, l ∈ t.levels ↔ ∃ m ∈ t.clause, s.lev m = l

/-- What holds if the reason of `u` can be strengthened. -/
structure Shorter (s : Solver) (k u : Nat) (t : Analysis) (n : Nat) (confl : List Nat) : Prop where
  mem : u ∈ s.trail
  lev : s.lev u = s.level
  pos : s.pos u < k
  implied : (s.assigned (u / 2)).reason ≠ .decision
  otfs : s.options.otfs = true
  size : t.antecedentSize = 1 + ((s.antecedents u).filter fun m => s.lev m ≠ 0).length
  three : 2 < t.antecedentSize
  rup : UPConflict s.formula
    (fun x => neg x ∈ (s.antecedents u).filter fun m => s.lev m ≠ 0)
  first : n = 1 → t.resolventSize < (confl.filter fun m => s.lev m ≠ 0).length →
    ∀ m ∈ s.antecedents u, s.lev m ≠ 0 → m ∈ confl

theorem deduceLoop_spec {s : Solver} {k : Nat} (h : InvAt s s.level k) (h0 : 0 < s.level)
    {confl : List Nat} (hcn : confl.Nodup) (hcf : ∀ m ∈ confl, s.values m = -1) :
    ∀ (rest : List Nat) (t : Analysis) (n : Nat), s.Below rest → DInv s k rest 0 t →
    UPConflict s.formula (cut s rest t) → 0 < t.unresolved →
    (n = 0 → (∀ v ∈ t.analyzed, ∃ m ∈ confl, v = m / 2) ∧
      ∀ m ∈ confl, s.lev m = 0 ∨ m / 2 ∈ t.analyzed ∧ (s.lev m = s.level → neg m ∈ rest)) →
    match deduceLoop s rest t n with
    | .stuck => False
    | .uip u t' => Uip s k u t'
    | .strengthen u t' n' => Shorter s k u t' n' confl := by
  have ht := h.trail
  intro rest
  induction rest with
  | nil =>
    intro t n hb hd _ hpos _
    have := hd.count
    simp at this
    omega
  | cons lit rest ih =>
    intro t n hb hd hconf hpos hn
    obtain ⟨hb', hon, hpl⟩ := hb.tail ht
    have hnd := hb.nodup ht
    rw [List.nodup_cons] at hnd
    have hv1 := ht.tval _ hon
    unfold deduceLoop
    by_cases hm : lit / 2 ∈ t.analyzed ∧ s.lev lit = s.level
    · rw [if_pos hm]
      have hmk : mark s t lit = true := by simp [mark, hm]
      have hcount := hd.count
      rw [List.filter_cons_of_pos hmk, List.length_cons] at hcount
      have hlk := hd.pos lit (by simp) hm.1 hm.2
      by_cases h1 : t.unresolved = 1
      · rw [if_pos h1]
        have hnone : rest.filter (mark s t) = [] := List.eq_nil_of_length_eq_zero (by omega)
        refine ⟨hon, hm.2, hlk, UPConflict.cut hconf fun x hx => .assumed ?_, fun m hm => ?_,
          hd.nodup, hd.distinct, hd.levels⟩
        · have := hd.cut_mem hx
          unfold resolvent at this
          rw [List.filter_cons_of_pos hmk, hnone] at this
          simp only [List.map_cons, List.map_nil, List.mem_append, List.mem_singleton] at this
          rcases this with h | h
          · exact .inr h
          · exact .inl (neg_inj h)
        · obtain ⟨a, b, c, _⟩ := hd.lower m hm
          exact ⟨a, b, c⟩
      · rw [if_neg h1]
        simp only
        -- the literal is not a decision
        have hnodec : (s.assigned (lit / 2)).reason ≠ .decision := fun hre => by
          obtain ⟨f, hf, e⟩ := h.reason.decision lit hv1 hre
          have hne : rest.filter (mark s t) ≠ [] := fun e => by
            rw [e] at hcount; simp at hcount; omega
          obtain ⟨x, hx⟩ := List.exists_mem_of_ne_nil _ hne
          obtain ⟨hx1, hx2⟩ := List.mem_filter.1 hx
          simp only [mark, decide_eq_true_eq] at hx2
          obtain ⟨hx3, hx4⟩ := (hb'.mem ht).1 hx1
          have := ht.frame_le_pos hf hx3 (by omega)
          have := ht.decision_pos hf
          rw [e] at this
          omega
        obtain ⟨a1, ⟨m0, hm0, hlm0⟩, a3⟩ := antecedents_ok h hv1 (by omega) (.inr hlk) hnodec
        have hd1 : DInv s k rest 1 { t with antecedentSize := 1 } := by
          refine ⟨?_, hd.size, fun x hx => hd.pos x (by simp [hx]), hd.lower, hd.full, hd.nodup,
            hd.distinct, hd.levels⟩
          show t.unresolved = 1 + (rest.filter (mark s t)).length
          omega
        obtain ⟨g1, g2, g3, g4, g5⟩ := analyzeLiterals_spec ht h0 hb' (s.antecedents lit) _ hd1 (by
          intro m hm'
          obtain ⟨b1, b2, b3⟩ := a1 m hm'
          refine ⟨b1, by omega, fun e => ?_⟩
          omega)
        generalize hfold : (s.antecedents lit).foldl (analyzeLiteral s)
          { t with antecedentSize := 1 } = t1 at g1 g2 g3 g4 g5 ⊢
        have hd2 : DInv s k rest 0 { t1 with
            unresolved := t1.unresolved - 1, resolventSize := t1.resolventSize - 1 } := by
          refine ⟨?_, ?_, g1.pos, g1.lower, g1.full, g1.nodup, g1.distinct, g1.levels⟩
          · show t1.unresolved - 1 = 0 + (rest.filter (mark s t1)).length
            have := g1.count; omega
          · show t1.resolventSize - 1 = t1.unresolved - 1 + t1.clause.length
            have := g1.count
            have := g1.size; omega
        have inrest : ∀ m ∈ s.antecedents lit, s.lev m = s.level → neg m ∈ rest := by
          intro m hm' hl
          obtain ⟨b1, b2, b3⟩ := a1 m hm'
          refine (hb'.mem ht).2 ⟨ht.on_trail (ht.neg_pos.2 b1) (by rw [lev_neg]; omega), ?_⟩
          rw [pos_neg]; omega
        have hconf2 : UPConflict s.formula (cut s rest { t1 with
            unresolved := t1.unresolved - 1, resolventSize := t1.resolventSize - 1 }) := by
          refine UPConflict.cut hconf fun x hx => ?_
          obtain ⟨x1, x2, x3⟩ := hx
          have hmem : ∀ y, s.values y = 1 → y / 2 ∈ t1.analyzed → (s.lev y < s.level ∨ y ∈ rest) →
              UP s.formula (cut s rest { t1 with
            unresolved := t1.unresolved - 1, resolventSize := t1.resolventSize - 1 }) y :=
            fun y h1 h2 h3 => .assumed ⟨h1, h2, h3⟩
          by_cases e : x = lit
          · subst e
            refine a3 _ fun m hm' => ?_
            obtain ⟨b1, b2, b3⟩ := a1 m hm'
            rcases g4 m hm' with hz | hin
            · exact UP.root ht b1 hz
            · refine hmem _ (ht.neg_pos.2 b1) (by simpa using hin) ?_
              by_cases hl : s.lev m = s.level
              · exact .inr (inrest m hm' hl)
              · left; rw [lev_neg]; omega
          · refine hmem x x1 (g2 _ x2) (x3.imp id fun hx => ?_)
            rcases List.mem_cons.1 hx with h | h
            · exact absurd h e
            · exact h
        have hpos2 : 0 < t1.unresolved - 1 := by
          have hc := g1.count
          have hin := inrest m0 hm0 (by omega)
          have hmem : neg m0 ∈ rest.filter (mark s t1) := by
            refine List.mem_filter.2 ⟨hin, ?_⟩
            have : m0 / 2 ∈ t1.analyzed := (g4 m0 hm0).resolve_left (by omega)
            simp [mark, this, lev_neg, hlm0, hm.2]
          have := List.length_pos_of_mem hmem
          omega
        -- antecedents are among the resolvent
        have hsub : ∀ m ∈ s.antecedents lit, s.lev m ≠ 0 → m ∈ resolvent s rest t1 := by
          intro m hm' hl
          obtain ⟨b1, b2, b3⟩ := a1 m hm'
          have : cut s rest t1 (neg m) := by
            refine ⟨ht.neg_pos.2 b1, by simpa using (g4 m hm').resolve_left hl, ?_⟩
            by_cases hL : s.lev m = s.level
            · exact .inr (inrest m hm' hL)
            · left; rw [lev_neg]; omega
          have := g1.cut_mem this
          rwa [neg_neg] at this
        have hlen : (resolvent s rest t1).length = t1.resolventSize - 1 := hd2.length
        have hant : (s.antecedents lit).Nodup := by
          unfold Solver.antecedents
          cases hre : (s.assigned (lit / 2)).reason with
          | unit => exact List.nodup_nil
          | decision => exact List.nodup_nil
          | binary o => simp
          | large r =>
            have := h.reason.large lit r hv1 hre (.inr hlk)
            exact List.filter_sublist.nodup (h.clause.nodup r this.1)
        by_cases hst : s.options.otfs ∧ 2 < t1.antecedentSize ∧
            t1.resolventSize - 1 < t1.antecedentSize
        · rw [if_pos hst]
          obtain ⟨o1, o2, o3⟩ := hst
          have g5 : t1.antecedentSize =
            1 + ((s.antecedents lit).filter fun m => s.lev m ≠ 0).length := g5
          refine ⟨hon, hm.2, hlk, hnodec, o1, g5, o2, ?_, ?_⟩
          · refine UPConflict.cut hconf2 fun x hx => .assumed ?_
            have hx' : neg x ∈ resolvent s rest t1 := g1.cut_mem hx
            exact nodup_subset_of_length (List.filter_sublist.nodup hant)
              (fun y hy => by
                obtain ⟨y1, y2⟩ := List.mem_filter.1 hy
                exact hsub y y1 (by simpa using y2)) (by omega) _ hx'
          · intro hn1 hlt m hm' hl
            have hlt : t1.resolventSize - 1 < (confl.filter fun m => s.lev m ≠ 0).length := hlt
            obtain ⟨c1, c2⟩ := hn (by omega)
            obtain ⟨mc, hmc, hmce⟩ := c1 _ hm.1
            have hnl : neg lit ∈ confl := by
              rcases eq_or_eq_neg hmce with e | e
              · have := hcf mc hmc; rw [← e] at this; omega
              · rw [e, neg_neg]; exact hmc
            have hnlev : s.lev (neg lit) ≠ 0 := by rw [lev_neg]; omega
            have hlen2 : ((confl.filter fun m => s.lev m ≠ 0).filter fun m => m ≠ neg lit).length + 1
                = (confl.filter fun m => s.lev m ≠ 0).length := by
              have := count_insert (rest := confl.filter fun m => s.lev m ≠ 0)
                (p := fun m => decide (m ≠ neg lit)) (q := fun _ => true) (y := neg lit)
                (List.filter_sublist.nodup hcn) (List.mem_filter.2 ⟨hnl, by simpa using hnlev⟩)
                (by simp) (by intro x _; by_cases e : x = neg lit <;> simp [e])
              rw [List.filter_eq_self.2 (by simp)] at this
              omega
            have := nodup_subset_of_length
              (l := (confl.filter fun m => s.lev m ≠ 0).filter fun m => m ≠ neg lit)
              (m := resolvent s rest t1)
              (List.filter_sublist.nodup (List.filter_sublist.nodup hcn)) (by
                intro x hx
                obtain ⟨hx1, hx2⟩ := List.mem_filter.1 hx
                obtain ⟨hx3, hx4⟩ := List.mem_filter.1 hx1
                have hx4 : s.lev x ≠ 0 := by simpa using hx4
                have hx2 : x ≠ neg lit := by simpa using hx2
                obtain ⟨y1, y2⟩ := (c2 x hx3).resolve_left hx4
                have hc : cut s rest t1 (neg x) := by
                  refine ⟨ht.neg_pos.2 (hcf x hx3), by simpa using g2 _ y1, ?_⟩
                  by_cases hL : s.lev x = s.level
                  · rcases List.mem_cons.1 (y2 hL) with h | h
                    · exact absurd (neg_eq_iff.1 h) hx2
                    · exact .inr h
                  · left
                    have := ht.levle (neg x) (ht.neg_pos.2 (hcf x hx3))
                    rw [lev_neg] at this ⊢; omega
                have := g1.cut_mem hc
                rwa [neg_neg] at this) (by omega) m (hsub m hm' hl)
            exact (List.mem_filter.1 (List.mem_filter.1 this).1).1
        · rw [if_neg hst]
          exact ih _ _ hb' hd2 hconf2 hpos2 (by omega)
    · rw [if_neg hm]
      have hmk : mark s t lit = false := by simp only [mark, decide_eq_false_iff_not]; exact hm
      refine ih t n hb' ⟨?_, hd.size, fun x hx => hd.pos x (by simp [hx]), hd.lower, hd.full,
        hd.nodup, hd.distinct, hd.levels⟩ ?_ hpos ?_
      · rw [hd.count, List.filter_cons_of_neg (by simp [hmk])]
      · refine UPConflict.cut hconf fun x hx => .assumed ?_
        obtain ⟨x1, x2, x3⟩ := hx
        refine ⟨x1, x2, ?_⟩
        rcases x3 with x3 | x3
        · exact .inl x3
        · rcases List.mem_cons.1 x3 with rfl | x3
          · left
            have := ht.levle x x1
            have : s.lev x ≠ s.level := fun e => hm ⟨x2, e⟩
            omega
          · exact .inr x3
      · intro hn0
        obtain ⟨c1, c2⟩ := hn hn0
        refine ⟨c1, fun m hmc => (c2 m hmc).imp id fun ⟨y1, y2⟩ => ⟨y1, fun hL => ?_⟩⟩
        rcases List.mem_cons.1 (y2 hL) with e | h
        · exact absurd ⟨by rw [← e]; simpa using y1, by rw [← e, lev_neg]; exact hL⟩ hm
        · exact h

theorem deduce_spec {orig : Base} {G : Assignment → Prop} {s : Solver}
    {c : Conflict} (h : Many orig G s c) : ∃ k, OkAt orig G s.level k s ∧
    match deduceLoop s s.trail.reverse
      ((s.conflictLits c).foldl (analyzeLiteral s) ⟨[], [], [], 0, 0, 0⟩) 0 with
    | .stuck => False
    | .uip u t' => Uip s k u t'
    | .strengthen u t' n' => Shorter s k u t' n' (s.conflictLits c) := by
  obtain ⟨k, hok, hk⟩ := h.ok
  have ht := hok.inv.trail
  refine ⟨k, hok, ?_⟩
  have hb := s.below_all
  obtain ⟨hnd, _, _⟩ := conflictLits_nodup hok h.conf
  have hd : DInv s k s.trail.reverse 0 ⟨[], [], [], 0, 0, 0⟩ := by
    refine ⟨?_, rfl, by simp, by simp, by simp, by simp, by simp, by simp⟩
    rw [List.filter_eq_nil_iff.2 (by simp [mark])]; rfl
  have hmem : ∀ m ∈ s.conflictLits c, s.lev m ≠ 0 → neg m ∈ s.trail.reverse := by
    intro m hm h0
    rw [List.mem_reverse]
    exact ht.on_trail (ht.neg_pos.2 (h.conf.false m hm)) (by rw [lev_neg]; exact h0)
  have hle : ∀ m ∈ s.conflictLits c, s.lev m ≤ s.level := fun m hm => by
    have := ht.levle (neg m) (ht.neg_pos.2 (h.conf.false m hm)); rwa [lev_neg] at this
  obtain ⟨g1, g2, g3, g4, g5⟩ := analyzeLiterals_spec ht h.pos hb (s.conflictLits c) _ hd (by
    intro m hm
    refine ⟨h.conf.false m hm, hle m hm, fun e => ⟨hk m hm e, ?_⟩⟩
    have := ((hb.mem ht).1 (hmem m hm (by have := h.pos; omega))).2
    rwa [pos_neg] at this)
  refine deduceLoop_spec hok.inv h.pos hnd h.conf.false _ _ _ hb g1 ?_ ?_ ?_
  · refine h.conf.upConflict fun m hm => ?_
    by_cases h0 : s.lev m = 0
    · exact UP.root ht (h.conf.false m hm) h0
    · exact .assumed ⟨ht.neg_pos.2 (h.conf.false m hm), by simpa using (g4 m hm).resolve_left h0,
        .inr (hmem m hm h0)⟩
  · obtain ⟨a, b, ha, _, _, hla, _⟩ := h.two
    have hp := h.pos
    have : neg a ∈ s.trail.reverse.filter (mark s
        ((s.conflictLits c).foldl (analyzeLiteral s) ⟨[], [], [], 0, 0, 0⟩)) := by
      refine List.mem_filter.2 ⟨hmem a ha (by omega), ?_⟩
      have : a / 2 ∈ ((s.conflictLits c).foldl (analyzeLiteral s) ⟨[], [], [], 0, 0, 0⟩).analyzed :=
        (g4 a ha).resolve_left (by omega)
      simp [mark, lev_neg, hla, this]
    have := List.length_pos_of_mem this
    have := g1.count
    omega
  · intro _
    refine ⟨fun v hv => ?_, fun m hm => ?_⟩
    · rcases g3 v hv with h | ⟨m, hm, e, _⟩
      · cases h
      · exact ⟨m, hm, e⟩
    · rcases g4 m hm with h' | h'
      · exact .inl h'
      · exact .inr ⟨h', fun e => hmem m hm (by have := h.pos; omega)⟩

end Verif.Core
