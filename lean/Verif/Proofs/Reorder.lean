import Verif.Model.Reorder
import Verif.Spec.Reorder
import Verif.Proofs.Containers.Sort
import Verif.Proofs.Decide
import Verif.Proofs.Core.Joint

/-! # Reordering decision variables -/

namespace Verif.Proofs.Reorder

open Verif.Core (Solver Clause Watch Calls)
open Verif.Model.Reorder
open Verif.Model.Decide (State DInv)
open Verif.Spec (StrictWeak SortedBy)
open Verif.Spec.Reorder

set_option linter.unusedSectionVars false

variable {α : Type} [LinearOrder α] {o : Ops α}

/-! ## Sizes -/

theorem counts_cons {values : Nat → Int} {m l : Nat} {ls : List Nat} :
    Counts values m (l :: ls) ↔ (0 < values l → m = 0) ∧
      ∀ before k rest, ls = before ++ k :: rest → 0 < values k →
        m ≤ unassigned values (l :: before) := by
  constructor
  · intro h
    refine ⟨fun hl => ?_, fun b k r e hk => ?_⟩
    · have := h [] l ls rfl hl
      simpa [unassigned] using this
    · exact h (l :: b) k r (by rw [e]; rfl) hk
  · rintro ⟨h1, h2⟩ b k r e hk
    cases b with
    | nil =>
      obtain ⟨rfl, rfl⟩ : l = k ∧ ls = r := by simpa using e
      simp [unassigned, h1 hk]
    | cons x b =>
      obtain ⟨rfl, e'⟩ : l = x ∧ ls = b ++ k :: r := by simpa using e
      exact h2 b k r e' hk

/-- The general form: `size` unassigned literals came before. -/
theorem unassignedSize_aux {values : Nat → Int} {m : Nat} : ∀ (ls : List Nat) (size : Nat), size < m →
    ((∀ before k rest, ls = before ++ k :: rest → 0 < values k → m ≤ size + unassigned values before) →
      unassignedSize values m ls size = some (min m (size + unassigned values ls))) ∧
    ((¬ ∀ before k rest, ls = before ++ k :: rest → 0 < values k → m ≤ size + unassigned values before) →
      unassignedSize values m ls size = none)
  | [], size, h => ⟨fun _ => by
      rw [unassignedSize]; congr 1; simp only [unassigned, List.countP_nil]; omega,
      fun hn => absurd (fun b k r e _ => by simp at e) hn⟩
  | l :: ls, size, h => by
    rw [unassignedSize]
    by_cases hp : values l > 0
    · rw [if_pos hp]
      refine ⟨fun hc => ?_, fun _ => rfl⟩
      have := hc [] l ls rfl hp
      simp [unassigned] at this
      omega
    rw [if_neg hp]
    by_cases hz : values l = 0
    · have hu : ∀ b, unassigned values (l :: b) = unassigned values b + 1 := fun b => by
        simp [unassigned, hz]
      rw [if_pos ⟨hz, h⟩]
      by_cases he : size + 1 = m
      · rw [if_pos he]
        refine ⟨fun _ => ?_, fun hn => absurd (fun b k r e hk => ?_) hn⟩
        · rw [hu]; congr 1; omega
        · cases b with
          | nil =>
            obtain ⟨rfl, rfl⟩ : l = k ∧ ls = r := by simpa using e
            exact absurd hk hp
          | cons x b =>
            obtain ⟨rfl, -⟩ : l = x ∧ ls = b ++ k :: r := by simpa using e
            rw [hu]; omega
      · rw [if_neg he]
        obtain ⟨h1, h2⟩ := unassignedSize_aux (values := values) (m := m) ls (size + 1) (by omega)
        refine ⟨fun hc => ?_, fun hn => h2 fun hc => hn fun b k r e hk => ?_⟩
        · rw [h1 fun b k r e hk => ?_, hu]
          · congr 1; omega
          · have := hc (l :: b) k r (by rw [e]; rfl) hk
            rw [hu] at this; omega
        · cases b with
          | nil =>
            obtain ⟨rfl, rfl⟩ : l = k ∧ ls = r := by simpa using e
            exact absurd hk hp
          | cons x b =>
            obtain ⟨rfl, e'⟩ : l = x ∧ ls = b ++ k :: r := by simpa using e
            have := hc b k r e' hk
            rw [hu]; omega
    · have hu : ∀ b, unassigned values (l :: b) = unassigned values b := fun b => by
        simp [unassigned, hz]
      rw [if_neg (fun x => hz x.1)]
      obtain ⟨h1, h2⟩ := unassignedSize_aux (values := values) (m := m) ls size h
      refine ⟨fun hc => ?_, fun hn => h2 fun hc => hn fun b k r e hk => ?_⟩
      · rw [h1 fun b k r e hk => ?_, hu]
        have := hc (l :: b) k r (by rw [e]; rfl) hk
        rwa [hu] at this
      · cases b with
        | nil =>
          obtain ⟨rfl, rfl⟩ : l = k ∧ ls = r := by simpa using e
          exact absurd hk hp
        | cons x b =>
          obtain ⟨rfl, e'⟩ : l = x ∧ ls = b ++ k :: r := by simpa using e
          have := hc b k r e' hk
          rwa [hu]

theorem unassignedSize_spec {values : Nat → Int} {m : Nat} (hm : 0 < m) (ls : List Nat) :
    (Counts values m ls → unassignedSize values m ls 0 = some (min m (unassigned values ls))) ∧
    (¬ Counts values m ls → unassignedSize values m ls 0 = none) := by
  have := unassignedSize_aux (values := values) ls 0 hm
  simp only [Nat.zero_add] at this
  exact this

/-! ## Weights of literals -/

/-- What a list of additions adds to a literal. -/
def addsTo (us : List (Nat × α)) (l : Nat) : List α := (us.filter fun p => p.1 = l).map Prod.snd

theorem addsTo_append (us vs : List (Nat × α)) (l : Nat) :
    addsTo (us ++ vs) l = addsTo us l ++ addsTo vs l := by
  simp [addsTo, List.filter_append]

theorem addWeights_spec : ∀ (us : List (Nat × α)) (ws : List α), (∀ p ∈ us, p.1 < ws.length) →
    ∃ ws', addWeights o us ws = some ws' ∧ ws'.length = ws.length ∧
      ∀ l x, ws[l]? = some x → ws'[l]? = some ((addsTo us l).foldl o.add x)
  | [], ws, _ => ⟨ws, rfl, rfl, fun l x h => h⟩
  | (k, w) :: us, ws, h => by
    have hk : k < ws.length := h (k, w) List.mem_cons_self
    obtain ⟨ws', e, hl, hx⟩ := addWeights_spec us (ws.set k (o.add ws[k] w)) (fun p hp => by
      rw [List.length_set]; exact h p (List.mem_cons_of_mem _ hp))
    refine ⟨ws', ?_, by rw [hl, List.length_set], fun l x e' => ?_⟩
    · rw [addWeights, List.getElem?_eq_getElem hk]
      exact e
    · by_cases hkl : k = l
      · subst hkl
        rw [List.getElem?_eq_getElem hk] at e'
        cases e'
        rw [hx k (o.add ws[k] w) (by rw [List.getElem?_set_self hk])]
        simp [addsTo]
      · rw [hx l x (by rw [List.getElem?_set_ne hkl]; exact e')]
        simp [addsTo, hkl]

theorem addsTo_const (w : α) (l : Nat) : ∀ (ls : List Nat), ls.Nodup →
    addsTo (ls.map fun k => (k, w)) l = if l ∈ ls then [w] else []
  | [], _ => rfl
  | k :: ls, h => by
    obtain ⟨h1, h2⟩ := List.nodup_cons.1 h
    have ih := addsTo_const w l ls h2
    have hc : addsTo ((k :: ls).map fun k => (k, w)) l =
        (if k = l then [w] else []) ++ addsTo (ls.map fun k => (k, w)) l := by
      by_cases e : k = l <;> simp [addsTo, e]
    rw [hc, ih]
    by_cases e : k = l
    · subst e
      simp [h1]
    · simp [e, Ne.symm e]

/-- What is required of a clause: two literals without value unless it has a true one, no literal twice, and all
literals in range. -/
structure Fit (s : Solver) (c : Clause) : Prop where
  open_ : (∃ l ∈ c.lits, 0 < s.values l) ∨ 2 ≤ unassigned s.values c.lits
  nodup : c.lits.Nodup
  valid : ∀ l ∈ c.lits, l < 2 * s.vars

theorem halved_eq : ∀ n, halved o n = Nat.repeat o.half n o.one
  | 0 => rfl
  | n + 1 => congrArg o.half (halved_eq n)

theorem open_two {s : Solver} {c : Clause} {m : Nat} (hm : 2 ≤ m) (hf : Fit s c)
    (hc : Counts s.values m c.lits) : 2 ≤ unassigned s.values c.lits := by
  rcases hf.open_ with ⟨l, hl, hp⟩ | h
  · obtain ⟨a, b, e⟩ := List.append_of_mem hl
    have h1 := hc a l b e hp
    have h2 : unassigned s.values a ≤ unassigned s.values c.lits := by
      rw [e]; unfold unassigned; rw [List.countP_append]; omega
    omega
  · exact h

open Classical in
theorem arenaWeights_spec (o : Ops α) {s : Solver} {m : Nat} (hm : 2 ≤ m) : ∀ (cs : List Clause),
    (∀ c ∈ cs, c.garbage = false → Fit s c) →
    ∃ us, arenaWeights o m s cs = some us ∧ (∀ p ∈ us, p.1 < 2 * s.vars) ∧
      ∀ l, addsTo us l = (cs.filter fun c =>
        c.garbage = false ∧ c.redundant = false ∧ Counts s.values m c.lits ∧ l ∈ c.lits).map (share o s m)
  | [], _ => ⟨[], rfl, fun p hp => absurd hp List.not_mem_nil, fun l => rfl⟩
  | c :: cs, h => by
    obtain ⟨us, e, hu, hl⟩ := arenaWeights_spec o hm cs fun c' hc => h c' (List.mem_cons_of_mem _ hc)
    have hskip : clauseWeights o m s c = some [] →
        ¬ (c.garbage = false ∧ c.redundant = false ∧ Counts s.values m c.lits) →
        ∃ us, arenaWeights o m s (c :: cs) = some us ∧ (∀ p ∈ us, p.1 < 2 * s.vars) ∧
        ∀ l, addsTo us l = ((c :: cs).filter fun c =>
          c.garbage = false ∧ c.redundant = false ∧ Counts s.values m c.lits ∧ l ∈ c.lits).map (share o s m) := by
      intro h1 h2
      refine ⟨us, by rw [arenaWeights, h1, e]; rfl, hu, fun l => ?_⟩
      rw [List.filter_cons, if_neg, hl]
      intro h3
      have h3 := of_decide_eq_true h3
      exact h2 ⟨h3.1, h3.2.1, h3.2.2.1⟩
    by_cases hr : c.redundant = true
    · exact hskip (by rw [clauseWeights, if_pos hr]) fun x => by rw [hr] at x; cases x.2.1
    by_cases hg : c.garbage = true
    · exact hskip (by rw [clauseWeights, if_neg hr, if_pos hg]) fun x => by rw [hg] at x; cases x.1
    obtain ⟨s1, s2⟩ := unassignedSize_spec (values := s.values) (m := m) (by omega) c.lits
    by_cases hc : Counts s.values m c.lits
    · have hg' : c.garbage = false := by simpa using hg
      have hr' : c.redundant = false := by simpa using hr
      have hf := h c List.mem_cons_self hg'
      have h2 := open_two hm hf hc
      have he : clauseWeights o m s c = some (c.lits.map fun l => (l, share o s m c)) := by
        rw [clauseWeights, if_neg hr, if_neg hg, s1 hc]
        simp only [table]
        rw [if_pos ⟨by omega, by omega⟩, halved_eq]
        rfl
      refine ⟨(c.lits.map fun l => (l, share o s m c)) ++ us, by rw [arenaWeights, he, e]; rfl, ?_, fun l => ?_⟩
      · intro p hp
        rcases List.mem_append.1 hp with hp | hp
        · obtain ⟨l, hl, rfl⟩ := List.mem_map.1 hp
          exact hf.valid l hl
        · exact hu p hp
      · rw [addsTo_append, addsTo_const _ _ _ hf.nodup, hl, List.filter_cons]
        by_cases hm : l ∈ c.lits
        · rw [if_pos hm, if_pos (decide_eq_true ⟨hg', hr', hc, hm⟩)]; rfl
        · rw [if_neg hm, if_neg (fun x => hm (of_decide_eq_true x).2.2.2)]; rfl
    · exact hskip (by rw [clauseWeights, if_neg hr, if_neg hg, s2 hc]) fun x => hc x.2.2

theorem watchWeights_eq {active : Nat → Bool} {w : α} {lit : Nat} (ha : active (lit / 2) = true) :
    ∀ (ws : List Watch), watchWeights active w lit ws =
      (ws.filterMap fun
        | .binary b => if lit ≤ b ∧ active (lit / 2) ∧ active (b / 2) then some (lit, b) else none
        | .large _ _ => none).flatMap fun p => [(p.1, w), (p.2, w)]
  | [] => rfl
  | .large _ _ :: ws => by
    rw [watchWeights, watchWeights_eq ha ws]; rfl
  | .binary b :: ws => by
    rw [watchWeights, watchWeights_eq ha ws, List.filterMap_cons]
    by_cases h1 : b < lit
    · rw [if_pos h1]
      simp only
      rw [if_neg (fun x => by omega)]
    rw [if_neg h1]
    by_cases h2 : active (b / 2) = false
    · rw [if_pos h2]
      simp only
      rw [if_neg (fun x => by rw [h2] at x; exact absurd x.2.2 (by simp))]
    rw [if_neg h2]
    simp only
    rw [if_pos ⟨by omega, ha, by simpa using h2⟩]
    rfl

theorem binaryWeights_eq {active : Nat → Bool} {w : α} {s : Solver} :
    binaryWeights active w s = (binary s active).flatMap fun p => [(p.1, w), (p.2, w)] := by
  unfold binaryWeights binary
  rw [List.flatMap_assoc]
  congr 1
  funext a
  by_cases ha : active (a / 2) = true
  · rw [if_pos ha, watchWeights_eq ha]; rfl
  · rw [if_neg ha]
    symm
    rw [List.flatMap_eq_nil_iff]
    intro p hp
    obtain ⟨x, -, hx⟩ := List.mem_filterMap.1 hp
    cases x with
    | large _ _ => cases hx
    | binary b =>
      simp only at hx
      rw [if_neg (fun y => ha y.2.1)] at hx
      cases hx

theorem addsTo_pairs (w : α) (l : Nat) : ∀ (ps : List (Nat × Nat)),
    addsTo (ps.flatMap fun p => [(p.1, w), (p.2, w)]) l =
      List.replicate (ps.countP (fun p => p.1 = l) + ps.countP (fun p => p.2 = l)) w
  | [] => rfl
  | (a, b) :: ps => by
    have ih := addsTo_pairs w l ps
    rw [List.flatMap_cons, addsTo_append, ih, List.countP_cons, List.countP_cons]
    have h1 : addsTo [(a, w), (b, w)] l =
        List.replicate ((if a = l then 1 else 0) + (if b = l then 1 else 0)) w := by
      by_cases e1 : a = l <;> by_cases e2 : b = l <;> simp [addsTo, e1, e2, List.replicate]
    simp only at h1 ⊢
    rw [h1, List.replicate_append_replicate]
    congr 1
    simp only [decide_eq_true_eq]
    omega

theorem literalWeights_spec {s : Solver} {m : Nat} {active : Nat → Bool} (hm : 2 ≤ m)
    (hf : ∀ c ∈ s.arena, c.garbage = false → Fit s c)
    (hb : ∀ a b, Watch.binary b ∈ s.watches a → b < 2 * s.vars) :
    ∃ ws, literalWeights o m s active = some ws ∧ ws.length = 2 * s.vars ∧
      ∀ l, l < 2 * s.vars → ws[l]? = some (litWeight o s m active l) := by
  obtain ⟨us, e, hu, hl⟩ := arenaWeights_spec o hm s.arena hf
  obtain ⟨ws, e', hlen, hw⟩ := addWeights_spec (o := o)
    (us ++ binaryWeights active o.one s) (List.replicate (2 * s.vars) o.zero) (fun p hp => by
      rw [List.length_replicate]
      rcases List.mem_append.1 hp with hp | hp
      · exact hu p hp
      · rw [binaryWeights_eq] at hp
        obtain ⟨⟨a, b⟩, hab, hp⟩ := List.mem_flatMap.1 hp
        unfold binary at hab
        obtain ⟨a', ha', hab⟩ := List.mem_flatMap.1 hab
        obtain ⟨x, hx, hxe⟩ := List.mem_filterMap.1 hab
        cases x with
        | large _ _ => cases hxe
        | binary b' =>
          simp only at hxe
          split at hxe
          · cases hxe
            have h1 := List.mem_range.1 ha'
            have h2 := hb _ _ hx
            rcases List.mem_cons.1 hp with rfl | hp
            · exact h1
            · rcases List.mem_cons.1 hp with rfl | hp
              · exact h2
              · cases hp
          · cases hxe)
  refine ⟨ws, ?_, by rw [hlen, List.length_replicate], fun l hl' => ?_⟩
  · rw [literalWeights, e]
    simp only [Option.bind_some, table]
    rw [if_pos ⟨Nat.le_refl _, hm⟩]
    exact e'
  · rw [hw l o.zero (by rw [List.getElem?_replicate, if_pos hl']), addsTo_append, hl, binaryWeights_eq,
      addsTo_pairs]
    rfl

/-! ## Weights of variables -/

theorem variableWeights_spec (o : Ops α) {active : Nat → Bool} {n : Nat} {orig : Nat → α} : ∀ (k i : Nat) (ws : List α),
    i + k = n → ws.length = 2 * n → (∀ l, i ≤ l → l < 2 * n → ws[l]? = some (orig l)) →
    ∃ ws', variableWeights o active (List.range' i k) ws = some ws' ∧ ws'.length = 2 * n ∧
      (∀ v, v < i → ws'[v]? = ws[v]?) ∧
      ∀ v, i ≤ v → v < n → active v = true →
        ws'[v]? = some (combine o (orig (2 * v)) (orig (2 * v + 1)))
  | 0, i, ws, hk, hl, _ => ⟨ws, rfl, hl, fun _ _ => rfl, fun v h1 h2 => by omega⟩
  | k + 1, i, ws, hk, hl, ho => by
    rw [List.range'_succ, variableWeights]
    by_cases ha : active i = false
    · rw [if_pos ha]
      obtain ⟨ws', e, h1, h2, h3⟩ := variableWeights_spec o (n := n) (orig := orig) k (i + 1) ws (by omega) hl
        (fun l h1 h2 => ho l (by omega) h2)
      refine ⟨ws', e, h1, fun v hv => h2 v (by omega), fun v hv hn hav => h3 v ?_ hn hav⟩
      rcases Nat.eq_or_lt_of_le hv with e' | h
      · subst e'; rw [ha] at hav; cases hav
      · exact h
    · rw [if_neg ha, ho (2 * i) (by omega) (by omega), ho (2 * i + 1) (by omega) (by omega)]
      simp only
      obtain ⟨ws', e, h1, h2, h3⟩ := variableWeights_spec o (n := n) (orig := orig) k (i + 1)
        (ws.set i (combine o (orig (2 * i)) (orig (2 * i + 1)))) (by omega) (by rw [List.length_set, hl])
        (fun l h1 h2 => by rw [List.getElem?_set_ne (by omega)]; exact ho l (by omega) h2)
      refine ⟨ws', e, h1, fun v hv => ?_, fun v hv hn hav => ?_⟩
      · rw [h2 v (by omega), List.getElem?_set_ne (by omega)]
      · rcases Nat.eq_or_lt_of_le hv with e' | h
        · subst e'
          rw [h2 _ (by omega), List.getElem?_set_self (by omega)]
        · exact h3 v h hn hav

theorem computeWeights_spec {s : Solver} {m : Nat} {active : Nat → Bool} (hm : 2 ≤ m)
    (hf : ∀ c ∈ s.arena, c.garbage = false → Fit s c)
    (hb : ∀ a b, Watch.binary b ∈ s.watches a → b < 2 * s.vars) :
    ∃ ws, computeWeights o m s active = some ws ∧ ws.length = 2 * s.vars ∧
      ∀ v, v < s.vars → active v = true →
        ws[v]? = some (weight o s m active v) := by
  obtain ⟨ws, e, hl, hw⟩ := literalWeights_spec (o := o) (active := active) hm hf hb
  obtain ⟨ws', e', hl', -, hv⟩ := variableWeights_spec o (active := active) (n := s.vars) (orig := litWeight o s m active)
    s.vars 0 ws (by omega) hl (fun l _ h => hw l h)
  refine ⟨ws', ?_, hl', fun v h ha => hv v (Nat.zero_le _) h ha⟩
  rw [computeWeights, e, List.range_eq_range']
  exact e'

/-! ## Focused mode -/

theorem lessFocused_iff {w : Nat → α} {stamp : Nat → Nat} {a b : Nat} :
    lessFocused w stamp a b = true ↔ w a < w b ∨ w a = w b ∧ stamp a < stamp b := by
  unfold lessFocused
  rcases lt_trichotomy (w a) (w b) with h | h | h
  · simp [h]
  · simp [h]
  · simp [h, not_lt_of_gt h, ne_of_gt h]

theorem lessFocused_weak (w : Nat → α) (stamp : Nat → Nat) : StrictWeak (lessFocused w stamp) where
  irrefl a := by simp [lessFocused]
  trans a b c h1 h2 := by
    rw [lessFocused_iff] at *
    rcases h1 with h1 | ⟨h1, h1'⟩ <;> rcases h2 with h2 | ⟨h2, h2'⟩
    · exact .inl (lt_trans h1 h2)
    · exact .inl (h2 ▸ h1)
    · exact .inl (h1 ▸ h2)
    · exact .inr ⟨h1.trans h2, by omega⟩
  between a b c h := by
    simp only [lessFocused_iff] at *
    rcases lt_trichotomy (w a) (w b) with h1 | h1 | h1
    · exact .inl (.inl h1)
    · rcases h with h | ⟨h, h'⟩
      · exact .inr (.inl (h1 ▸ h))
      · by_cases hs : stamp a < stamp b
        · exact .inl (.inr ⟨h1, hs⟩)
        · exact .inr (.inr ⟨h1.symm.trans h, by omega⟩)
    · rcases h with h | ⟨h, -⟩
      · exact .inr (.inl (lt_trans h1 h))
      · exact .inr (.inl (h ▸ h1))

theorem lessStable_iff {w sc : Nat → α} {a b : Nat} :
    lessStable w sc a b = true ↔ w a < w b ∨ w a = w b ∧ (sc a < sc b ∨ sc a = sc b ∧ b < a) := by
  unfold lessStable
  rcases lt_trichotomy (w a) (w b) with h | h | h
  · simp [h]
  · rcases lt_trichotomy (sc a) (sc b) with h' | h' | h'
    · simp [h, h']
    · simp [h, h']
    · simp [h, h', not_lt_of_gt h', ne_of_gt h']
  · simp [h, not_lt_of_gt h, ne_of_gt h]

theorem lessStable_weak (w sc : Nat → α) : StrictWeak (lessStable w sc) where
  irrefl a := by simp [lessStable]
  trans a b c h1 h2 := by
    rw [lessStable_iff] at *
    rcases h1 with h1 | ⟨h1, h1' | ⟨h1', h1''⟩⟩ <;> rcases h2 with h2 | ⟨h2, h2' | ⟨h2', h2''⟩⟩
    · exact .inl (lt_trans h1 h2)
    · exact .inl (h2 ▸ h1)
    · exact .inl (h2 ▸ h1)
    · exact .inl (h1 ▸ h2)
    · exact .inr ⟨h1.trans h2, .inl (lt_trans h1' h2')⟩
    · exact .inr ⟨h1.trans h2, .inl (h2' ▸ h1')⟩
    · exact .inl (h1 ▸ h2)
    · exact .inr ⟨h1.trans h2, .inl (h1' ▸ h2')⟩
    · exact .inr ⟨h1.trans h2, .inr ⟨h1'.trans h2', by omega⟩⟩
  between a b c h := by
    simp only [lessStable_iff] at *
    rcases lt_trichotomy (w a) (w b) with h1 | h1 | h1
    · exact .inl (.inl h1)
    · rcases h with h | ⟨h, h'⟩
      · exact .inr (.inl (h1 ▸ h))
      · have hbc : w b = w c := h1.symm.trans h
        rcases lt_trichotomy (sc a) (sc b) with h2 | h2 | h2
        · exact .inl (.inr ⟨h1, .inl h2⟩)
        · rcases h' with h' | ⟨h', h''⟩
          · exact .inr (.inr ⟨hbc, .inl (h2 ▸ h')⟩)
          · by_cases hab : b < a
            · exact .inl (.inr ⟨h1, .inr ⟨h2, hab⟩⟩)
            · exact .inr (.inr ⟨hbc, .inr ⟨h2.symm.trans h', by omega⟩⟩)
        · rcases h' with h' | ⟨h', -⟩
          · exact .inr (.inr ⟨hbc, .inl (lt_trans h2 h')⟩)
          · exact .inr (.inr ⟨hbc, .inl (h' ▸ h2)⟩)
    · rcases h with h | ⟨h, -⟩
      · exact .inr (.inl (lt_trans h1 h))
      · exact .inr (.inl (h ▸ h1))

/-- Moving variables to the front one after the other puts them there in this order. -/
theorem moveAll_spec {zero : α} : ∀ (vs : List Nat) {d : State α} {l : List Nat}, DInv zero d l → vs.Nodup →
    (∀ v ∈ vs, d.active v = true) →
    d.stable = false →
    ∃ d', moveAll vs d = some d' ∧ Calls zero true [] d d' ∧
      DInv zero d' (l.filter (fun v => !vs.contains v) ++ vs) ∧
      d'.active = d.active ∧ d'.assigned = d.assigned ∧ d'.stable = d.stable ∧ d'.heap = d.heap
  | [], d, l, h, _, _, _ => ⟨d, rfl, .nil d, by
      have : l.filter (fun v => !([] : List Nat).contains v) = l := List.filter_eq_self.2 fun _ _ => rfl
      rw [this, List.append_nil]; exact h, rfl, rfl, rfl, rfl⟩
  | v :: vs, d, l, h, hn, ha, hst => by
    obtain ⟨hv, hn⟩ := List.nodup_cons.1 hn
    obtain ⟨d1, l1, e1, i1, a1, s1, rfl⟩ := Verif.Model.Decide.moveToFront_spec h (ha v List.mem_cons_self)
    have hframe : d1.stable = d.stable ∧ d1.heap = d.heap := by
      unfold State.moveToFront at e1
      obtain ⟨q, -, rfl⟩ := Option.map_eq_some_iff.1 e1
      exact ⟨rfl, rfl⟩
    obtain ⟨d2, e2, k2, i2, a2, s2, t2, p2⟩ := moveAll_spec vs i1 hn (fun x hx => by
      rw [a1]; exact ha x (List.mem_cons_of_mem _ hx)) (hframe.1.trans hst)
    refine ⟨d2, by rw [moveAll, e1]; exact e2,
      .bump (op := .moveToFront v) rfl trivial ⟨ha v List.mem_cons_self, hst⟩ e1 k2, ?_, a2.trans a1, s2.trans s1, t2.trans hframe.1, p2.trans hframe.2⟩
    have hnd := h.queue.holds.nodup
    rw [List.filter_append] at i2
    have h1 : ([v].filter fun x => !vs.contains x) = [v] := by simp [hv]
    rw [h1, hnd.erase_eq_filter, List.filter_filter, List.append_assoc] at i2
    have h2 : (l.filter fun x => !(v :: vs).contains x) =
        l.filter fun x => (!vs.contains x) && (x != v) := by
      congr 1
      funext x
      by_cases e : x = v <;> simp [e]
    rw [h2]
    exact i2

theorem pairwise_ne {β γ : Type} {f : β → γ} : ∀ {l : List β}, l.Pairwise (fun a b => f a ≠ f b) →
    ∀ {a b : β}, a ∈ l → b ∈ l → a ≠ b → f a ≠ f b
  | x :: l, h, a, b, ha, hb, hab => by
    obtain ⟨h1, h2⟩ := List.pairwise_cons.1 h
    rcases List.mem_cons.1 ha with rfl | ha'
    · rcases List.mem_cons.1 hb with rfl | hb'
      · exact absurd rfl hab
      · exact h1 b hb'
    · rcases List.mem_cons.1 hb with rfl | hb'
      · exact (h1 a ha').symm
      · exact pairwise_ne h2 ha' hb' hab

theorem focused_spec {zero : α} {d : State α} {l : List Nat} (h : DInv zero d l) (hst : d.stable = false)
    (w : Nat → α) : ∃ d' l', focused w d = some d' ∧ Calls zero true [] d d' ∧ DInv zero d' l' ∧ l'.Perm l ∧
      l'.Pairwise (fun a b => w a < w b ∨ w a = w b ∧ d.queue.stampOf a < d.queue.stampOf b) ∧
      d'.active = d.active ∧ d'.assigned = d.assigned ∧ d'.stable = d.stable ∧ d'.heap = d.heap := by
  obtain ⟨vs, e, hp, ho⟩ := Verif.Proofs.Sort.sortStack_spec (lessFocused_weak w d.queue.stampOf)
    ((List.range d.queue.vars).filter d.active)
  have hmem : ∀ v, v ∈ vs ↔ d.active v = true := fun v => by
    rw [hp.mem_iff, List.mem_filter, List.mem_range]
    exact ⟨fun x => x.2, fun x => ⟨h.lt x, x⟩⟩
  have hn : vs.Nodup := hp.nodup_iff.2 (List.nodup_range.filter _)
  obtain ⟨d', e', k', i', a', s', t', p'⟩ := moveAll_spec vs h hn (fun v hv => (hmem v).1 hv) hst
  have hnil : l.filter (fun v => !vs.contains v) = [] := by
    rw [List.filter_eq_nil_iff]
    intro v hv
    have := (hmem v).2 ((h.mem v).1 hv)
    simp [this]
  rw [hnil, List.nil_append] at i'
  have hperm : vs.Perm l := by
    refine (List.perm_ext_iff_of_nodup hn h.queue.holds.nodup).2 fun v => ?_
    rw [hmem, h.mem]
  refine ⟨d', vs, by rw [focused, e]; exact e', k', i', hperm, ?_, a', s', t', p'⟩
  have hdiff : ∀ a ∈ vs, ∀ b ∈ vs, a ≠ b → d.queue.stampOf a ≠ d.queue.stampOf b := by
    intro a ha b hb hab
    have hinc := h.queue.stamps.incr
    have hl : l.Pairwise fun a b => d.queue.stampOf a ≠ d.queue.stampOf b :=
      hinc.imp fun h => by omega
    exact pairwise_ne hl (hperm.mem_iff.1 ha) (hperm.mem_iff.1 hb) hab
  refine List.Pairwise.imp_of_mem (R := fun a b => a ≠ b ∧ lessFocused w d.queue.stampOf b a = false) ?_ (List.pairwise_and_iff.2 ⟨hn, ho⟩)
  rintro a b ha hb ⟨hab, hlt⟩
  have hlt : ¬ (w b < w a ∨ w b = w a ∧ d.queue.stampOf b < d.queue.stampOf a) := by
    rw [← lessFocused_iff, hlt]; simp
  have := hdiff a ha b hb hab
  rcases lt_trichotomy (w a) (w b) with h1 | h1 | h1
  · exact .inl h1
  · refine .inr ⟨h1, ?_⟩
    by_contra hc
    exact hlt (.inr ⟨h1.symm, by omega⟩)
  · exact absurd (.inl h1) hlt

/-! ## Stable mode -/

theorem scoreAll_spec (w : Nat → α) : ∀ (vs : List Nat) {d : State α} {l : List Nat}, DInv o.zero d l → vs.Nodup →
    (∀ v ∈ vs, d.active v = true) →
    ∃ d', scoreAll o w vs d = some d' ∧ Calls o.zero true [] d d' ∧ DInv o.zero d' l ∧
      d'.active = d.active ∧ d'.assigned = d.assigned ∧ d'.stable = d.stable ∧ d'.queue = d.queue ∧
      (∀ v, v ∈ vs → d'.heap.getScore o.zero v = o.add (d.heap.getScore o.zero v) (w v)) ∧
      (∀ v, v ∉ vs → d'.heap.getScore o.zero v = d.heap.getScore o.zero v) ∧
      ∀ v, d'.heap.contains v = d.heap.contains v
  | [], d, l, h, _, _ => ⟨d, rfl, .nil d, h, rfl, rfl, rfl, rfl, fun v hv => absurd hv List.not_mem_nil, fun _ _ => rfl,
      fun _ => rfl⟩
  | v :: vs, d, l, h, hn, ha => by
    obtain ⟨hv, hn⟩ := List.nodup_cons.1 hn
    have hlt := h.lt (ha v List.mem_cons_self)
    have hsz := h.size
    obtain ⟨d1, e1, i1⟩ := Verif.Model.Decide.setScore_spec h hlt (o.add (d.heap.getScore o.zero v) (w v))
    obtain ⟨g, eg, -, -, gc, gs⟩ := Verif.Model.Heap.update_spec h.heap (idx := v) (by omega)
      (o.add (d.heap.getScore o.zero v) (w v))
    have hd1 : d1 = { d with heap := g } := by
      unfold State.setScore at e1
      rw [eg] at e1
      exact (Option.some.inj e1).symm
    obtain ⟨d2, e2, k2, i2, a2, s2, t2, q2, w2, n2, c2⟩ := scoreAll_spec w vs i1 hn (fun x hx => by
      rw [hd1]; exact ha x (List.mem_cons_of_mem _ hx))
    rw [hd1] at a2 s2 t2 q2 w2 n2 c2
    simp only at a2 s2 t2 q2 w2 n2 c2
    refine ⟨d2, by rw [scoreAll, e1]; exact e2, .bump (op := .setScore v _) rfl trivial hlt e1 k2, i2, a2, s2, t2, q2, fun x hx => ?_, fun x hx => ?_, fun x => ?_⟩
    · rcases List.mem_cons.1 hx with rfl | hx'
      · rw [n2 _ hv, gs, if_pos rfl]
      · rw [w2 x hx', gs, if_neg (by rintro rfl; exact hv hx')]
    · rw [n2 x (fun h => hx (List.mem_cons_of_mem _ h)), gs, if_neg (by rintro rfl; exact hx List.mem_cons_self)]
    · rw [c2, gc]

theorem stable_spec {d : State α} {l : List Nat} {f : α → α} (h : DInv o.zero d l)
    (hf : ∀ a b, a ≤ b → f a ≤ f b) (h0 : f o.zero = o.zero) (w : Nat → α) :
    ∃ d', stable o f w d = some d' ∧ Calls o.zero true [] d d' ∧ DInv o.zero d' l ∧
      d'.active = d.active ∧ d'.assigned = d.assigned ∧ d'.stable = d.stable ∧ d'.queue = d.queue ∧
      (∀ v, d'.heap.getScore o.zero v =
        if d.active v then o.add (f (d.heap.getScore o.zero v)) (w v) else f (d.heap.getScore o.zero v)) ∧
      ∀ v, d'.heap.contains v = d.heap.contains v := by
  have hr := Verif.Model.Decide.rescale_spec h hf h0
  obtain ⟨-, -, rc, rs⟩ := Verif.Model.Heap.rescale_spec h.heap hf h0
  obtain ⟨vs, e, hp, ho⟩ := Verif.Proofs.Sort.sortStack_spec
    (lessStable_weak w ((d.rescale f).heap.getScore o.zero))
    ((List.range (d.rescale f).queue.vars).filter (d.rescale f).active)
  have hmem : ∀ v, v ∈ vs ↔ d.active v = true := fun v => by
    rw [hp.mem_iff, List.mem_filter, List.mem_range]
    exact ⟨fun x => x.2, fun x => ⟨h.lt x, x⟩⟩
  have hn : vs.Nodup := hp.nodup_iff.2 (List.nodup_range.filter _)
  obtain ⟨d', e', k', i', a', s', t', q', w', n', c'⟩ := scoreAll_spec (o := o) w vs.reverse hr
    ((List.reverse_perm vs).nodup_iff.2 hn) (fun v hv => (hmem v).1 (List.mem_reverse.1 hv))
  refine ⟨d', ?_, .bump (op := .rescale f) rfl trivial ⟨hf, h0⟩ rfl k', i', a', s', t', q', fun v => ?_, fun v => (c' v).trans (rc v)⟩
  · unfold stable
    simp only
    rw [e]
    exact e'
  · by_cases hv : d.active v = true
    · rw [if_pos hv, w' v (List.mem_reverse.2 ((hmem v).2 hv))]
      exact congrArg (fun x => o.add x (w v)) (rs v)
    · rw [if_neg hv, n' v (fun x => hv ((hmem v).1 (List.mem_reverse.1 x)))]
      exact rs v

end Verif.Proofs.Reorder
