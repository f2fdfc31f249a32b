import Verif.Proofs.Compact.Queue

/-! # Compaction: the new tables -/

namespace Verif.Compact

open Verif.Spec
open Verif.Core (upd)
open Verif.Model.Queue

/-! ## Units -/

theorem compactUnits_ok (m : Nat) : ∀ (units : List Int) (imports : Nat → Import),
    (∀ u ∈ units, ∀ w ∈ units, u.natAbs = w.natAbs → u = w) →
    (∀ e, (∀ u ∈ units, u.natAbs ≠ e) → compactUnits m units imports e = imports e) ∧
    ∀ u ∈ units, compactUnits m units imports u.natAbs =
      { imports u.natAbs with lit := if u < 0 then neg m else m }
  | [], imports, _ => ⟨fun _ _ => rfl, fun u hu => by cases hu⟩
  | u :: units, imports, h => by
    have ih := compactUnits_ok m units
      (upd imports u.natAbs { imports u.natAbs with lit := if u < 0 then neg m else m })
      fun a ha b hb => h a (by simp [ha]) b (by simp [hb])
    have hun : compactUnits m (u :: units) imports = compactUnits m units
      (upd imports u.natAbs { imports u.natAbs with lit := if u < 0 then neg m else m }) := rfl
    rw [hun]
    refine ⟨fun e he => ?_, fun w hw => ?_⟩
    · rw [ih.1 e fun x hx => he x (by simp [hx]), upd_apply, if_neg (Ne.symm (he u (by simp)))]
    · by_cases hwu : w ∈ units
      · rw [ih.2 w hwu, upd_apply]
        split
        · rename_i e; rw [e]
        · rfl
      · have hw : w = u := by
          rcases List.mem_cons.1 hw with e | e
          · exact e
          · exact absurd e hwu
        subst hw
        rw [ih.1 w.natAbs fun x hx e => hwu (by rw [← h x (by simp [hx]) w (by simp) e]; exact hx),
          upd_apply, if_pos rfl]

theorem units_sign {t : Tables} (ht : Consistent t) : ∀ u ∈ t.units, ∀ w ∈ t.units,
    u.natAbs = w.natAbs → u = w := by
  intro u hu w hw e
  have h1 := (ht.unit u hu).2.2.2.2.2.2
  have h2 := (ht.unit w hw).2.2.2.2.2.2
  rw [e, h2] at h1
  split at h1 <;> split at h1 <;> omega

section
variable {t : Tables} {r : Renumber}

theorem unit_fixed (ht : Consistent t) {v : Nat} (hv : v < t.vars) {u : Int} (hu : u ∈ t.units)
    (he : u.natAbs = (t.exports v).natAbs) : (t.flags v).fixed = true := by
  have h := ht.unit u hu
  have h2 := ht.imports v hv
  rw [he] at h
  have hel : (t.flags v).eliminated = false := by rw [← h2.2.1]; exact h.2.2.2.1
  rw [h2.2.2 hel, show 2 * v / 2 = v by omega] at h
  exact h.2.2.2.2.2.1

theorem final_other (ht : Consistent t) {e : Nat} (he : ∀ u ∈ t.units, u.natAbs ≠ e) :
    finalImports t r e = r.imports e := by
  unfold finalImports
  cases r.mfixed with
  | none => rfl
  | some m => exact (compactUnits_ok _ t.units r.imports (units_sign ht)).1 e he

theorem unit_imports (ht : Consistent t) (h : RInv t t.vars r) {u : Int} (hu : u ∈ t.units) (x : Nat) :
    { r.imports u.natAbs with lit := x } = { t.imports u.natAbs with lit := x } := by
  have hun := ht.unit u hu
  by_cases hv : ∃ v, v < t.vars ∧ (t.exports v).natAbs = u.natAbs
  · obtain ⟨v, hv, he⟩ := hv
    have hfix := unit_fixed ht hv hu he.symm
    have hd := h.done v hv
    unfold newImport at hd
    have hel : (t.flags v).eliminated = false := (ht.flags v).2 hfix
    rw [if_neg (by simp [hel]), if_pos hfix, he] at hd
    split at hd
    · rw [hd]
    · obtain ⟨f, _, hf⟩ := First.exists hfix
      rw [hd f hf]
  · rw [h.other u.natAbs fun v hv' e => hv ⟨v, hv', e⟩]

theorem final_unit (ht : Consistent t) (h : RInv t t.vars r) {u : Int} (hu : u ∈ t.units) :
    ∃ f, f < t.vars ∧ First t f ∧ finalImports t r u.natAbs =
      { t.imports u.natAbs with lit := if u < 0 then neg (trueLit t f) else trueLit t f } := by
  have hun := ht.unit u hu
  unfold finalImports
  cases hm : r.mfixed with
  | none =>
    have := h.none hm _ hun.2.2.2.2.1
    rw [hun.2.2.2.2.2.1] at this; cases this
  | some m =>
    obtain ⟨f, h1, h2, h3⟩ := h.some m hm
    refine ⟨f, h1, h2, ?_⟩
    subst h3
    simp only
    rw [(compactUnits_ok _ t.units r.imports (units_sign ht)).2 u hu, unit_imports ht h hu]

theorem final_kept (ht : Consistent t) (h : RInv t t.vars r) {v : Nat} (hv : v < t.vars)
    (hk : kept t v = true) : finalImports t r (t.exports v).natAbs =
      { t.imports (t.exports v).natAbs with lit := 2 * rank t v } := by
  have hel : (t.flags v).eliminated = false := by
    rcases kept_iff.1 hk with hc | hc
    · exact ((ht.flags v).1 hc).2
    · exact (ht.flags v).2 hc.1
  by_cases hu : ∃ u ∈ t.units, u.natAbs = (t.exports v).natAbs
  · obtain ⟨u, hu, he⟩ := hu
    have hfix := unit_fixed ht hv hu he
    have hf : First t v := by
      rcases kept_iff.1 hk with hc | hc
      · rw [((ht.flags v).1 hc).1] at hfix; cases hfix
      · exact hc
    obtain ⟨f, h1, h2, h3⟩ := final_unit ht h hu
    have hfv := h2.unique hf
    subst hfv
    rw [he] at h3
    rw [h3]
    congr 1
    have hv3 := (ht.unit u hu).2.2.2.2.2.2
    rw [he, (ht.imports f hv).2.2 hel] at hv3
    unfold trueLit
    by_cases hs : u < 0
    · rw [if_pos hs] at hv3
      rw [if_pos hs, if_pos (by omega), neg_neg]
    · rw [if_neg hs] at hv3
      rw [if_neg hs, if_neg (by omega)]
  · rw [final_other ht fun u hu' e => hu ⟨u, hu', e⟩]
    have hd := h.done v hv
    unfold newImport at hd
    rw [if_neg (by simp [hel]), if_pos hk] at hd
    exact hd

theorem final_eliminated (ht : Consistent t) (h : RInv t t.vars r) {v : Nat} (hv : v < t.vars)
    (he : (t.flags v).eliminated = true) :
    finalImports t r (t.exports v).natAbs = t.imports (t.exports v).natAbs := by
  rw [final_other ht fun u hu e => by
    have := unit_fixed ht hv hu e
    have := (ht.flags v).2 this
    rw [he] at this; cases this]
  have hd := h.done v hv
  unfold newImport at hd
  rw [if_pos he] at hd
  exact hd

theorem final_inactive (ht : Consistent t) (h : RInv t t.vars r) {v : Nat} (hv : v < t.vars)
    (ha : (t.flags v).active = false) (hf : (t.flags v).fixed = false)
    (he : (t.flags v).eliminated = false) :
    finalImports t r (t.exports v).natAbs = { t.imports (t.exports v).natAbs with imported := false } := by
  rw [final_other ht fun u hu e => by
    have := unit_fixed ht hv hu e
    rw [hf] at this; cases this]
  have hd := h.done v hv
  unfold newImport at hd
  rw [if_neg (by simp [he]), if_neg, if_neg (by simp [hf])] at hd
  · exact hd
  · intro hk
    rcases kept_iff.1 hk with hc | hc
    · rw [ha] at hc; cases hc
    · have := hc.1; rw [hf] at this; cases this

theorem final_rest (ht : Consistent t) (h : RInv t t.vars r) {e : Nat}
    (hu : ∀ u ∈ t.units, u.natAbs ≠ e) (hv : ∀ v, v < t.vars → (t.exports v).natAbs ≠ e) :
    finalImports t r e = t.imports e := by
  rw [final_other ht hu, h.other e hv]

/-- Every external variable is of one of these kinds. -/
theorem classify (ht : Consistent t) (e : Nat) :
    (∃ u ∈ t.units, u.natAbs = e) ∨
    (∃ v, v < t.vars ∧ (t.exports v).natAbs = e ∧ (t.flags v).active = true) ∨
    (∃ v, v < t.vars ∧ (t.exports v).natAbs = e ∧ (t.flags v).eliminated = true) ∨
    (∃ v, v < t.vars ∧ (t.exports v).natAbs = e ∧ (t.flags v).active = false ∧
      (t.flags v).fixed = false ∧ (t.flags v).eliminated = false) ∨
    ((∀ u ∈ t.units, u.natAbs ≠ e) ∧ ∀ v, v < t.vars → (t.exports v).natAbs ≠ e) := by
  by_cases hu : ∃ u ∈ t.units, u.natAbs = e
  · exact Or.inl hu
  right
  by_cases hv : ∃ v, v < t.vars ∧ (t.exports v).natAbs = e
  · obtain ⟨v, hv, he⟩ := hv
    by_cases ha : (t.flags v).active = true
    · exact Or.inl ⟨v, hv, he, ha⟩
    right
    by_cases hel : (t.flags v).eliminated = true
    · exact Or.inl ⟨v, hv, he, hel⟩
    right; left
    refine ⟨v, hv, he, by simpa using ha, ?_, by simpa using hel⟩
    cases hf : (t.flags v).fixed with
    | false => rfl
    | true =>
      have h2 := (ht.fixed v hv hf).2.2
      exact absurd ⟨_, h2, by rw [← he]; split <;> omega⟩ hu
  · right; right; right
    exact ⟨fun u hu' e => hu ⟨u, hu', e⟩, fun v hv' e => hv ⟨v, hv', e⟩⟩

/-! ## Mapping -/

theorem mapIdx_ok (ht : Consistent t) (h : RInv t t.vars r) {v : Nat} (hv : v < t.vars) :
    mapIdx (finalImports t r) (clearExports t r) v = if kept t v then some (rank t v) else none := by
  unfold mapIdx
  simp only
  rw [clearExports_kept h hv]
  by_cases hk : kept t v = true
  · have hpos := (ht.exports v hv).1
    rw [if_pos hk, if_neg (by omega), final_kept ht h hv hk]
    simp only
    have hel : (t.imports (t.exports v).natAbs).eliminated = false := by
      rw [(ht.imports v hv).2.1]
      rcases kept_iff.1 hk with hc | hc
      · exact ((ht.flags v).1 hc).2
      · exact (ht.flags v).2 hc.1
    rw [hel, if_neg (by simp), if_pos hk, show 2 * rank t v / 2 = rank t v by omega]
  · rw [if_neg hk, if_pos rfl, if_neg hk]

theorem mapFinal_ok (ht : Consistent t) (h : RInv t t.vars r) {l : Nat} (hl : l / 2 < t.vars)
    (hk : kept t (l / 2) = true) :
    mapLiteral (finalImports t r) (clearExports t r) l = some (newLit t l) := by
  have hpos := (ht.exports _ hl).1
  have he := clearExports_kept h hl
  rw [if_pos hk] at he
  rw [mapLiteral_eq (by rw [he]; exact hpos), he, final_kept ht h hl hk]
  simp only
  have hel : (t.imports (t.exports (l / 2)).natAbs).eliminated = false := by
    rw [(ht.imports _ hl).2.1]
    rcases kept_iff.1 hk with hc | hc
    · exact ((ht.flags _).1 hc).2
    · exact (ht.flags _).2 hc.1
  rw [hel, if_neg (by simp)]
  unfold newLit
  rcases Nat.mod_two_eq_zero_or_one l with e | e
  · rw [if_neg (by omega), if_pos e]
  · rw [if_pos e, if_neg (by omega)]
    unfold neg
    rw [if_pos (by omega)]

theorem mapLit_ok (ht : Consistent t) (h : RInv t t.vars r) {v : Nat} (hv : v < t.vars) :
    mapLiteral r.imports (clearExports t r) (2 * v) = if kept t v then some (2 * rank t v) else none := by
  have e : 2 * v / 2 = v := by omega
  have he := clearExports_kept h hv
  by_cases hk : kept t v = true
  · rw [if_pos hk] at he ⊢
    rw [map_kept ht h (by rw [e]; exact hv) (by rw [e]; exact hk) (by rw [e]; exact he), newLit_even]
  · rw [if_neg hk] at he ⊢
    exact map_zero (by rw [e]; exact he)

theorem mapKept_ok (ht : Consistent t) (h : RInv t t.vars r) {l : Nat} (hl : l / 2 < t.vars)
    (hk : kept t (l / 2) = true) :
    mapLiteral r.imports (clearExports t r) l = some (newLit t l) := by
  have he := clearExports_kept h hl
  rw [if_pos hk] at he
  exact map_kept ht h hl hk he

theorem mapAll_ok {map : Nat → Option Nat} {μ : Nat → Nat} : ∀ {ls : List Nat}, (∀ l ∈ ls, map l = some (μ l)) →
    mapAll map ls = some (ls.map μ)
  | [], _ => rfl
  | l :: ls, h => by
    unfold mapAll
    rw [h l (by simp), mapAll_ok fun x hx => h x (by simp [hx])]
    rfl

theorem compactTrail_ok {map : Nat → Option Nat} {μ : Nat → Nat} : ∀ (trail : List Nat) (a : Nat → Assigned),
    (trail.map (· / 2)).Nodup → (∀ l ∈ trail, map l = some (μ l)) →
    (∀ l ∈ trail, (a (l / 2)).binary = true → map (a (l / 2)).reason = some (μ (a (l / 2)).reason)) →
    ∃ a', compactTrail map trail a = some (trail.map μ, a') ∧
      (∀ v, (∀ l ∈ trail, l / 2 ≠ v) → a' v = a v) ∧
      (∀ l ∈ trail, a' (l / 2) = if (a (l / 2)).binary = true then
        { a (l / 2) with reason := μ (a (l / 2)).reason } else a (l / 2))
  | [], a, _, _, _ => ⟨a, rfl, fun _ _ => rfl, fun l hl => by cases hl⟩
  | l :: trail, a, hd, h1, h2 => by
    rw [List.map_cons, List.nodup_cons] at hd
    have hne : ∀ x ∈ trail, x / 2 ≠ l / 2 := fun x hx e => hd.1 (List.mem_map.2 ⟨x, hx, e⟩)
    unfold compactTrail
    rw [h1 l (by simp)]
    simp only
    by_cases hb : (a (l / 2)).binary = true
    · rw [if_neg (by simp [hb]), h2 l (by simp) hb]
      simp only
      obtain ⟨a', h3, h4, h5⟩ := compactTrail_ok (map := map) (μ := μ) trail
        (upd a (l / 2) { a (l / 2) with reason := μ (a (l / 2)).reason }) hd.2
        (fun x hx => h1 x (by simp [hx])) (fun x hx => by
          rw [upd_apply, if_neg (hne x hx)]; exact h2 x (by simp [hx]))
      refine ⟨a', by rw [h3]; rfl, fun v hv => ?_, fun x hx => ?_⟩
      · rw [h4 v fun x hx => hv x (by simp [hx]), upd_apply, if_neg (Ne.symm (hv l (by simp)))]
      · rcases List.mem_cons.1 hx with rfl | hx
        · rw [h4 _ hne, upd_apply, if_pos rfl, if_pos hb]
        · rw [h5 x hx, upd_apply, if_neg (hne x hx)]
    · rw [if_pos (by simpa using hb)]
      obtain ⟨a', h3, h4, h5⟩ := compactTrail_ok (map := map) (μ := μ) trail a hd.2
        (fun x hx => h1 x (by simp [hx])) (fun x hx => h2 x (by simp [hx]))
      refine ⟨a', by rw [h3]; rfl, fun v hv => h4 v fun x hx => hv x (by simp [hx]), fun x hx => ?_⟩
      rcases List.mem_cons.1 hx with rfl | hx
      · rw [h4 _ hne, if_neg hb]
      · exact h5 x hx

theorem rank_range (t : Tables) : ∀ n, ((List.range n).filter (kept t)).map (rank t) = List.range (rank t n)
  | 0 => by simp [rank]
  | n + 1 => by
    rw [List.range_succ, List.filter_append, List.map_append, rank_range t n, rank_succ]
    by_cases hk : kept t n = true
    · simp [hk, List.range_succ]
    · simp [hk]

end

/-- The trail, frames, queue and schedule refer to active variables. -/
structure Anchored (t : Tables) : Prop where
  trail : ∀ l ∈ t.trail, l / 2 < t.vars ∧ (t.flags (l / 2)).active = true
  nodup : (t.trail.map (· / 2)).Nodup
  reason : ∀ l ∈ t.trail, (t.assigned (l / 2)).binary = true →
    (t.assigned (l / 2)).reason / 2 < t.vars ∧ (t.flags ((t.assigned (l / 2)).reason / 2)).active = true
  frames : ∀ l ∈ t.frames, l / 2 < t.vars ∧ (t.flags (l / 2)).active = true
  vars : t.queue.vars = t.vars
  queue : ∃ l, QInv t.queue l ∧ ∀ v ∈ l, (t.flags v).active = true
  sweep : ∀ v ∈ t.sweep, v < t.vars

/-- All which belongs to a variable is found at its new number. -/
structure Moved (t t' : Tables) : Prop where
  vars : t'.vars = rank t t.vars
  size : t'.size = t.size
  units : t'.units = t.units
  eliminated : t'.eliminated = t.eliminated
  exports : ∀ v, v < t.vars → kept t v = true → t'.exports (rank t v) = t.exports v
  flags : ∀ v, v < t.vars → kept t v = true → t'.flags (rank t v) = t.flags v
  best : ∀ v, v < t.vars → kept t v = true → t'.best (rank t v) = t.best v
  saved : ∀ v, v < t.vars → kept t v = true → t'.saved (rank t v) = t.saved v
  target : ∀ v, v < t.vars → kept t v = true → t'.target (rank t v) = t.target v
  values : ∀ l, l / 2 < t.vars → kept t (l / 2) = true → t'.values (newLit t l) = t.values l
  assigned : ∀ v, v < t.vars → kept t v = true → (t'.assigned (rank t v)).level = (t.assigned v).level ∧
    (t'.assigned (rank t v)).trail = (t.assigned v).trail ∧
    (t'.assigned (rank t v)).binary = (t.assigned v).binary
  reason : ∀ l ∈ t.trail, (t.assigned (l / 2)).binary = true →
    (t'.assigned (rank t (l / 2))).reason = newLit t (t.assigned (l / 2)).reason
  trail : t'.trail = t.trail.map (newLit t)
  frames : t'.frames = t.frames.map (newLit t)
  sweep : t'.sweep = (t.sweep.filter (kept t)).map (rank t)
  queueVars : t'.queue.vars = t'.vars
  queue : ∀ l, QInv t.queue l → (∀ v ∈ l, (t.flags v).active = true) →
    QInv t'.queue (l.map (rank t)) ∧
    ∀ s, t.queue.search = some s → ∃ w, t'.queue.search = some (rank t w) ∧ w ∈ l ∧
      t.queue.stampOf s ≤ t.queue.stampOf w
  bestAssigned : t'.vars < t.vars → t'.bestAssigned =
    ((List.range t.vars).filter fun v => (t.flags v).active && t.best v ≠ 0).length
  targetAssigned : t'.vars < t.vars → t'.targetAssigned =
    ((List.range t.vars).filter fun v => (t.flags v).active && t.target v ≠ 0).length

theorem newLit_of_even {t : Tables} {l : Nat} (h : l % 2 = 0) : newLit t l = 2 * rank t (l / 2) := if_pos h
theorem newLit_of_odd {t : Tables} {l : Nat} (h : l % 2 = 1) : newLit t l = 2 * rank t (l / 2) + 1 :=
  if_neg (by omega)

theorem kept_active {t : Tables} {v : Nat} (h : (t.flags v).active = true) : kept t v = true :=
  kept_iff.2 (Or.inl h)

/-- Counting variables with a property before and after. -/
theorem count_moved {t : Tables} {p q : Nat → Bool} (hp : ∀ v, v < t.vars → kept t v = true → q (rank t v) = p v)
    (hk : ∀ v, v < t.vars → p v = true → kept t v = true) :
    ((List.range (rank t t.vars)).filter q).length = ((List.range t.vars).filter p).length := by
  rw [← rank_range t t.vars, List.filter_map, List.length_map, List.filter_filter]
  congr 1
  apply List.filter_congr
  intro v hv
  have hv : v < t.vars := List.mem_range.1 hv
  by_cases h : kept t v = true
  · rw [h, Bool.and_true, Function.comp, hp v hv h]
  · cases hpv : p v with
    | true => exact absurd (hk v hv hpv) h
    | false => simp [h]

/-- The tables after `kissat_finalize_compacting`. -/
theorem finalize_moved {t : Tables} {r : Renumber} (ht : Consistent t) (hl : Anchored t)
    (h : RInv t t.vars r) :
    ∃ t', finalize t r = some t' ∧ Moved t t' ∧ t'.clauses = t.clauses ∧
      t'.bins = (if t'.vars = t.vars then t.bins else clearFrom (2 * t'.vars) [] t.bins) ∧
      (t'.vars = t.vars → t' = t) ∧ (t'.vars ≠ t.vars → t'.imports = finalImports t r ∧
        (∀ v, t'.vars ≤ v → t'.flags v = ⟨false, false, false⟩) ∧
        (∀ l, 2 * t'.vars ≤ l → t'.values l = 0)) := by
  by_cases hvars : r.vars = t.vars
  · have hrk := rank_eq_self (t := t) (n := t.vars) (by rw [← h.vars]; exact hvars)
    have himp : r.imports = t.imports := by
      funext e
      by_cases hv : ∃ v, v < t.vars ∧ (t.exports v).natAbs = e
      · obtain ⟨v, hv, he⟩ := hv
        obtain ⟨h1, h2⟩ := hrk v hv
        have hd := h.done v hv
        unfold newImport at hd
        rw [if_pos h1] at hd
        rw [← he]
        split at hd
        · exact hd
        · rename_i hel
          rw [hd, h2, ← (ht.imports v hv).2.2 (by simpa using hel)]
      · exact h.other e fun v hv' e' => hv ⟨v, hv', e'⟩
    have hexp : r.exports = t.exports := by
      funext v
      rw [h.exports v, if_neg]
      rintro ⟨h1, h2, h3, _⟩
      rcases kept_iff.1 (hrk v h1).1 with hc | hc
      · rw [h2] at hc; cases hc
      · have := hc.1; rw [h3] at this; cases this
    have hnl : ∀ l, l / 2 < t.vars → newLit t l = l := by
      intro l hl
      have := (hrk _ hl).2
      unfold newLit
      split <;> omega
    have hmap : ∀ (ls : List Nat), (∀ l ∈ ls, l / 2 < t.vars) → ls.map (newLit t) = ls := by
      intro ls hls
      conv => rhs; rw [← List.map_id ls]
      exact List.map_congr_left fun l hl => hnl l (hls l hl)
    have hmapr : ∀ (ls : List Nat), (∀ l ∈ ls, l < t.vars) → ls.map (rank t) = ls := by
      intro ls hls
      conv => rhs; rw [← List.map_id ls]
      exact List.map_congr_left fun l hl => (hrk l (hls l hl)).2
    refine ⟨t, ?_, ?_, rfl, by rw [if_pos rfl], fun _ => rfl, fun hc => absurd rfl hc⟩
    · unfold finalize
      rw [if_pos hvars, himp, hexp]
    · refine ⟨by rw [← h.vars, hvars], rfl, rfl, rfl, fun v hv hk => by rw [(hrk v hv).2],
        fun v hv hk => by rw [(hrk v hv).2], fun v hv hk => by rw [(hrk v hv).2],
        fun v hv hk => by rw [(hrk v hv).2], fun v hv hk => by rw [(hrk v hv).2],
        fun l hl hk => by rw [hnl l hl], fun v hv hk => by rw [(hrk v hv).2]; exact ⟨rfl, rfl, rfl⟩,
        fun l hlt hb => ?_, (hmap _ fun l h2 => (hl.trail l h2).1).symm,
        (hmap _ fun l h2 => (hl.frames l h2).1).symm, ?_, hl.vars, fun l hq ha => ?_,
        fun hc => absurd hc (Nat.lt_irrefl _), fun hc => absurd hc (Nat.lt_irrefl _)⟩
      · rw [(hrk _ (hl.trail l hlt).1).2, hnl _ (hl.reason l hlt hb).1]
      · have h1 : t.sweep.filter (kept t) = t.sweep := by
          rw [List.filter_eq_self]
          exact fun v hv => (hrk v (hl.sweep v hv)).1
        rw [h1, hmapr _ hl.sweep]
      · have hlv : ∀ v ∈ l, v < t.vars := fun v hv => by
          have := hq.holds.vars v hv; rw [hl.vars] at this; exact this
        rw [hmapr l hlv]
        refine ⟨hq, fun s hs => ⟨s, ?_, (hq.inside s hs).1, Nat.le_refl _⟩⟩
        rw [(hrk s (hlv s (hq.inside s hs).1)).2]; exact hs
  · -- maps
    have hm1 : ∀ v d, v < t.vars → mapIdx (finalImports t r) (clearExports t r) v = some d →
        kept t v = true ∧ d = rank t v := by
      intro v d hv hd
      rw [mapIdx_ok ht h hv] at hd
      split at hd
      · rename_i hk; cases hd; exact ⟨hk, rfl⟩
      · cases hd
    have hm2 : ∀ v d, v < t.vars →
        (mapLiteral r.imports (clearExports t r) (2 * v)).map (· / 2) = some d →
        kept t v = true ∧ d = rank t v := by
      intro v d hv hd
      rw [mapLit_ok ht h hv] at hd
      split at hd
      · rename_i hk
        simp at hd
        exact ⟨hk, hd.symm⟩
      · cases hd
    have hm2' : ∀ v, v < t.vars → kept t v = true →
        (mapLiteral r.imports (clearExports t r) (2 * v)).map (· / 2) = some (rank t v) := by
      intro v hv hk
      rw [mapLit_ok ht h hv, if_pos hk]
      simp
    have hm1' : ∀ v, v < t.vars → kept t v = true →
        mapIdx (finalImports t r) (clearExports t r) v = some (rank t v) := by
      intro v hv hk
      rw [mapIdx_ok ht h hv, if_pos hk]
    have hmove : ∀ {α : Type} (f : Nat → α) v, v < t.vars → kept t v = true →
        copyUp (fun v => (mapLiteral r.imports (clearExports t r) (2 * v)).map (· / 2)) t.vars f
          (rank t v) = f v := by
      intro α f v hv hk
      refine copyUp_ok f (fun v d hv hd => ?_) (fun v w d hv hw h1 h2 => ?_) v _ hv (hm2' v hv hk)
      · rw [(hm2 v d hv hd).2]; exact rank_le t v
      · obtain ⟨a1, a2⟩ := hm2 v d hv h1
        obtain ⟨b1, b2⟩ := hm2 w d hw h2
        exact rank_inj a1 b1 (by rw [← a2, ← b2])
    have hle1 : ∀ v d, v < t.vars → mapIdx (finalImports t r) (clearExports t r) v = some d → d ≤ v :=
      fun v d hv hd => by rw [(hm1 v d hv hd).2]; exact rank_le t v
    have hinj1 : ∀ v w d, v < t.vars → w < t.vars →
        mapIdx (finalImports t r) (clearExports t r) v = some d →
        mapIdx (finalImports t r) (clearExports t r) w = some d → v = w := by
      intro v w d hv hw h1 h2
      obtain ⟨a1, a2⟩ := hm1 v d hv h1
      obtain ⟨b1, b2⟩ := hm1 w d hw h2
      exact rank_inj a1 b1 (by rw [← a2, ← b2])
    have hlt : ∀ v, v < t.vars → kept t v = true → rank t v < r.vars := by
      intro v hv hk
      rw [h.vars]; exact rank_lt t hk hv
    have hrle : r.vars ≤ t.vars := by rw [h.vars]; exact rank_le t _
    obtain ⟨a', ha1, ha2, ha3⟩ := compactTrail_ok (map := mapLiteral r.imports (clearExports t r))
      (μ := newLit t) t.trail t.assigned hl.nodup
      (fun l hlt => mapKept_ok ht h (hl.trail l hlt).1 (kept_active (hl.trail l hlt).2))
      (fun l hlt hb => mapKept_ok ht h (hl.reason l hlt hb).1 (kept_active (hl.reason l hlt hb).2))
    have hframes := mapAll_ok (map := mapLiteral (finalImports t r) (clearExports t r)) (μ := newLit t)
      (ls := t.frames) (fun l hlt => mapFinal_ok ht h (hl.frames l hlt).1 (kept_active (hl.frames l hlt).2))
    have hqueue : ∀ l, QInv t.queue l → (∀ v ∈ l, (t.flags v).active = true) →
        ∃ q', compactQueue (mapIdx (finalImports t r) (clearExports t r)) r.vars t.queue = some q' ∧
          QInv q' (l.map (rank t)) ∧ q'.vars = r.vars ∧
          ∀ s, t.queue.search = some s → ∃ w, q'.search = some (rank t w) ∧ w ∈ l ∧
            t.queue.stampOf s ≤ t.queue.stampOf w := by
      intro l hq ha
      have hlv : ∀ v ∈ l, v < t.vars := fun v hv => by
        have := hq.holds.vars v hv; rw [hl.vars] at this; exact this
      obtain ⟨q', h1, h2, h3, h4, h5⟩ := compactQueue_ok (μ := rank t) (n := r.vars) hq
        (fun v hv => hm1' v (hlv v hv) (kept_active (ha v hv)))
        (by rw [hl.vars]; exact hle1) (by rw [hl.vars]; exact hinj1)
        (fun v hv => hlt v (hlv v hv) (kept_active (ha v hv))) (by rw [hl.vars]; exact hrle)
      refine ⟨q', h1, h2, h3, fun s hs => ?_⟩
      obtain ⟨w, w1, w2, w3, _⟩ := h5 s hs
      exact ⟨w, w1, w2, w3⟩
    obtain ⟨ql, hql, hqa⟩ := hl.queue
    obtain ⟨q', hq1, hq2, hq3, hq4⟩ := hqueue ql hql hqa
    unfold finalize
    rw [if_neg hvars]
    simp only
    rw [ha1]
    simp only
    rw [hq1, hframes]
    simp only
    have hflags : ∀ v, v < t.vars → kept t v = true → clearFrom r.vars ⟨false, false, false⟩
        (copyUp (fun v => (mapLiteral r.imports (clearExports t r) (2 * v)).map (· / 2)) t.vars t.flags)
        (rank t v) = t.flags v := by
      intro v hv hk
      unfold clearFrom
      rw [if_pos (hlt v hv hk), hmove _ v hv hk]
    refine ⟨_, rfl, ⟨h.vars, rfl, rfl, rfl, fun v hv hk => ?_, hflags,
      fun v hv hk => hmove t.best v hv hk, fun v hv hk => hmove t.saved v hv hk,
      fun v hv hk => hmove t.target v hv hk, fun l hl hk => ?_, fun v hv hk => ?_, fun l hlt' hb => ?_, rfl,
      rfl, ?_, hq3, fun l hq ha => ?_, fun _ => ?_, fun _ => ?_⟩, rfl, ?_, fun hc => absurd hc hvars,
      fun _ => ⟨rfl, fun v hv => ?_, fun l hl => ?_⟩⟩
    · show copyUp _ t.vars _ (rank t v) = _
      rw [copyUp_ok _ hle1 hinj1 v _ hv (hm1' v hv hk), clearExports_kept h hv, if_pos hk]
    · have key := copyValues_ok (map := mapLiteral r.imports (clearExports t r)) (n := t.vars) (μ := rank t)
        t.values (fun v x hv hx => by
          rw [mapLit_ok ht h hv] at hx
          split at hx
          · cases hx; exact ⟨rfl, rank_le t v⟩
          · cases hx) (fun v w hv hw h1 h2 e => by
          rw [mapLit_ok ht h hv] at h1
          rw [mapLit_ok ht h hw] at h2
          split at h1
          · split at h2
            · rename_i a b; exact rank_inj a b e
            · exact absurd rfl h2
          · exact absurd rfl h1) (l / 2) hl (by rw [mapLit_ok ht h hl, if_pos hk]; simp)
      show clearFrom (2 * r.vars) 0 _ (newLit t l) = _
      unfold clearFrom
      have := hlt _ hl hk
      have h3 := newLit_div t l
      rw [if_pos (by omega)]
      rcases Nat.mod_two_eq_zero_or_one l with e | e
      · rw [newLit_of_even e, key.1, show 2 * (l / 2) = l by omega]
      · rw [newLit_of_odd e, key.2, show 2 * (l / 2) + 1 = l by omega]
    · show Assigned.level (clearFrom r.vars _ _ (rank t v)) = _ ∧
        Assigned.trail (clearFrom r.vars _ _ (rank t v)) = _ ∧
        Assigned.binary (clearFrom r.vars _ _ (rank t v)) = _
      unfold clearFrom
      rw [if_pos (hlt v hv hk), hmove _ v hv hk]
      by_cases hx : ∃ l ∈ t.trail, l / 2 = v
      · obtain ⟨l, h1, h2⟩ := hx
        have := ha3 l h1
        rw [h2] at this
        rw [this]
        split <;> exact ⟨rfl, rfl, rfl⟩
      · rw [ha2 v fun l h1 h2 => hx ⟨l, h1, h2⟩]
        exact ⟨rfl, rfl, rfl⟩
    · show Assigned.reason (clearFrom r.vars _ _ (rank t (l / 2))) = _
      unfold clearFrom
      have hk := kept_active (hl.trail l hlt').2
      have hv := (hl.trail l hlt').1
      rw [if_pos (hlt _ hv hk), hmove _ _ hv hk, ha3 l hlt', if_pos hb]
    · show t.sweep.filterMap _ = _
      have : ∀ (ls : List Nat), (∀ v ∈ ls, v < t.vars) →
          ls.filterMap (mapIdx (finalImports t r) (clearExports t r)) =
            (ls.filter (kept t)).map (rank t) := by
        intro ls
        induction ls with
        | nil => intro _; rfl
        | cons v ls ih =>
          intro hv
          have ih := ih fun w hw => hv w (by simp [hw])
          have hmv := mapIdx_ok ht h (hv v (by simp))
          by_cases hk : kept t v = true
          · rw [if_pos hk] at hmv
            rw [List.filterMap_cons_some hmv, List.filter_cons_of_pos hk, List.map_cons, ih]
          · rw [if_neg hk] at hmv
            rw [List.filterMap_cons_none hmv, List.filter_cons_of_neg hk, ih]
      exact this _ hl.sweep
    · obtain ⟨q2, b1, b2, b3, b4⟩ := hqueue l hq ha
      rw [hq1] at b1
      cases b1
      exact ⟨b2, b4⟩
    · show List.length _ = _
      rw [h.vars]
      refine count_moved (fun v hv hk => ?_) (fun v hv hp => ?_)
      · rw [← h.vars, hflags v hv hk]; simp only [hmove t.best v hv hk]
      · rw [Bool.and_eq_true] at hp; exact kept_active hp.1
    · show List.length _ = _
      rw [h.vars]
      refine count_moved (fun v hv hk => ?_) (fun v hv hp => ?_)
      · rw [← h.vars, hflags v hv hk]; simp only [hmove t.target v hv hk]
      · rw [Bool.and_eq_true] at hp; exact kept_active hp.1
    · show clearFrom _ _ _ = if r.vars = t.vars then _ else _
      rw [if_neg hvars]
    · show clearFrom r.vars _ _ v = _
      unfold clearFrom
      rw [if_neg (show ¬ v < r.vars from Nat.not_lt.2 hv)]
    · show clearFrom (2 * r.vars) _ _ l = _
      unfold clearFrom
      rw [if_neg (show ¬ l < 2 * r.vars from Nat.not_lt.2 hl)]

end Verif.Compact
