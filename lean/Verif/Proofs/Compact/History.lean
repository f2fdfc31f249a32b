import Verif.Proofs.Compact.External

/-! # Compaction: which tables there are -/

namespace Verif.Compact

open Verif.Spec
open Verif.Core (upd)

/-- Change of the parts of the tables which do not matter for the numbers of variables. -/
def SameNumbers (t t' : Tables) : Prop :=
  t'.vars = t.vars ∧ t'.size = t.size ∧ t'.imports = t.imports ∧ t'.exports = t.exports ∧
  t'.units = t.units ∧ t'.flags = t.flags ∧ t'.values = t.values ∧
  ∀ v, (t'.assigned v).level = (t.assigned v).level

/-- Tables reached from the empty ones. -/
inductive Run : Tables → Prop
  | empty : Run Tables.empty
  /-- a variable which is not imported and not eliminated is imported -/
  | importVar {t : Tables} {e : Nat} : Run t → 0 < e →
      ¬ (e < t.size ∧ ((t.imports e).imported = true ∨ (t.imports e).eliminated = true)) → Run (t.importVar e)
  | activate {t : Tables} {v : Nat} : Run t → v < t.vars → (t.flags v).fixed = false →
      (t.flags v).eliminated = false → Run (t.activate v)
  /-- assignment on a decision level -/
  | assign {t : Tables} {l level : Nat} : Run t → Active t l → t.values l = 0 → 0 < level →
      Run (t.assign l level)
  | unassign {t : Tables} {l : Nat} : Run t → Active t l → Run (t.unassign l)
  | fix {t : Tables} {l : Nat} : Run t → Active t l → t.values l = 0 → Run (t.fix l)
  | eliminate {t : Tables} {v pos : Nat} : Run t → Active t (2 * v) → t.values (2 * v) = 0 →
      Run (t.eliminate v pos)
  | other {t t' : Tables} : Run t → SameNumbers t t' → Run t'
  | compact {t t' : Tables} : Run t → Anchored t → Watched t → sparseCollect t = some t' → Run t'

theorem neg_ne (l : Nat) : neg l ≠ l := by unfold neg; split <;> omega

theorem div_two_eq {l m : Nat} (h : l / 2 = m / 2) : l = m ∨ l = neg m := by
  unfold neg; split <;> omega

theorem consistent_empty : Consistent Tables.empty :=
  ⟨fun v hv => absurd hv (Nat.not_lt_zero _), fun v hv => absurd hv (Nat.not_lt_zero _),
    fun v _ hv => absurd hv (Nat.not_lt_zero _), fun e he => absurd he (Nat.not_lt_zero _),
    fun u hu => (by cases hu), fun v hv => absurd hv (Nat.not_lt_zero _),
    fun v => ⟨fun h => (by cases h), fun h => (by cases h)⟩, fun l => Or.inr (Or.inl rfl), fun l => rfl,
    fun v hv => absurd hv (Nat.not_lt_zero _), fun v hv => absurd hv (Nat.not_lt_zero _)⟩

variable {t : Tables}

theorem consistent_import (ht : Consistent t) {e : Nat} (he : 0 < e)
    (hn : ¬ (e < t.size ∧ ((t.imports e).imported = true ∨ (t.imports e).eliminated = true))) :
    Consistent (t.importVar e) := by
  have hex : ∀ v, v < t.vars → (t.exports v).natAbs ≠ e := by
    intro v hv h
    apply hn
    rw [← h]
    exact ⟨(ht.exports v hv).2, Or.inl (ht.imports v hv).1⟩
  have hun : ∀ u ∈ t.units, u.natAbs ≠ e := by
    intro u hu h
    apply hn
    rw [← h]
    exact ⟨(ht.unit u hu).2.1, Or.inl (ht.unit u hu).2.2.1⟩
  have e1 : ∀ v, v < t.vars → (t.importVar e).exports v = t.exports v := by
    intro v hv
    show upd t.exports t.vars _ v = _
    rw [upd_apply, if_neg (by omega)]
  have e2 : (t.importVar e).exports t.vars = e := by
    show upd t.exports t.vars _ t.vars = _
    rw [upd_apply, if_pos rfl]
  have i1 : (t.importVar e).imports e = ⟨2 * t.vars, true, false⟩ := if_pos rfl
  have i2 : ∀ i, i ≠ e → i < t.size → (t.importVar e).imports i = t.imports i := by
    intro i h1 h2
    show (if i = e then _ else if i < t.size then _ else _) = _
    rw [if_neg h1, if_pos h2]
  have i3 : ∀ i, i ≠ e → ¬ i < t.size → (t.importVar e).imports i = ⟨0, false, false⟩ := by
    intro i h1 h2
    show (if i = e then _ else if i < t.size then _ else _) = _
    rw [if_neg h1, if_neg h2]
  have f1 : ∀ v, v ≠ t.vars → (t.importVar e).flags v = t.flags v := by
    intro v hv
    show upd t.flags t.vars _ v = _
    rw [upd_apply, if_neg hv]
  have f2 : (t.importVar e).flags t.vars = ⟨false, false, false⟩ := by
    show upd t.flags t.vars _ t.vars = _
    rw [upd_apply, if_pos rfl]
  have v1 : ∀ l, l / 2 ≠ t.vars → (t.importVar e).values l = t.values l := fun l hl => if_neg hl
  have v2 : ∀ l, l / 2 = t.vars → (t.importVar e).values l = 0 := fun l hl => if_pos hl
  have a1 : ∀ v, v ≠ t.vars → (t.importVar e).assigned v = t.assigned v := by
    intro v hv
    show upd t.assigned t.vars _ v = _
    rw [upd_apply, if_neg hv]
  have hs : (t.importVar e).size = max t.size (e + 1) := rfl
  have hvars : (t.importVar e).vars = t.vars + 1 := rfl
  refine ⟨fun v hv => ?_, fun v hv => ?_, fun v w hv hw h => ?_, fun x hx h1 h2 => ?_, fun u hu => ?_,
    fun v hv hf => ?_, fun v => ?_, fun l => ?_, fun l => ?_, fun v hv h1 h2 => ?_, fun v hv h1 h2 => ?_⟩
  · rw [hs]
    by_cases h : v = t.vars
    · rw [h, e2]; omega
    · have := ht.exports v (by omega)
      rw [e1 v (by omega)]; omega
  · by_cases h : v = t.vars
    · rw [h, e2, f2]
      simp only [Int.natAbs_natCast]
      rw [i1]
      exact ⟨rfl, rfl, fun _ => rfl⟩
    · have hv : v < t.vars := by omega
      rw [e1 v hv, i2 _ (hex v hv) (ht.exports v hv).2, f1 v h]
      exact ht.imports v hv
  · by_cases h1 : v = t.vars
    · by_cases h2 : w = t.vars
      · rw [h1, h2]
      · rw [h1, e2, e1 w (by omega)] at h
        exact absurd (by rw [← h]; simp) (hex w (by omega))
    · by_cases h2 : w = t.vars
      · rw [h2, e2, e1 v (by omega)] at h
        exact absurd (by rw [h]; simp) (hex v (by omega))
      · rw [e1 v (by omega), e1 w (by omega)] at h
        exact ht.inj v w (by omega) (by omega) h
  · by_cases hxe : x = e
    · left; exact ⟨t.vars, by omega, by rw [e2, hxe]⟩
    · by_cases hxs : x < t.size
      · rw [i2 x hxe hxs] at h1 h2
        rcases ht.back x hxs h1 h2 with ⟨v, hv, h⟩ | h
        · left; exact ⟨v, by omega, by rw [e1 v hv]; exact h⟩
        · right; exact h
      · rw [i3 x hxe hxs] at h1; cases h1
  · have hu : u ∈ t.units := hu
    have h := ht.unit u hu
    rw [i2 _ (hun u hu) h.2.1, hs]
    refine ⟨h.1, by omega, h.2.2.1, h.2.2.2.1, by rw [hvars]; omega, ?_, ?_⟩
    · rw [f1 _ (by omega)]; exact h.2.2.2.2.2.1
    · rw [v1 _ (by omega)]; exact h.2.2.2.2.2.2
  · by_cases h : v = t.vars
    · rw [h, f2] at hf; cases hf
    · have hv : v < t.vars := by omega
      rw [f1 v h] at hf
      rw [v1 _ (by omega), a1 v h, e1 v hv]
      exact ht.fixed v hv hf
  · by_cases h : v = t.vars
    · rw [h, f2]; simp
    · rw [f1 v h]; exact ht.flags v
  · by_cases h : l / 2 = t.vars
    · rw [v2 l h]; simp
    · rw [v1 l h]; exact ht.dom l
  · have hd := neg_div l
    by_cases h : l / 2 = t.vars
    · rw [v2 l h, v2 _ (by omega)]; rfl
    · rw [v1 l h, v1 _ (by omega)]; exact ht.anti l
  · by_cases h : v = t.vars
    · exact v2 _ (by omega)
    · rw [f1 v h] at h1 h2
      rw [v1 _ (by omega)]
      exact ht.unassigned v (by omega) h1 h2
  · by_cases h : v = t.vars
    · rw [h, f2] at h1; cases h1
    · rw [f1 v h] at h1
      rw [v1 _ (by omega)] at h2
      rw [a1 v h]
      exact ht.active v (by omega) h1 h2

theorem consistent_activate (ht : Consistent t) {v : Nat} (hv : v < t.vars) (hf : (t.flags v).fixed = false)
    (he : (t.flags v).eliminated = false) : Consistent (t.activate v) := by
  have f0 : ∀ w, (t.activate v).flags w = if w = v then { t.flags v with active := true } else t.flags w :=
    fun w => rfl
  have f1 : ∀ w, ((t.activate v).flags w).fixed = (t.flags w).fixed := by
    intro w; rw [f0]; split
    · rename_i e; rw [e]
    · rfl
  have f2 : ∀ w, ((t.activate v).flags w).eliminated = (t.flags w).eliminated := by
    intro w; rw [f0]; split
    · rename_i e; rw [e]
    · rfl
  refine ⟨ht.exports, fun w hw => ?_, ht.inj, ht.back, fun u hu => ?_, fun w hw h => ?_, fun w => ?_,
    ht.dom, ht.anti, fun w hw h1 h2 => ?_, fun w hw h1 h2 => ?_⟩
  · rw [f2]; exact ht.imports w hw
  · have := ht.unit u hu
    refine ⟨this.1, this.2.1, this.2.2.1, this.2.2.2.1, this.2.2.2.2.1, ?_, this.2.2.2.2.2.2⟩
    rw [f1]; exact this.2.2.2.2.2.1
  · rw [f1] at h; exact ht.fixed w hw h
  · rw [f1, f2]
    refine ⟨fun h => ?_, (ht.flags w).2⟩
    rw [f0] at h
    split at h
    · rename_i e; rw [e]; exact ⟨hf, he⟩
    · exact (ht.flags w).1 h
  · rw [f1] at h2
    rw [f0] at h1
    split at h1
    · cases h1
    · exact ht.unassigned w hw h1 h2
  · rw [f0] at h1
    split at h1
    · rename_i e
      subst e
      by_cases ha : (t.flags w).active = true
      · exact ht.active w hw ha h2
      · exact absurd (ht.unassigned w hw (by simpa using ha) hf) h2
    · exact ht.active w hw h1 h2

theorem assign_values (l level m : Nat) : (t.assign l level).values m =
    if m = l then 1 else if m = neg l then -1 else t.values m := by
  show upd (upd t.values l 1) (neg l) (-1) m = _
  rw [upd_apply, upd_apply]
  by_cases h : m = l
  · rw [if_pos h, if_pos h, if_neg (by rw [h]; exact Ne.symm (neg_ne l))]
  · rw [if_neg h, if_neg h]

theorem assign_dom (ht : Consistent t) (l level m : Nat) : (t.assign l level).values m = 1 ∨
    (t.assign l level).values m = 0 ∨ (t.assign l level).values m = -1 := by
  rw [assign_values]
  split
  · exact Or.inl rfl
  · split
    · exact Or.inr (Or.inr rfl)
    · exact ht.dom m

theorem neg_eq_iff {l m : Nat} : neg m = l ↔ m = neg l := by
  constructor
  · rintro rfl; rw [neg_neg]
  · rintro rfl; rw [neg_neg]

theorem assign_anti (ht : Consistent t) (l level m : Nat) :
    (t.assign l level).values (neg m) = - (t.assign l level).values m := by
  rw [assign_values, assign_values]
  by_cases h1 : m = l
  · rw [h1, if_neg (neg_ne l), if_pos rfl, if_pos rfl]
  · by_cases h2 : m = neg l
    · rw [if_pos (neg_eq_iff.2 h2), if_neg h1, if_pos h2]; rfl
    · rw [if_neg (fun h => h2 (neg_eq_iff.1 h)), if_neg, if_neg h1, if_neg h2, ht.anti]
      intro h
      have : m = l := by rw [← neg_neg m, h, neg_neg]
      exact h1 this

theorem assign_other {l level m : Nat} (h : m / 2 ≠ l / 2) : (t.assign l level).values m = t.values m := by
  rw [assign_values, if_neg (fun e => h (by rw [e])), if_neg (fun e => h (by rw [e, neg_div]))]

theorem assign_level (l level w : Nat) : ((t.assign l level).assigned w).level =
    if w = l / 2 then level else (t.assigned w).level := by
  show (upd t.assigned (l / 2) _ w).level = _
  rw [upd_apply]
  split <;> rfl

theorem consistent_assign (ht : Consistent t) {l level : Nat} (ha : Active t l)
    (hl : 0 < level) : Consistent (t.assign l level) := by
  have hfix := ((ht.flags _).1 ha.2).1
  refine ⟨ht.exports, ht.imports, ht.inj, ht.back, fun u hu => ?_, fun w hw h => ?_, ht.flags, assign_dom ht l level,
    assign_anti ht l level, fun w hw h1 h2 => ?_, fun w hw h1 h2 => ?_⟩
  · have := ht.unit u hu
    refine ⟨this.1, this.2.1, this.2.2.1, this.2.2.2.1, this.2.2.2.2.1, this.2.2.2.2.2.1, ?_⟩
    show (t.assign l level).values (t.imports u.natAbs).lit = _
    rw [assign_other]
    · exact this.2.2.2.2.2.2
    · intro e
      have h := this.2.2.2.2.2.1
      rw [e, hfix] at h; cases h
  · have h : (t.flags w).fixed = true := h
    have hne : w ≠ l / 2 := by intro e; rw [e, hfix] at h; cases h
    have := ht.fixed w hw h
    rw [assign_other (by omega), assign_level, if_neg hne]
    exact this
  · have h1 : (t.flags w).active = false := h1
    have hne : w ≠ l / 2 := by intro e; rw [e, ha.2] at h1; cases h1
    rw [assign_other (by omega)]
    exact ht.unassigned w hw h1 h2
  · rw [assign_level]
    split
    · omega
    · rename_i hne
      rw [assign_other (by omega)] at h2
      exact ht.active w hw h1 h2

theorem consistent_unassign (ht : Consistent t) {l : Nat} (ha : Active t l) : Consistent (t.unassign l) := by
  have hfix := ((ht.flags _).1 ha.2).1
  have hv : ∀ m, (t.unassign l).values m = if m / 2 = l / 2 then 0 else t.values m := by
    intro m
    show upd (upd t.values l 0) (neg l) 0 m = _
    rw [upd_apply, upd_apply]
    by_cases h : m / 2 = l / 2
    · rw [if_pos h]
      rcases div_two_eq h with e | e
      · rw [if_pos e]; split <;> rfl
      · rw [if_pos e]
    · rw [if_neg h, if_neg (fun e => h (by rw [e, neg_div])), if_neg (fun e => h (by rw [e]))]
  refine ⟨ht.exports, ht.imports, ht.inj, ht.back, fun u hu => ?_, fun w hw h => ?_, ht.flags, fun m => ?_,
    fun m => ?_, fun w hw h1 h2 => ?_, fun w hw h1 h2 => ?_⟩
  · have := ht.unit u hu
    refine ⟨this.1, this.2.1, this.2.2.1, this.2.2.2.1, this.2.2.2.2.1, this.2.2.2.2.2.1, ?_⟩
    show (t.unassign l).values (t.imports u.natAbs).lit = _
    rw [hv, if_neg]
    · exact this.2.2.2.2.2.2
    · intro e
      have h := this.2.2.2.2.2.1
      rw [e, hfix] at h; cases h
  · have h : (t.flags w).fixed = true := h
    have hne : w ≠ l / 2 := by intro e; rw [e, hfix] at h; cases h
    have := ht.fixed w hw h
    rw [hv, if_neg (by omega)]
    exact this
  · rw [hv]
    split
    · simp
    · exact ht.dom m
  · rw [hv, hv, neg_div]
    split
    · rfl
    · exact ht.anti m
  · rw [hv]
    split
    · rfl
    · exact ht.unassigned w hw h1 h2
  · rw [hv] at h2
    split at h2
    · exact absurd rfl h2
    · exact ht.active w hw h1 h2

theorem consistent_fix (ht : Consistent t) {l : Nat} (ha : Active t l) : Consistent (t.fix l) := by
  have hfix := ((ht.flags _).1 ha.2).1
  have hel := ((ht.flags _).1 ha.2).2
  have f0 : ∀ w, (t.fix l).flags w = if w = l / 2 then ⟨false, (t.flags (l / 2)).eliminated, true⟩ else t.flags w :=
    fun w => rfl
  have f2 : ∀ w, ((t.fix l).flags w).eliminated = (t.flags w).eliminated := by
    intro w; rw [f0]; split
    · rename_i e; rw [e]
    · rfl
  have hval : (t.fix l).values = (t.assign l 0).values := rfl
  have hun : (t.fix l).units = t.units ++ [ext t l] := rfl
  have hext := ext_eq ht ha.1
  have hpos := (ht.exports _ ha.1).1
  have hsame := assign_values (t := t) l 0
  refine ⟨ht.exports, fun w hw => ?_, ht.inj, fun e he h1 h2 => ?_, fun u hu => ?_, fun w hw h => ?_, fun w => ?_,
    assign_dom ht l 0, assign_anti ht l 0, fun w hw h1 h2 => ?_, fun w hw h1 h2 => ?_⟩
  · rw [f2]; exact ht.imports w hw
  · rw [hun]
    rcases ht.back e he h1 h2 with h | h | h
    · exact Or.inl h
    · exact Or.inr (Or.inl (List.mem_append.2 (Or.inl h)))
    · exact Or.inr (Or.inr (List.mem_append.2 (Or.inl h)))
  · rw [hun] at hu
    rcases List.mem_append.1 hu with hu | hu
    · have := ht.unit u hu
      have hne : (t.imports u.natAbs).lit / 2 ≠ l / 2 := by
        intro e
        have h := this.2.2.2.2.2.1
        rw [e, hfix] at h; cases h
      refine ⟨this.1, this.2.1, this.2.2.1, this.2.2.2.1, this.2.2.2.2.1, ?_, ?_⟩
      · show ((t.fix l).flags ((t.imports u.natAbs).lit / 2)).fixed = true
        rw [f0, if_neg hne]; exact this.2.2.2.2.2.1
      · show (t.assign l 0).values (t.imports u.natAbs).lit = _
        rw [assign_other hne]; exact this.2.2.2.2.2.2
    · rw [List.mem_singleton.1 hu]
      have hi := ht.imports _ ha.1
      have hab := ext_natAbs ht ha.1
      have hlit := hi.2.2 hel
      refine ⟨?_, ?_, ?_, ?_, ?_, ?_, ?_⟩
      · rw [hext]; split <;> omega
      · rw [hab]; exact (ht.exports _ ha.1).2
      · rw [hab]; exact hi.1
      · rw [hab]; exact hi.2.1.trans hel
      · show (t.imports (ext t l).natAbs).lit / 2 < _
        rw [hab, hlit]
        have := ha.1
        show _ < t.vars
        omega
      · show ((t.fix l).flags ((t.imports (ext t l).natAbs).lit / 2)).fixed = true
        rw [hab, hlit, f0, if_pos (by omega)]
      · show (t.assign l 0).values (t.imports (ext t l).natAbs).lit = _
        rw [hab, hlit, hsame, hext]
        rcases Nat.mod_two_eq_zero_or_one l with e | e
        · rw [if_pos (by omega), if_neg]
          rw [if_neg (by omega)]; omega
        · have hn : neg l = 2 * (l / 2) := by unfold neg; rw [if_neg (by omega)]; omega
          rw [if_neg (by omega), if_pos hn.symm, if_pos]
          rw [if_pos e]; omega
  · rw [f0] at h
    by_cases hw2 : w = l / 2
    · refine ⟨?_, ?_, ?_⟩
      · rw [hval, hsame]
        split
        · omega
        · rename_i h3
          rw [if_pos]
          · omega
          · rcases div_two_eq (l := 2 * w) (m := l) (by omega) with h4 | h4
            · exact absurd h4 h3
            · exact h4
      · show ((t.assign l 0).assigned w).level = 0
        rw [assign_level, if_pos hw2]
      · rw [hun]
        refine List.mem_append.2 (Or.inr (List.mem_singleton.2 ?_))
        rw [hval, hsame, hext, ← hw2]
        rcases Nat.mod_two_eq_zero_or_one l with e | e
        · rw [if_pos (show 2 * w = l by omega), if_neg (by omega), if_neg (by omega)]; rfl
        · have hn : neg l = 2 * (l / 2) := by unfold neg; rw [if_neg (by omega)]; omega
          rw [if_neg (show ¬ 2 * w = l by omega), if_pos (show 2 * w = neg l by omega), if_pos (by omega),
            if_pos e]; rfl
    · rw [if_neg hw2] at h
      have := ht.fixed w hw h
      refine ⟨?_, ?_, ?_⟩
      · rw [hval, assign_other (by omega)]; exact this.1
      · show ((t.assign l 0).assigned w).level = 0
        rw [assign_level, if_neg hw2]; exact this.2.1
      · rw [hun, hval, assign_other (by omega)]
        exact List.mem_append.2 (Or.inl this.2.2)
  · rw [f2]
    rw [f0]
    split
    · rename_i e
      exact ⟨fun h => (by cases h), fun _ => (by rw [e]; exact hel)⟩
    · exact ht.flags w
  · rw [f0] at h1 h2
    split at h2
    · cases h2
    · rename_i hne
      rw [if_neg hne] at h1
      rw [hval, assign_other (by omega)]
      exact ht.unassigned w hw h1 h2
  · rw [f0] at h1
    split at h1
    · cases h1
    · rename_i hne
      rw [hval, assign_other (by omega)] at h2
      show ((t.assign l 0).assigned w).level ≠ 0
      rw [assign_level, if_neg hne]
      exact ht.active w hw h1 h2

theorem consistent_eliminate (ht : Consistent t) {v pos : Nat} (ha : Active t (2 * v)) (h0 : t.values (2 * v) = 0) :
    Consistent (t.eliminate v pos) := by
  have hd : 2 * v / 2 = v := by omega
  unfold Active at ha
  rw [hd] at ha
  have hfix := ((ht.flags _).1 ha.2).1
  have hel := ((ht.flags _).1 ha.2).2
  have f0 : ∀ w, (t.eliminate v pos).flags w = if w = v then ⟨false, true, (t.flags v).fixed⟩ else t.flags w :=
    fun w => rfl
  have f1 : ∀ w, ((t.eliminate v pos).flags w).fixed = (t.flags w).fixed := by
    intro w; rw [f0]; split
    · rename_i e; rw [e]
    · rfl
  have i0 : ∀ e, (t.eliminate v pos).imports e = if e = (t.exports v).natAbs then
      { t.imports (t.exports v).natAbs with lit := pos, eliminated := true } else t.imports e := fun e => rfl
  have hne : ∀ w, w < t.vars → w ≠ v → (t.exports w).natAbs ≠ (t.exports v).natAbs := by
    intro w hw hwv e
    have h1 := (ht.exports w hw).1
    have h2 := (ht.exports v ha.1).1
    exact hwv (ht.inj w v hw ha.1 (by omega))
  refine ⟨ht.exports, fun w hw => ?_, ht.inj, fun e he h1 h2 => ?_, fun u hu => ?_, fun w hw h => ?_, fun w => ?_,
    ht.dom, ht.anti, fun w hw h1 h2 => ?_, fun w hw h1 h2 => ?_⟩
  · by_cases hwv : w = v
    · subst hwv
      show ((t.eliminate w pos).imports (t.exports w).natAbs).imported = true ∧
        ((t.eliminate w pos).imports (t.exports w).natAbs).eliminated = _ ∧
        (_ → ((t.eliminate w pos).imports (t.exports w).natAbs).lit = _)
      rw [i0, f0, if_pos rfl, if_pos rfl]
      exact ⟨(ht.imports w hw).1, rfl, fun h => by cases h⟩
    · show ((t.eliminate v pos).imports (t.exports w).natAbs).imported = true ∧
        ((t.eliminate v pos).imports (t.exports w).natAbs).eliminated = _ ∧
        (_ → ((t.eliminate v pos).imports (t.exports w).natAbs).lit = _)
      rw [i0, f0, if_neg hwv, if_neg (hne w hw hwv)]
      exact ht.imports w hw
  · rw [i0] at h1 h2
    split at h2
    · cases h2
    · rename_i hn
      rw [if_neg hn] at h1
      exact ht.back e he h1 h2
  · have := ht.unit u hu
    have hn : u.natAbs ≠ (t.exports v).natAbs := by
      intro e
      have := unit_fixed ht ha.1 hu e
      rw [hfix] at this; cases this
    rw [i0, if_neg hn, f1]
    exact this
  · rw [f1] at h; exact ht.fixed w hw h
  · rw [f1, f0]
    split
    · rename_i e
      refine ⟨fun h => (by cases h), fun h => ?_⟩
      rw [e, hfix] at h; cases h
    · exact ht.flags w
  · rw [f1] at h2
    rw [f0] at h1
    split at h1
    · rename_i e; rw [e]; exact h0
    · exact ht.unassigned w hw h1 h2
  · rw [f0] at h1
    split at h1
    · cases h1
    · exact ht.active w hw h1 h2

theorem consistent_same {t' : Tables} (ht : Consistent t) (h : SameNumbers t t') : Consistent t' := by
  obtain ⟨h1, h2, h3, h4, h5, h6, h7, h8⟩ := h
  refine ⟨?_, ?_, ?_, ?_, ?_, fun v hv hf => ?_, ?_, ?_, ?_, ?_, fun v hv ha hn => ?_⟩
  · rw [h1, h2, h4]; exact ht.exports
  · rw [h1, h3, h4, h6]; exact ht.imports
  · rw [h1, h4]; exact ht.inj
  · rw [h1, h2, h3, h4, h5]; exact ht.back
  · rw [h1, h2, h3, h5, h6, h7]; exact ht.unit
  · rw [h1] at hv
    rw [h6] at hf
    rw [h4, h5, h7, h8]; exact ht.fixed v hv hf
  · rw [h6]; exact ht.flags
  · rw [h7]; exact ht.dom
  · rw [h7]; exact ht.anti
  · rw [h1, h6, h7]; exact ht.unassigned
  · rw [h1] at hv
    rw [h6] at ha
    rw [h7] at hn
    rw [h8]; exact ht.active v hv ha hn

theorem Run.consistent {t : Tables} (h : Run t) : Consistent t := by
  induction h with
  | empty => exact consistent_empty
  | importVar _ he hn ih => exact consistent_import ih he hn
  | activate _ hv hf he ih => exact consistent_activate ih hv hf he
  | assign _ ha _ hl ih => exact consistent_assign ih ha hl
  | unassign _ ha ih => exact consistent_unassign ih ha
  | fix _ ha _ ih => exact consistent_fix ih ha
  | eliminate _ ha h0 ih => exact consistent_eliminate ih ha h0
  | other _ hs ih => exact consistent_same ih hs
  | compact _ hl hw hs ih =>
    obtain ⟨t', h1, _, h3, _⟩ := sparseCollect_ok ih hl hw
    rw [hs] at h1
    cases h1
    exact h3

end Verif.Compact
