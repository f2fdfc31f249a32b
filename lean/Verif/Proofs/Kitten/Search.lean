import Verif.Proofs.Kitten.Analyze
import Verif.Proofs.Lists

/-! # Search of kitten -/

namespace Verif.Kitten

open Verif.Spec
open Verif.Core (upd)

/-- A learned clause. -/
theorem learn_ok {k : Kitten} (h : Inv k) {lits resolved : List Nat} (hv : ∀ l ∈ lits, l / 2 < k.n)
    (hd : (lits.map (· / 2)).Nodup) (hb : ∀ r ∈ resolved, r < k.klauses.length)
    (hr : RUP (Fml k.klauses (· ∈ resolved)) lits) :
    Inv (k.newLearned lits resolved) ∧ (lits ≠ [] → Keeps k (k.newLearned lits resolved)) ∧
      Keeps { k with inconsistent := (k.newLearned lits resolved).inconsistent } (k.newLearned lits resolved) := by
  rw [newLearned_eq]
  have hs : Store { k with learned := true } :=
    ⟨h.store.valid, h.store.distinct, h.store.learned, fun hc => (by cases hc), h.store.empty, h.store.units,
      h.store.unit, h.store.inconsistent⟩
  have hadd := hs.add (c := ⟨true, false, 0, lits, if k.antecedents then resolved else []⟩) hv hd fun _ =>
    ⟨rfl, resolved, hb, fun ha => by
      have ha : k.antecedents = true := ha
      show resolved = if k.antecedents then resolved else []
      rw [if_pos ha], hr⟩
  have hw : Watches { k with learned := true } := ⟨h.watch.watched, h.watch.back, h.watch.once⟩
  have hwadd := hw.add (c := ⟨true, false, 0, lits, if k.antecedents then resolved else []⟩) hd
  generalize hcl : (⟨true, false, 0, lits, if k.antecedents then resolved else []⟩ : Klause) = c at hadd hwadd ⊢
  have hev : Evolve k.klauses (Kitten.add { k with learned := true } c).klauses := by
    rw [add_klauses]
    exact evolve_learned _ (by rw [← hcl]) (by rw [← hcl])
  have hinc : lits ≠ [] → (Kitten.add { k with learned := true } c).inconsistent = k.inconsistent := by
    intro hne
    have : c.lits = lits := by rw [← hcl]
    unfold Kitten.add
    rw [this]
    match lits, hne with
    | [_], _ => rfl
    | _ :: _ :: _, _ => rfl
  refine ⟨⟨⟨?_, ?_, hadd⟩, hwadd⟩, fun hne => ?_, ?_⟩
  · have hlev : ∀ l, (Kitten.add { k with learned := true } c).lev l = k.lev l := fun l => by
      unfold Kitten.lev; rw [add_vars]
    constructor <;> simp only [hlev, add_values, add_exports, add_unassigned, add_trail, add_level, add_propagated]
    · exact h.vals.dom
    · exact h.vals.anti
    · show ∀ l, k.values l ≠ 0 → l / 2 < (Kitten.add { k with learned := true } c).exports.length
      rw [add_exports]
      exact h.vals.valid
    · show _ = freeCount _ (Kitten.add { k with learned := true } c).exports.length
      rw [add_exports]
      exact h.vals.count
    · exact h.vals.nodup
    · exact h.vals.tval
    · exact h.vals.flushed
    · exact h.vals.levle
    · exact h.vals.sorted
    · exact h.vals.high
    · exact h.vals.pending
  · have hlev : ∀ l, (Kitten.add { k with learned := true } c).lev l = k.lev l := fun l => by
      unfold Kitten.lev; rw [add_vars]
    have hwhy : ∀ l, (Kitten.add { k with learned := true } c).why l = k.why l := fun l => by
      unfold Kitten.why; rw [add_vars]
    constructor <;> simp only [hlev, hwhy, add_values, add_trail, add_assumptions, add_klauses]
    · intro l h1 h2
      obtain ⟨r, kl, g1, g2, g3⟩ := h.why.root l h1 h2
      exact ⟨r, kl, g1, getElem?_concat_old g2, g3⟩
    · exact h.why.decision
    · exact h.why.first
    · intro a l b r h1 h2 h3
      obtain ⟨kl, g1, g2⟩ := h.why.reason a l b r h1 h2 h3
      exact ⟨kl, getElem?_concat_old g1, g2⟩
  · exact ⟨rfl, by simp, by simp, by simp, by simp, by simp, by simp, by simp, by simp, hinc hne, hev⟩
  · exact ⟨rfl, by simp, by simp, by simp, by simp, by simp, by simp, by simp, by simp, rfl, hev⟩

/-- The assumptions of the levels below the current one are satisfied. -/
def Assumed (k : Kitten) : Prop :=
  ∀ (i a : Nat), i < k.level → k.assumptions[i]? = some a → k.values a = 1 ∧ k.lev a ≤ i + 1

/-- The state of the search loop. -/
structure Search (k : Kitten) : Prop where
  inv : Inv k
  position : k.propagated ≤ k.trail.length
  semi : AllSemi k k.propagated
  units : UnitsTrue k
  assumed : Assumed k
  valid : ∀ a ∈ k.assumptions, a / 2 < k.n

theorem Assumed.grows {k k' : Kitten} (h : Assumed k) (hg : Grows k k') : Assumed k' := by
  intro i a hi ha
  rw [hg.frame.level] at hi
  rw [hg.frame.assumptions] at ha
  obtain ⟨g1, g2⟩ := h i a hi ha
  obtain ⟨q1, q2, _⟩ := hg.keep a (by omega)
  exact ⟨by omega, by omega⟩

theorem analyze_ok {k : Kitten} {c : Nat} (h : Inv k) (hb : AllBelow k) (hf : Falsified k c) (hl : 0 < k.level)
    (hu : UnitsTrue k) (ha : Assumed k) (hva : ∀ a ∈ k.assumptions, a / 2 < k.n) :
    ∃ k', k.analyze c = some k' ∧ Search k' ∧ Keeps k k' ∧ k'.level < k.level := by
  obtain ⟨ckl, hc, hcf, hcl⟩ := hf
  obtain ⟨uip, s, e, hL⟩ := analyzeLoop_ok h.toBase hl hc hcf (k.trail.length + 1) c k.trail.reverse []
    ⟨[], [], 0, 0, []⟩ (by simp) rfl
    ⟨fun v hv => (by cases hv), fun l hl => (by cases hl), (by simp), (by
      show 0 = k.trail.reverse.countP (openLit k [])
      symm; rw [List.countP_eq_zero]; intro x _; simp [openLit]), fun _ => rfl, fun l ls hc => (by cases hc), hl⟩
    ⟨(by simp), fun r hr => (by cases hr), fun l hl hn => absurd (List.mem_reverse.2 hl) hn⟩
    (Or.inr ⟨rfl, hcl, rfl⟩)
    ⟨ckl, hc, fun m hm => Or.inr ⟨hcf m hm, by
      by_cases hn : neg m ∈ k.trail
      · exact Or.inr (List.mem_reverse.2 hn)
      · left
        have := h.vals.flushed _ (h.vals.neg_true.2 (hcf m hm)) hn
        rw [lev_neg] at this
        omega⟩⟩
  unfold Kitten.analyze
  rw [e]
  simp only
  have huv := h.vals.tval uip hL.top.1
  have hvalid : ∀ l ∈ neg uip :: s.rest, l / 2 < k.n := by
    intro l hl
    rcases List.mem_cons.1 hl with rfl | hl
    · rw [neg_div]; exact h.vals.valid uip (by omega)
    · exact h.vals.valid l (by rw [(hL.rest l hl).1]; omega)
  have hdist : ((neg uip :: s.rest).map (· / 2)).Nodup := by
    rw [List.map_cons]
    refine List.nodup_cons.2 ⟨fun hc => ?_, hL.nodup⟩
    obtain ⟨l, hl, e⟩ := List.mem_map.1 hc
    have h1 := (hL.rest l hl).2.1
    have h2 : k.lev l = k.lev uip := by unfold Kitten.lev; rw [e, neg_div]
    have := hL.top.2
    omega
  obtain ⟨hi1, hk1', _⟩ := learn_ok h hvalid hdist hL.bound hL.rup
  have hk1 := hk1' (by simp)
  clear hk1'
  have hget : (k.newLearned (neg uip :: s.rest) s.resolved).klauses[k.klauses.length]? =
      some ⟨true, false, 0, neg uip :: s.rest, if k.antecedents then s.resolved else []⟩ := by
    rw [newLearned_eq, add_klauses]; simp
  have hold : ∀ (r : Nat) (kl : Klause), (k.newLearned (neg uip :: s.rest) s.resolved).klauses[r]? = some kl →
      k.klauses[r]? = some kl ∨ kl.lits = neg uip :: s.rest := by
    intro r kl hr
    rw [newLearned_eq, add_klauses] at hr
    rcases getElem?_concat hr with h' | ⟨_, h'⟩
    · exact Or.inl h'
    · exact Or.inr (by rw [h'])
  have hval1 : ∀ m, (k.newLearned (neg uip :: s.rest) s.resolved).values m = k.values m := by
    intro m; rw [newLearned_eq, add_values]
  have hlev1 : ∀ m, (k.newLearned (neg uip :: s.rest) s.resolved).lev m = k.lev m := by
    intro m; unfold Kitten.lev; rw [newLearned_eq, add_vars]
  have hlvl1 : (k.newLearned (neg uip :: s.rest) s.resolved).level = k.level := by rw [newLearned_eq, add_level]
  have htr1 : (k.newLearned (neg uip :: s.rest) s.resolved).trail = k.trail := by rw [newLearned_eq, add_trail]
  have hass1 : (k.newLearned (neg uip :: s.rest) s.resolved).assumptions = k.assumptions := by rw [newLearned_eq, add_assumptions]
  generalize hk1e : k.newLearned (neg uip :: s.rest) s.resolved = k1 at *
  have hb1 : AllBelow k1 := by
    intro r kl hr h2
    rcases hold r kl hr with h' | h'
    · obtain ⟨w, hw, hs⟩ := hb r kl h' h2
      refine ⟨w, hw, ?_⟩
      rw [hval1, hlev1, hlvl1]
      intro q1 q2
      obtain ⟨t, ht, q3, q4⟩ := hs q1 q2
      exact ⟨t, ht, by rw [hval1]; exact q3, by rw [hlev1]; exact q4⟩
    · refine ⟨neg uip, ⟨h2, Or.inl (by rw [h']; rfl)⟩, ?_⟩
      intro _ hc
      rw [hlev1, lev_neg, hL.top.2, hlvl1] at hc
      omega
  obtain ⟨k2, t1, t2, e2, hU⟩ := backtrack_ok hi1.vals (jump := s.jump) (by rw [hlvl1]; exact hL.jump) (by
    cases hr : s.rest with
    | nil => exact Or.inl (hL.none hr)
    | cons l ls =>
      by_cases hj : s.jump = 0
      · exact Or.inl hj
      · right
        have h1 := hL.head l ls hr
        have h2 := hL.rest l (by rw [hr]; simp)
        refine ⟨neg l, ?_, by rw [lev_neg, hlev1]; exact h1⟩
        rw [htr1]
        apply Classical.byContradiction
        intro hn
        have := h.vals.flushed _ (h.vals.neg_true.2 h2.1) hn
        rw [lev_neg] at this
        omega)
  rw [e2]
  simp only
  have hi2 := hU.inv hi1
  have hs2 := hU.allSemi hi1.vals hb1
  have hz : k2.values (neg uip) = 0 := hU.lose hi1.vals (by rw [hlev1, lev_neg, hL.top.2]; exact hL.jump)
  obtain ⟨k3, r3, e3, hA, hb3, hw3, _, extra, hx1, hx2⟩ := assign_ok hi2.toBase hz (by rw [hU.klauses]; exact hget)
    (by simp) (fun m hm hne => by
      rcases List.mem_cons.1 hm with h' | h'
      · exact absurd h' hne
      · obtain ⟨g1, _, g3⟩ := hL.rest m h'
        rw [hU.keep (by rw [hlev1]; exact g3), hval1]; exact g1)
  have hg := hA.grows hz hi2.vals
  have hlv : k3.level = s.jump := by rw [hg.frame.level, hU.level]
  refine ⟨k3, e3, ⟨⟨hb3, hi2.watch.extend hw3 hx1 fun c hc => by rw [(hx2 c hc).1]; simp⟩, ?_, ?_, ?_, ?_, ?_⟩,
    Keeps.trans (Keeps.trans hk1 hU.keeps) hg.frame.keeps, by rw [hlv]; exact hL.jump⟩
  · rw [hA.propagated, hU.propagated, hA.trail]; simp
  · intro r kl hr h2
    rw [hA.propagated]
    rw [hx1] at hr
    by_cases hlt : r < k2.klauses.length
    · rw [List.getElem?_append_left hlt] at hr
      exact (hs2 r kl hr h2).grows hg (by rw [hU.propagated]; exact Nat.le_refl _)
    · rw [List.getElem?_append_right (by omega)] at hr
      have := (hx2 kl (List.mem_of_getElem? hr)).1
      rw [this] at h2; simp at h2
  · intro r kl l hr hl'
    have hnew : l = neg uip → s.jump = 0 → k3.values l = 1 ∧ k3.lev l = 0 := by
      rintro rfl hj
      rw [hA.true, hA.lev_self, hU.level]
      exact ⟨rfl, hj⟩
    rw [hx1] at hr
    by_cases hlt : r < k2.klauses.length
    · rw [List.getElem?_append_left hlt, hU.klauses] at hr
      rcases hold r kl hr with h' | h'
      · obtain ⟨g1, g2⟩ := hu r kl l h' hl'
        have hk := hU.keep (m := l) (by rw [hlev1]; omega)
        rw [hval1] at hk
        obtain ⟨q1, q2, _⟩ := hg.keep l (by omega)
        rw [hU.lev, hlev1] at q2
        exact ⟨by omega, by omega⟩
      · rw [h'] at hl'
        have hh : neg uip = l ∧ s.rest = [] := by simpa using hl'
        exact hnew hh.1.symm (hL.none hh.2)
    · rw [List.getElem?_append_right (by omega)] at hr
      obtain ⟨g1, g2⟩ := hx2 kl (List.mem_of_getElem? hr)
      rw [g1] at hl'
      refine hnew (by simpa using hl'.symm) ?_
      rw [hU.level] at g2; exact g2
  · intro i a hi hai
    rw [hlv] at hi
    have hj := hL.jump
    rw [hg.frame.assumptions, hU.keeps.assumptions, hass1] at hai
    obtain ⟨g1, g2⟩ := ha i a (by omega) hai
    have hk := hU.keep (m := a) (by rw [hlev1]; omega)
    rw [hval1] at hk
    obtain ⟨q1, q2, _⟩ := hg.keep a (by omega)
    rw [hU.lev, hlev1] at q2
    exact ⟨by omega, by omega⟩
  · intro a haa
    rw [hg.frame.assumptions, hU.keeps.assumptions, hass1] at haa
    have := hva a haa
    show a / 2 < k3.exports.length
    rw [hg.frame.exports, hU.keeps.exports, hk1.exports]
    exact this

/-- The marked variables. -/
theorem markAll_ok : ∀ (lits marks new : List Nat), (markAll lits marks new).1 = marks ++ ((markAll lits marks new).2.drop new.length) ∧
    (∃ t, (markAll lits marks new).2 = new ++ t) ∧ (∀ l ∈ lits, l / 2 ∈ (markAll lits marks new).1) ∧
    (marks.Nodup → (markAll lits marks new).1.Nodup) ∧
    (∀ v ∈ (markAll lits marks new).1, v ∈ marks ∨ ∃ l ∈ lits, v = l / 2) := by
  intro lits
  induction lits with
  | nil =>
    intro marks new
    refine ⟨by simp [markAll], ⟨[], by simp [markAll]⟩, by simp, fun h => h, fun v hv => Or.inl hv⟩
  | cons o os ih =>
    intro marks new
    unfold markAll
    by_cases h : o / 2 ∈ marks
    · rw [if_pos h]
      obtain ⟨g1, g2, g3, g4, g5⟩ := ih marks new
      refine ⟨g1, g2, fun l hl => ?_, g4, fun v hv => ?_⟩
      · rcases List.mem_cons.1 hl with rfl | hl
        · rw [g1]; exact List.mem_append_left _ h
        · exact g3 l hl
      · rcases g5 v hv with h' | ⟨l, hl, e⟩
        · exact Or.inl h'
        · exact Or.inr ⟨l, List.mem_cons_of_mem _ hl, e⟩
    · rw [if_neg h]
      obtain ⟨g1, ⟨t, ht⟩, g3, g4, g5⟩ := ih (marks ++ [o / 2]) (new ++ [o / 2])
      refine ⟨?_, ⟨o / 2 :: t, by rw [ht]; simp⟩, fun l hl => ?_, fun hn => g4 ?_, fun v hv => ?_⟩
      · rw [g1, ht]; simp
      · rcases List.mem_cons.1 hl with rfl | hl
        · rw [g1]; simp
        · exact g3 l hl
      · exact List.nodup_append.2 ⟨hn, by simp, fun a ha b hb hab => h (by
          have : b = o / 2 := by simpa using hb
          rw [← this, ← hab]; exact ha)⟩
      · rcases g5 v hv with h' | ⟨l, hl, e⟩
        · rcases List.mem_append.1 h' with h' | h'
          · exact Or.inl h'
          · exact Or.inr ⟨o, by simp, by simpa using h'⟩
        · exact Or.inr ⟨l, List.mem_cons_of_mem _ hl, e⟩

/-- The conflict on root level. -/
theorem emptyLoop_ok {k : Kitten} (h : Base k) (hl : k.level = 0) :
    ∀ (n ref : Nat) (todo marks resolved : List Nat) (kl : Klause), k.klauses[ref]? = some kl →
      (∀ m ∈ kl.lits, k.values m ≠ 0) →
      (∀ v ∈ marks, v ∈ todo ∨ ∃ r ∈ resolved ++ [ref], (k.vars v).reason = some r) →
      (∀ r ∈ resolved, r < k.klauses.length) → marks.Nodup → (∀ v ∈ marks, ∃ l, l / 2 = v ∧ k.values l = 1) →
      (∀ v ∈ todo, v ∈ marks) → todo.length ≤ marks.length → k.n + todo.length < n + marks.length →
      ∃ resolved' marks' : List Nat, k.emptyLoop n ref todo marks resolved = some resolved' ∧
        (∀ r ∈ resolved', r < k.klauses.length) ∧ (∀ r ∈ resolved ++ [ref], r ∈ resolved') ∧
        (∀ m ∈ kl.lits, m / 2 ∈ marks') ∧ (∀ v ∈ marks, v ∈ marks') ∧ (∀ v ∈ marks', ∃ r ∈ resolved', (k.vars v).reason = some r) := by
  intro n
  induction n with
  | zero =>
    intro ref todo marks resolved kl _ _ _ _ hnd hmk _ hsm hn
    have : marks.length ≤ k.n := by
      have := nodup_length_le (l := marks) (m := List.range k.n) hnd (fun v hv => by
        obtain ⟨l, e, hv'⟩ := hmk v hv
        rw [List.mem_range, ← e]
        exact h.vals.valid l (by omega))
      simpa using this
    omega
  | succ n ih =>
    intro ref todo marks resolved kl hk hval hre hbd hnd hmk htd hsm hn
    unfold Kitten.emptyLoop
    rw [hk]
    simp only
    obtain ⟨g1, ⟨t, g2⟩, g3, g4, g5⟩ := markAll_ok kl.lits marks []
    generalize hM : markAll kl.lits marks [] = M at *
    obtain ⟨marks', new⟩ := M
    simp only [List.nil_append, List.length_nil, List.drop_zero] at g1 g2 g3 g4 g5 ⊢
    have hmk' : ∀ v ∈ marks', ∃ l, l / 2 = v ∧ k.values l = 1 := by
      intro v hv
      rcases g5 v hv with h' | ⟨l, hl', e⟩
      · exact hmk v h'
      · rcases h.vals.dom l with q | q | q
        · exact ⟨l, e.symm, q⟩
        · exact absurd q (hval l hl')
        · exact ⟨neg l, by rw [neg_div]; exact e.symm, h.vals.neg_true.2 q⟩
    have hre' : ∀ v ∈ marks', v ∈ todo ++ new ∨ ∃ r ∈ resolved ++ [ref], (k.vars v).reason = some r := by
      intro v hv
      rw [g1] at hv
      rcases List.mem_append.1 hv with h' | h'
      · rcases hre v h' with h' | h'
        · exact Or.inl (List.mem_append_left _ h')
        · exact Or.inr h'
      · exact Or.inl (List.mem_append_right _ h')
    have hbd' : ∀ r ∈ resolved ++ [ref], r < k.klauses.length := by
      intro r hr
      rcases List.mem_append.1 hr with h' | h'
      · exact hbd r h'
      · rw [show r = ref by simpa using h']; exact lt_of_get hk
    have htd' : ∀ v ∈ todo ++ new, v ∈ marks' := by
      intro v hv
      rw [g1]
      rcases List.mem_append.1 hv with h' | h'
      · exact List.mem_append_left _ (htd v h')
      · exact List.mem_append_right _ h'
    have hlen : marks'.length = marks.length + new.length := by rw [g1]; simp
    cases htn : todo ++ new with
    | nil =>
      simp only
      refine ⟨_, marks', rfl, hbd', fun r hr => hr, g3, fun v hv => by rw [g1]; exact List.mem_append_left _ hv, fun v hv => ?_⟩
      rcases hre' v hv with h' | h'
      · rw [htn] at h'; cases h'
      · exact h'
    | cons idx todo' =>
      simp only
      have hidx := htd' idx (by rw [htn]; simp)
      obtain ⟨l, e, hv⟩ := hmk' idx hidx
      obtain ⟨r, kl', q1, q2, q3⟩ := h.why.root l hv (by have := h.vals.levle l hv; omega)
      have q1 : (k.vars idx).reason = some r := by rw [← e]; exact q1
      rw [q1]
      simp only
      have hl2 : (todo ++ new).length = todo'.length + 1 := by rw [htn]; simp
      rw [List.length_append] at hl2
      obtain ⟨res', marks'', p1, p2, p3, p4, p6, p5⟩ := ih r todo' marks' (resolved ++ [ref]) kl' q2
        (fun m hm => by rw [q3] at hm; rw [show m = l by simpa using hm]; omega)
        (fun v hv' => by
          rcases hre' v hv' with h' | ⟨r', h1, h2⟩
          · rw [htn] at h'
            rcases List.mem_cons.1 h' with rfl | h'
            · exact Or.inr ⟨r, by simp, q1⟩
            · exact Or.inl h'
          · exact Or.inr ⟨r', List.mem_append_left _ h1, h2⟩) hbd' (g4 hnd) hmk'
        (fun v hv' => htd' v (by rw [htn]; simp [hv'])) (by omega) (by omega)
      exact ⟨res', marks'', p1, p2, fun r' hr' => p3 r' (List.mem_append_left _ hr'), fun m hm => p6 _ (g3 m hm),
        fun v hv' => p6 _ (by rw [g1]; exact List.mem_append_left _ hv'), p5⟩

end Verif.Kitten
