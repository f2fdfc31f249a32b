import Verif.Proofs.Kitten.Root

/-! # Failed assumptions of kitten -/

namespace Verif.Kitten

open Verif.Spec
open Verif.Core (upd)

theorem markOthers_eq {idx : Nat} : ∀ (lits marks new : List Nat), idx ∈ marks →
    markOthers idx lits marks new = markAll lits marks new := by
  intro lits
  induction lits with
  | nil => intro _ _ _; rfl
  | cons o os ih =>
    intro marks new h
    unfold markOthers markAll
    by_cases ho : o / 2 ∈ marks
    · rw [if_pos (Or.inr ho), if_pos ho]; exact ih _ _ h
    · rw [if_neg (by rintro (hc | hc); exact ho (hc ▸ h); exact ho hc), if_neg ho]
      exact ih _ _ (List.mem_append_left _ h)

/-- State of the final analysis. -/
structure FInv (k : Kitten) (a : Nat) (todo : List Nat) (s : Final) (D : List Nat) : Prop where
  clause : s.clause = neg a :: D
  start : a / 2 ∈ s.marks
  nodup : s.marks.Nodup
  todoNodup : todo.Nodup
  marked : ∀ v ∈ s.marks, ∃ l, l / 2 = v ∧ k.values l = 1
  open_ : ∀ v ∈ todo, v ∈ s.marks
  processed : ∀ l, k.values l = 1 → l / 2 ∈ s.marks → l / 2 ∈ todo ∨ (k.why l = none ∧ neg l ∈ D) ∨
    ∃ r ∈ s.resolved, k.why l = some r
  closed : ∀ r ∈ s.resolved, ∃ kl : Klause, k.klauses[r]? = some kl ∧ ∀ m ∈ kl.lits, m / 2 ∈ s.marks
  rest : ∀ m ∈ D, m / 2 ∉ todo ∧ m / 2 ∈ s.marks ∧ k.values m = -1 ∧ k.why m = none
  distinct : (D.map (· / 2)).Nodup
  failed : ∀ m ∈ s.clause, s.failed (neg m) = true
  assumed : ∀ l, s.failed l = true → l ∈ k.assumptions

theorem finalLoop_ok {k : Kitten} {a : Nat} (h : Base k) (hlen : k.level ≤ k.assumptions.length) :
    ∀ (n : Nat) (todo : List Nat) (s : Final) (D : List Nat), FInv k a todo s D →
      todo.length ≤ s.marks.length → k.n + todo.length < n + s.marks.length →
      ∃ s' D', k.finalLoop n todo s = some s' ∧ FInv k a [] s' D' := by
  intro n
  induction n with
  | zero =>
    intro todo s D hF hsm hn
    have : s.marks.length ≤ k.n := by
      have := nodup_length_le (l := s.marks) (m := List.range k.n) hF.nodup (fun v hv => by
        obtain ⟨l, e, hv'⟩ := hF.marked v hv
        rw [List.mem_range, ← e]
        exact h.vals.valid l (by omega))
      simpa using this
    omega
  | succ n ih =>
    intro todo s D hF hsm hn
    cases htd : todo with
    | nil =>
      subst htd
      unfold Kitten.finalLoop
      exact ⟨s, D, rfl, hF⟩
    | cons idx todo' =>
      subst htd
      have hidx := hF.open_ idx (by simp)
      obtain ⟨l, el, hl⟩ := hF.marked idx hidx
      have htn := List.nodup_cons.1 hF.todoNodup
      have hwhy : (k.vars idx).reason = k.why l := by unfold Kitten.why; rw [el]
      have huniq : ∀ x, k.values x = 1 → x / 2 = idx → x = l := by
        intro x hx e
        rcases eq_or_eq_neg (e.trans el.symm) with e | e
        · exact e
        · rw [e, h.vals.anti] at hx; omega
      unfold Kitten.finalLoop
      rw [hwhy]
      cases hw : k.why l with
      | none =>
        simp only
        have hlit : (if k.values (2 * idx) < 0 then 2 * idx + 1 else 2 * idx) = l := by
          by_cases h0 : l = 2 * idx
          · rw [if_neg (by rw [← h0]; omega)]; exact h0.symm
          · have h1 : l = 2 * idx + 1 := by omega
            have h2 : neg l = 2 * idx := by unfold neg; rw [if_neg (by omega)]; omega
            have := h.vals.anti l
            rw [h2] at this
            rw [if_pos (by omega)]; exact h1.symm
        rw [hlit]
        have hass : l ∈ k.assumptions := h.why.decision l hl hw (by have := h.vals.levle l hl; omega)
        refine ih todo' _ (D ++ [neg l]) ⟨?_, hF.start, hF.nodup, htn.2, hF.marked, ?_, ?_, hF.closed, ?_, ?_, ?_, ?_⟩ ?_ ?_
        · show s.clause ++ [neg l] = _; rw [hF.clause]; rfl
        · intro v hv; exact hF.open_ v (List.mem_cons_of_mem _ hv)
        · intro x hx hm
          rcases hF.processed x hx hm with h' | ⟨h1, h2⟩ | h'
          · rcases List.mem_cons.1 h' with h' | h'
            · have := huniq x hx h'
              subst this
              exact Or.inr (Or.inl ⟨hw, by simp⟩)
            · exact Or.inl h'
          · exact Or.inr (Or.inl ⟨h1, List.mem_append_left _ h2⟩)
          · exact Or.inr (Or.inr h')
        · intro m hm
          rcases List.mem_append.1 hm with hm | hm
          · obtain ⟨g1, g2, g3⟩ := hF.rest m hm
            exact ⟨fun hc => g1 (List.mem_cons_of_mem _ hc), g2, g3⟩
          · have hm : m = neg l := by simpa using hm
            subst hm
            refine ⟨by rw [neg_div, el]; exact htn.1, by rw [neg_div, el]; exact hidx, by rw [h.vals.anti, hl], by
              rw [why_neg]; exact hw⟩
        · rw [List.map_append]
          refine List.nodup_append.2 ⟨hF.distinct, by simp, fun x hx y hy hxy => ?_⟩
          obtain ⟨m, hm, e⟩ := List.mem_map.1 hx
          have hy : y = neg l / 2 := by simpa using hy
          rw [neg_div, el] at hy
          exact (hF.rest m hm).1 (by rw [e, hxy, hy]; simp)
        · intro m hm
          have hm : m ∈ s.clause ++ [neg l] := hm
          show upd s.failed l true (neg m) = true
          unfold upd
          split
          · rfl
          · rename_i hne
            rcases List.mem_append.1 hm with hm | hm
            · exact hF.failed m hm
            · have hm : m = neg l := by simpa using hm
              rw [hm, Spec.neg_neg] at hne
              exact absurd rfl hne
        · intro x hx
          have hx : upd s.failed l true x = true := hx
          unfold upd at hx
          split at hx
          · rename_i e; rw [e]; exact hass
          · exact hF.assumed x hx
        · simp at hsm; show todo'.length ≤ s.marks.length; omega
        · simp at hn; show k.n + todo'.length < n + s.marks.length; omega
      | some ref =>
        simp only
        have hkl : ∃ kl : Klause, k.klauses[ref]? = some kl ∧ ∀ m ∈ kl.lits, k.values m ≠ 0 := by
          by_cases hin : l ∈ k.trail ∧ 0 < k.lev l
          · obtain ⟨t1, t2, e⟩ := List.append_of_mem hin.1
            obtain ⟨kl, g1, g2, g3⟩ := h.why.reason t1 l t2 ref e hin.2 hw
            refine ⟨kl, g1, fun m hm => ?_⟩
            by_cases hml : m = l
            · rw [hml]; omega
            · have := (g3 m hm hml).1; omega
          · have h0 : k.lev l = 0 := by
              by_cases ht : l ∈ k.trail
              · have := not_and.1 hin ht; omega
              · exact h.vals.flushed l hl ht
            obtain ⟨r, kl, g1, g2, g3⟩ := h.why.root l hl h0
            rw [hw] at g1
            cases g1
            exact ⟨kl, g2, fun m hm => by rw [g3] at hm; rw [show m = l by simpa using hm]; omega⟩
        obtain ⟨kl, hk, hval⟩ := hkl
        rw [hk]
        simp only
        rw [markOthers_eq _ _ _ hidx]
        obtain ⟨g1, ⟨t, g2⟩, g3, g4, g5⟩ := markAll_ok kl.lits s.marks []
        generalize hM : markAll kl.lits s.marks [] = M at *
        obtain ⟨marks', new⟩ := M
        simp only [List.nil_append, List.length_nil, List.drop_zero] at g1 g2 g3 g4 g5 ⊢
        have hold : ∀ v ∈ s.marks, v ∈ marks' := fun v hv => by rw [g1]; exact List.mem_append_left _ hv
        have hnd := g4 hF.nodup
        have hfresh : ∀ v ∈ new, v ∉ s.marks := fun v hv hc => by
          rw [g1] at hnd
          exact (List.nodup_append.1 hnd).2.2 v hc v hv rfl
        have hlen' : marks'.length = s.marks.length + new.length := by rw [g1]; simp
        refine ih (todo' ++ new) _ D ⟨hF.clause, hold _ hF.start, hnd, ?_, ?_, ?_, ?_, ?_, ?_, hF.distinct, hF.failed,
          hF.assumed⟩ ?_ ?_
        · rw [g1] at hnd
          exact List.nodup_append.2 ⟨htn.2, (List.nodup_append.1 hnd).2.1, fun x hx y hy hxy => hfresh y hy (by
            rw [← hxy]; exact hF.open_ x (List.mem_cons_of_mem _ hx))⟩
        · intro v hv
          rcases g5 v hv with h' | ⟨m, hm, e⟩
          · exact hF.marked v h'
          · rcases h.vals.dom m with q | q | q
            · exact ⟨m, e.symm, q⟩
            · exact absurd q (hval m hm)
            · exact ⟨neg m, by rw [neg_div]; exact e.symm, h.vals.neg_true.2 q⟩
        · intro v hv
          show v ∈ marks'
          rcases List.mem_append.1 hv with h' | h'
          · exact hold v (hF.open_ v (List.mem_cons_of_mem _ h'))
          · rw [g1]; exact List.mem_append_right _ h'
        · intro x hx hm
          have hm : x / 2 ∈ marks' := hm
          rw [g1] at hm
          rcases List.mem_append.1 hm with hm | hm
          · rcases hF.processed x hx hm with h' | h' | ⟨r, h1, h2⟩
            · rcases List.mem_cons.1 h' with h' | h'
              · have := huniq x hx h'
                subst this
                exact Or.inr (Or.inr ⟨ref, by simp, hw⟩)
              · exact Or.inl (List.mem_append_left _ h')
            · exact Or.inr (Or.inl h')
            · exact Or.inr (Or.inr ⟨r, List.mem_append_left _ h1, h2⟩)
          · exact Or.inl (List.mem_append_right _ hm)
        · intro r hr
          rcases List.mem_append.1 hr with hr | hr
          · obtain ⟨kl', q1, q2⟩ := hF.closed r hr
            exact ⟨kl', q1, fun m hm => hold _ (q2 m hm)⟩
          · rw [show r = ref by simpa using hr]
            exact ⟨kl, hk, g3⟩
        · intro m hm
          obtain ⟨q1, q2, q3⟩ := hF.rest m hm
          refine ⟨fun hc => ?_, hold _ q2, q3⟩
          rcases List.mem_append.1 hc with hc | hc
          · exact q1 (List.mem_cons_of_mem _ hc)
          · exact hfresh _ hc q2
        · show (todo' ++ new).length ≤ marks'.length
          rw [List.length_append, hlen']; simp at hsm; omega
        · show k.n + (todo' ++ new).length < n + marks'.length
          rw [List.length_append, hlen']; simp at hn; omega

/-- The clause over failed assumptions follows by unit propagation. -/
theorem final_rup {k : Kitten} {a : Nat} (h : Base k) {s : Final} {D : List Nat} (hF : FInv k a [] s D)
    (ha : k.values a = -1) (hw : k.why a ≠ none) : RUP (Fml k.klauses (· ∈ s.resolved)) s.clause := by
  have root : ∀ l, k.values l = 1 → l / 2 ∈ s.marks → k.lev l = 0 →
      UP (Fml k.klauses (· ∈ s.resolved)) (fun l => neg l ∈ s.clause) l := by
    intro l hl hm h0
    obtain ⟨r, kl, g1, g2, g3⟩ := h.why.root l hl h0
    rcases hF.processed l hl hm with h' | ⟨h', _⟩ | ⟨r', h1, h2⟩
    · cases h'
    · rw [g1] at h'; cases h'
    · rw [g1] at h2
      cases h2
      exact .unit (c := [l]) ⟨r, kl, h1, g2, g3.symm⟩ (by simp) fun x hx hne => absurd (by simpa using hx) hne
  have all : ∀ n t1 l t2, t1.length = n → k.trail = t1 ++ l :: t2 → l / 2 ∈ s.marks →
      UP (Fml k.klauses (· ∈ s.resolved)) (fun l => neg l ∈ s.clause) l := by
    intro n
    induction n using Nat.strongRecOn with
    | ind n ih =>
      intro t1 l t2 hn ht hm
      have hl := h.vals.tval l (by rw [ht]; simp)
      by_cases h0 : k.lev l = 0
      · exact root l hl hm h0
      · rcases hF.processed l hl hm with h' | ⟨_, h'⟩ | ⟨r, h1, h2⟩
        · cases h'
        · exact .assumed (by rw [hF.clause]; exact List.mem_cons_of_mem _ h')
        · obtain ⟨kl, g1, g2, g3⟩ := h.why.reason t1 l t2 r ht (by omega) h2
          obtain ⟨kl', q1, q2⟩ := hF.closed r h1
          rw [g1] at q1
          cases q1
          refine .unit ⟨r, kl, h1, g1, rfl⟩ g2 fun m hm' hne => ?_
          obtain ⟨v1, v2⟩ := g3 m hm' hne
          have hmk : neg m / 2 ∈ s.marks := by rw [neg_div]; exact q2 m hm'
          rcases v2 with v2 | v2
          · exact root _ (h.vals.neg_true.2 v1) hmk (by rw [lev_neg]; exact v2)
          · obtain ⟨a1, a2, e⟩ := List.append_of_mem v2
            exact ih a1.length (by rw [← hn, e]; simp) a1 (neg m) (a2 ++ l :: t2) rfl (by rw [ht, e]; simp) hmk
  have any : ∀ l, k.values l = 1 → l / 2 ∈ s.marks →
      UP (Fml k.klauses (· ∈ s.resolved)) (fun l => neg l ∈ s.clause) l := by
    intro l hl hm
    by_cases ht : l ∈ k.trail
    · obtain ⟨a1, a2, e⟩ := List.append_of_mem ht
      exact all a1.length a1 l a2 rfl e hm
    · exact root l hl hm (h.vals.flushed l hl ht)
  have hna := h.vals.neg_true.2 ha
  have hmk : neg a / 2 ∈ s.marks := by rw [neg_div]; exact hF.start
  rcases hF.processed (neg a) hna hmk with h' | ⟨h', _⟩ | ⟨r, h1, h2⟩
  · cases h'
  · rw [why_neg] at h'; exact absurd h' hw
  · obtain ⟨kl, g1, g2⟩ := hF.closed r h1
    refine Or.inl ⟨kl.lits, ⟨r, kl, h1, g1, rfl⟩, fun m hm => ?_⟩
    by_cases hma : m = neg a
    · rw [hma, Spec.neg_neg]
      exact .assumed (by rw [hF.clause]; simp)
    · refine any _ ?_ (by rw [neg_div]; exact g2 m hm)
      by_cases h0 : k.lev (neg a) = 0
      · obtain ⟨r', kl', q1, q2, q3⟩ := h.why.root _ hna h0
        rw [h2] at q1
        cases q1
        rw [g1] at q2
        cases q2
        rw [q3] at hm
        exact absurd (by simpa using hm) hma
      · have ht : neg a ∈ k.trail := by
          apply Classical.byContradiction
          intro hn
          exact h0 (h.vals.flushed _ hna hn)
        obtain ⟨a1, a2, e⟩ := List.append_of_mem ht
        obtain ⟨kl', q1, q2, q3⟩ := h.why.reason a1 _ a2 r e (by omega) h2
        rw [g1] at q1
        cases q1
        exact h.vals.neg_true.2 (q3 m hm hma).1

/-- The outcome for failed assumptions. -/
structure Fails (k k' : Kitten) : Prop where
  inv : Inv k'
  semi : AllSemi k' k'.trail.length
  position : k'.propagated = k'.trail.length
  level : k'.level = k.level
  trail : k'.trail = k.trail
  keeps : Keeps { k with failed := k'.failed, failing := k'.failing } k'
  assumed : ∀ l, k'.failed l = true → l ∈ k.assumptions
  failing : ∀ r, k'.failing = some r → ∃ kl : Klause, k'.klauses[r]? = some kl ∧ ∀ m ∈ kl.lits, k'.failed (neg m) = true
  clash : k'.failing = none → ∃ a, k'.failed a = true ∧ k'.failed (neg a) = true

theorem Inv.setFailed {k : Kitten} (h : Inv k) (f : Nat → Bool) (r : Option Nat) :
    Inv { k with failed := f, failing := r } :=
  ⟨⟨⟨h.vals.dom, h.vals.anti, h.vals.valid, h.vals.count, h.vals.nodup, h.vals.tval, h.vals.flushed,
      h.vals.levle, h.vals.sorted, h.vals.high, h.vals.pending⟩, ⟨h.why.root, h.why.decision, h.why.first, h.why.reason⟩,
      ⟨h.store.valid, h.store.distinct, h.store.learned, h.store.flag, h.store.empty, h.store.units, h.store.unit,
        h.store.inconsistent⟩⟩, ⟨h.watch.watched, h.watch.back, h.watch.once⟩⟩

theorem fail_ok {k : Kitten} (h : Inv k) (hp : k.propagated = k.trail.length) (hs : AllSemi k k.trail.length)
    (hlen : k.level ≤ k.assumptions.length) (hf : ∃ a ∈ k.assumptions, k.values a < 0)
    (hva : ∀ a ∈ k.assumptions, a / 2 < k.n)
    (hfailed : ∀ l, k.failed l = false) (hfail : k.failing = none) : ∃ k', k.fail = some k' ∧ Fails k k' := by
  have hmem : ∀ a ∈ k.falsified, a ∈ k.assumptions ∧ k.values a = -1 := by
    intro a ha
    obtain ⟨h1, h2⟩ := List.mem_filter.1 ha
    exact ⟨h1, h.vals.neg'.1 (by simpa using h2)⟩
  have hone : ∀ a x, upd k.failed a true x = true → x = a := by
    intro a x hx
    unfold upd at hx
    split at hx
    · assumption
    · rw [hfailed] at hx; cases hx
  unfold Kitten.fail Kitten.failedLit
  cases hu : k.falsified.find? fun a => k.lev a = 0 with
  | some a =>
    simp only
    obtain ⟨ha, hv⟩ := hmem a (List.mem_of_find?_eq_some hu)
    have h0 : k.lev a = 0 := by simpa using List.find?_some hu
    obtain ⟨r, kl, g1, g2, g3⟩ := h.why.root _ (h.vals.neg_true.2 hv) (by rw [lev_neg]; exact h0)
    rw [why_neg] at g1
    refine ⟨_, rfl, h.setFailed _ _, hs, hp, rfl, rfl,
      ⟨rfl, rfl, rfl, rfl, rfl, rfl, rfl, rfl, rfl, rfl, .refl _⟩, fun l hl => by rw [hone a l hl]; exact ha, ?_, ?_⟩
    · intro r' hr'
      have hr' : k.why a = some r' := hr'
      rw [g1] at hr'
      cases hr'
      refine ⟨kl, g2, fun m hm => ?_⟩
      rw [g3] at hm
      rw [show m = neg a by simpa using hm, Spec.neg_neg]
      exact upd_self _ _ _
    · intro hc
      have hc : k.why a = none := hc
      rw [g1] at hc; cases hc
  | none =>
    simp only
    have hlev : ∀ a ∈ k.falsified, k.lev a ≠ 0 := by
      intro a ha
      simpa using List.find?_eq_none.1 hu a ha
    cases hc : k.falsified.find? fun a => k.why a = none with
    | some a =>
      simp only
      obtain ⟨ha, hv⟩ := hmem a (List.mem_of_find?_eq_some hc)
      have hw : k.why a = none := by simpa using List.find?_some hc
      have hna := h.vals.neg_true.2 hv
      have hna' : neg a ∈ k.assumptions := h.why.decision _ hna (by rw [why_neg]; exact hw) (by
        have := h.vals.levle _ hna; omega)
      refine ⟨_, rfl, h.setFailed _ k.failing, hs, hp, rfl, rfl,
        ⟨rfl, rfl, rfl, rfl, rfl, rfl, rfl, rfl, rfl, rfl, .refl _⟩, fun l hl => ?_, ?_, ?_⟩
      · have hl : upd (upd k.failed a true) (neg a) true l = true := hl
        unfold upd at hl
        split at hl
        · rename_i e; rw [e]; exact hna'
        · split at hl
          · rename_i e; rw [e]; exact ha
          · rw [hfailed] at hl; cases hl
      · intro r hr
        have hr : k.failing = some r := hr
        rw [hfail] at hr; cases hr
      · intro _
        refine ⟨a, ?_, upd_self _ _ _⟩
        show upd (upd k.failed a true) (neg a) true a = true
        rw [upd_other _ _ (Ne.symm (neg_ne a)), upd_self]
    | none =>
      simp only
      have hwhy : ∀ a ∈ k.falsified, k.why a ≠ none := by
        intro a ha
        simpa using List.find?_eq_none.1 hc a ha
      cases hh : k.falsified with
      | nil =>
        obtain ⟨a, ha, hv⟩ := hf
        have : a ∈ k.falsified := List.mem_filter.2 ⟨ha, by simpa using hv⟩
        rw [hh] at this; cases this
      | cons a as =>
        simp only [List.head?_cons, Option.map_some]
        have hain : a ∈ k.falsified := by rw [hh]; simp
        obtain ⟨ha, hv⟩ := hmem a hain
        have hna := h.vals.neg_true.2 hv
        have hw := hwhy a hain
        obtain ⟨s, D, e, hF⟩ := finalLoop_ok (a := a) h.toBase hlen (k.exports.length + 1) [a / 2]
          ⟨[a / 2], [neg a], [], upd k.failed a true⟩ []
          ⟨rfl, (by simp), (by simp), (by simp), fun v hv' => ⟨neg a, by
              rw [neg_div]; exact (List.mem_singleton.1 hv').symm, hna⟩, fun v hv' => hv', fun l hl hm => Or.inl hm,
            fun r hr => (by cases hr), fun m hm => (by cases hm), by simp, fun m hm => by
              rw [List.mem_singleton.1 hm, Spec.neg_neg]; exact upd_self _ _ _, fun l hl => by
              rw [hone a l hl]; exact ha⟩ (by simp) (by show k.exports.length + 1 < _; simp)
        rw [e]
        simp only
        have hrup := final_rup h.toBase hF hv hw
        have hmk : neg a / 2 ∈ s.marks := by rw [neg_div]; exact hF.start
        have hfirst : ∃ r ∈ s.resolved, k.why (neg a) = some r := by
          rcases hF.processed (neg a) hna hmk with h' | ⟨h', _⟩ | h'
          · cases h'
          · rw [why_neg] at h'; exact absurd h' hw
          · exact h'
        cases hr : s.resolved with
        | nil => rw [hr] at hfirst; obtain ⟨r, h', _⟩ := hfirst; cases h'
        | cons ref more =>
          cases more with
          | nil =>
            simp only
            refine ⟨_, rfl, h.setFailed _ _, hs, hp, rfl, rfl,
              ⟨rfl, rfl, rfl, rfl, rfl, rfl, rfl, rfl, rfl, rfl, .refl _⟩, hF.assumed, ?_, fun hc => (by cases hc)⟩
            intro r' hr'
            cases hr'
            obtain ⟨kl, g1, g2⟩ := hF.closed ref (by rw [hr]; simp)
            refine ⟨kl, g1, fun m hm => ?_⟩
            show s.failed (neg m) = true
            obtain ⟨l, el, hl⟩ := hF.marked _ (g2 m hm)
            have hin : ∀ x, k.values x = 1 → k.why x = some ref → x ∈ kl.lits := by
              intro x hx hxw
              by_cases h0 : k.lev x = 0
              · obtain ⟨r', kl', q1, q2, q3⟩ := h.why.root _ hx h0
                rw [hxw] at q1
                cases q1
                rw [g1] at q2
                cases q2
                rw [q3]; simp
              · have ht : x ∈ k.trail := by
                  apply Classical.byContradiction
                  intro hn
                  exact h0 (h.vals.flushed _ hx hn)
                obtain ⟨a1, a2, e⟩ := List.append_of_mem ht
                obtain ⟨kl', q1, q2, q3⟩ := h.why.reason a1 _ a2 ref e (by omega) hxw
                rw [g1] at q1
                cases q1
                exact q2
            have honly : ∀ x, k.values x = 1 → k.why x = some ref → x = neg a := by
              intro x hx hxw
              obtain ⟨r, h1, h2⟩ := hfirst
              rw [hr] at h1
              have h1 : r = ref := by simpa using h1
              subst h1
              have hxl := hin x hx hxw
              apply Classical.byContradiction
              intro hne
              by_cases h0 : k.lev (neg a) = 0
              · rw [lev_neg] at h0; exact hlev a hain h0
              · have ht : neg a ∈ k.trail := by
                  apply Classical.byContradiction
                  intro hn
                  exact h0 (h.vals.flushed _ hna hn)
                obtain ⟨a1, a2, e⟩ := List.append_of_mem ht
                obtain ⟨kl', q1, q2, q3⟩ := h.why.reason a1 _ a2 r e (by omega) h2
                rw [g1] at q1
                cases q1
                have := (q3 x hxl hne).1
                omega
            by_cases hma : m = neg a
            · exact hF.failed m (by rw [hF.clause, hma]; simp)
            · rcases hF.processed l hl (by rw [el]; exact g2 m hm) with h' | ⟨_, h'⟩ | ⟨r, h1, h2⟩
              · cases h'
              · have hml : m = neg l := by
                  rcases eq_or_eq_neg el.symm with e | e
                  · exfalso
                    have hmv : k.values m = 1 := by rw [e]; exact hl
                    obtain ⟨r, h1, h2⟩ := hfirst
                    rw [hr] at h1
                    have h1 : r = ref := by simpa using h1
                    subst h1
                    have h0 : k.lev (neg a) ≠ 0 := by rw [lev_neg]; exact hlev a hain
                    have ht : neg a ∈ k.trail := by
                      apply Classical.byContradiction
                      intro hn
                      exact h0 (h.vals.flushed _ hna hn)
                    obtain ⟨a1, a2, e'⟩ := List.append_of_mem ht
                    obtain ⟨kl', q1, q2, q3⟩ := h.why.reason a1 _ a2 r e' (by omega) h2
                    rw [g1] at q1
                    cases q1
                    have := (q3 m hm hma).1
                    omega
                  · exact e
                exact hF.failed m (by rw [hF.clause, hml]; exact List.mem_cons_of_mem _ h')
              · rw [hr] at h1
                have h1 : r = ref := by simpa using h1
                subst h1
                have hla := honly l hl h2
                rw [hla, neg_div] at el
                have hna' : neg a ∈ kl.lits := hin _ hna (by rw [← hla]; exact h2)
                rcases eq_or_eq_neg el.symm with e | e
                · exfalso
                  have hd := h.store.distinct kl (List.mem_of_getElem? g1)
                  rw [e] at hm
                  obtain ⟨c1, c2, hc12⟩ := List.append_of_mem hm
                  rw [hc12, List.map_append, List.map_cons] at hd
                  rw [hc12] at hna'
                  rcases List.mem_append.1 hna' with h' | h'
                  · exact (List.nodup_append.1 hd).2.2 _ (List.mem_map.2 ⟨_, h', rfl⟩) (a / 2) List.mem_cons_self (neg_div a)
                  · rcases List.mem_cons.1 h' with h' | h'
                    · exact neg_ne a h'
                    · exact (List.nodup_cons.1 (List.nodup_append.1 hd).2.1).1 (List.mem_map.2 ⟨_, h', neg_div a⟩)
                · exact absurd e hma
          | cons ref2 more =>
            simp only
            rw [← hr]
            have hvalid : ∀ m ∈ s.clause, m / 2 < k.n := by
              intro m hm
              have := hva _ (hF.assumed _ (hF.failed m hm))
              rw [neg_div] at this
              exact this
            have hdist : (s.clause.map (· / 2)).Nodup := by
              rw [hF.clause, List.map_cons]
              refine List.nodup_cons.2 ⟨fun hc => ?_, hF.distinct⟩
              obtain ⟨m, hm, e⟩ := List.mem_map.1 hc
              have := (hF.rest m hm).2.2.2
              rw [neg_div] at e
              have hmw : k.why m = k.why a := by unfold Kitten.why; rw [e]
              rw [hmw] at this
              exact hw this
            obtain ⟨g1, g2, _⟩ := learn_ok h (lits := s.clause) (resolved := s.resolved) hvalid hdist
              (fun r hr' => by obtain ⟨kl, q, _⟩ := hF.closed r hr'; exact lt_of_get q) hrup
            have g2 := g2 (by rw [hF.clause]; simp)
            have htr : (k.newLearned s.clause s.resolved).trail = k.trail := by rw [newLearned_eq, add_trail]
            have hpr : (k.newLearned s.clause s.resolved).propagated = k.propagated := by rw [newLearned_eq, add_propagated]
            have hlv : (k.newLearned s.clause s.resolved).level = k.level := by rw [newLearned_eq, add_level]
            have hval : ∀ m, (k.newLearned s.clause s.resolved).values m = k.values m := by
              intro m; rw [newLearned_eq, add_values]
            have hlev' : ∀ m, (k.newLearned s.clause s.resolved).lev m = k.lev m := by
              intro m; unfold Kitten.lev; rw [newLearned_eq, add_vars]
            have hkl : (k.newLearned s.clause s.resolved).klauses = k.klauses ++
                [⟨true, false, 0, s.clause, if k.antecedents then s.resolved else []⟩] := by
              rw [newLearned_eq, add_klauses]
            generalize k.newLearned s.clause s.resolved = k1 at *
            refine ⟨_, rfl, g1.setFailed _ _, ?_, ?_, hlv, htr,
              ⟨rfl, g2.2, g2.3, g2.4, g2.5, rfl, rfl, g2.8, g2.9, g2.10, g2.11⟩, hF.assumed, ?_, fun hc => (by cases hc)⟩
            · intro r kl hr' h2
              have hr' : k1.klauses[r]? = some kl := hr'
              rw [hkl] at hr'
              rcases getElem?_concat hr' with h' | ⟨_, h'⟩
              · obtain ⟨w, hw', hsem⟩ := hs r kl h' h2
                refine ⟨w, hw', ?_⟩
                show k1.values w = -1 → neg w ∉ k1.trail.drop k1.trail.length → ∃ t ∈ kl.lits, k1.values t = 1 ∧ k1.lev t ≤ k1.lev w
                rw [htr, hval, hlev']
                intro q1 q2
                obtain ⟨t, q3, q4, q5⟩ := hsem q1 q2
                exact ⟨t, q3, by rw [hval]; exact q4, by rw [hlev']; exact q5⟩
              · refine ⟨neg a, ⟨h2, Or.inl ?_⟩, ?_⟩
                · rw [h']; show s.clause[0]? = _; rw [hF.clause]; rfl
                · intro hc'
                  have hc' : k1.values (neg a) = -1 := hc'
                  rw [hval] at hc'
                  omega
            · show k1.propagated = k1.trail.length
              rw [hpr, htr]; exact hp
            · intro r hr'
              cases hr'
              refine ⟨⟨true, false, 0, s.clause, if k.antecedents then s.resolved else []⟩, ?_, hF.failed⟩
              show k1.klauses[k.klauses.length]? = _
              rw [hkl]; simp

end Verif.Kitten
