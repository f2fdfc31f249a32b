import Verif.Proofs.Compact.Values
import Verif.Proofs.Heap

/-! # Compaction: the score heap -/

namespace Verif.Compact

open Verif.Model.Heap (Heap)

theorem foldlM_ok {σ : Type} {f : σ → Nat → Option σ} {full : List Nat} (P : List Nat → σ → Prop)
    (hstep : ∀ pre x post s, full = pre ++ x :: post → P pre s → ∃ s', f s x = some s' ∧ P (pre ++ [x]) s') :
    ∀ (post pre : List Nat) (s : σ), full = pre ++ post → P pre s →
      ∃ s', post.foldlM f s = some s' ∧ P full s'
  | [], pre, s, he, h => ⟨s, rfl, by rw [he, List.append_nil]; exact h⟩
  | x :: post, pre, s, he, h => by
    obtain ⟨s1, h1, h2⟩ := hstep pre x post s he h
    obtain ⟨s', h3, h4⟩ := foldlM_ok P hstep post (pre ++ [x]) s1 (by rw [he]; simp) h2
    refine ⟨s', ?_, h4⟩
    rw [List.foldlM_cons, h1]
    exact h3

variable {α : Type} [LinearOrder α]

/-- The new heap holds the renumbered variables with the same scores. -/
theorem compactScores_ok {zero : α} {junkScore : Nat → α} {junkPos : Nat → Option Nat} {junkStack : Nat → Nat}
    {m : Nat → Option Nat} {vars newVars : Nat} {old : Heap α} (ho : Model.Heap.Inv zero old)
    (hv : ∀ v, old.contains v = true → v < vars)
    (hm : ∀ v d, v < vars → m v = some d → d < newVars)
    (hinj : ∀ v w d, v < vars → w < vars → m v = some d → m w = some d → v = w) :
    ∃ new, compactScores zero junkScore junkPos junkStack m vars newVars old = some new ∧
      Model.Heap.Inv zero new ∧
      (∀ d, new.contains d = true ↔ ∃ v, old.contains v = true ∧ m v = some d) ∧
      (∀ v d, v < vars → m v = some d → new.getScore zero d = old.getScore zero v) := by
  have hi := Model.Heap.init_inv zero junkScore junkPos junkStack
  obtain ⟨n1, n2, n3, n4, n5, n6⟩ := Model.Heap.resize_spec hi junkScore junkPos newVars
  unfold compactScores
  simp only
  generalize hnew : (Heap.init junkScore junkPos junkStack).resize zero junkScore junkPos newVars = new at *
  have hempty : ∀ v, new.contains v = false := fun v => by
    rw [n5]
    unfold Heap.contains Heap.init
    simp
  have hzero : ∀ v, new.getScore zero v = zero := fun v => by
    rw [n6]
    unfold Heap.getScore Heap.init
    simp
  -- copying the scores
  have hcopied : ∃ h1, (if old.tainted = true then
      (List.range vars).foldlM (copyScore zero m old) new
    else some new) = some h1 ∧ Model.Heap.Inv zero h1 ∧ newVars ≤ h1.size ∧ (∀ v, h1.contains v = false) ∧
      ∀ v d, v < vars → m v = some d → h1.getScore zero d = old.getScore zero v := by
    by_cases ht : old.tainted = true
    · rw [if_pos ht]
      obtain ⟨h1, e, h2, h3, h4, h5⟩ := foldlM_ok (full := List.range vars)
        (f := copyScore zero m old)
        (fun pre h => Model.Heap.Inv zero h ∧ newVars ≤ h.size ∧ (∀ v, h.contains v = false) ∧
          ∀ v ∈ pre, ∀ d, m v = some d → h.getScore zero d = old.getScore zero v)
        (fun pre x post h hfull hp => by
          obtain ⟨p1, p2, p3, p4⟩ := hp
          have hx : x < vars := List.mem_range.1 (by rw [hfull]; simp)
          have hpre : ∀ v ∈ pre, v < vars := fun v hv => List.mem_range.1 (by rw [hfull]; simp [hv])
          have hxp : x ∉ pre := by
            have := List.nodup_range (n := vars)
            rw [hfull, List.nodup_append] at this
            exact fun hc => this.2.2 x hc x (by simp) rfl
          unfold copyScore
          cases hmx : m x with
          | none =>
            refine ⟨h, rfl, p1, p2, p3, fun v hv d hd => ?_⟩
            rcases List.mem_append.1 hv with hv | hv
            · exact p4 v hv d hd
            · rw [List.mem_singleton.1 hv, hmx] at hd; cases hd
          | some y =>
            have hy := hm x y hx hmx
            obtain ⟨h', u1, u2, u3, u4, u5⟩ := Model.Heap.update_spec p1 (idx := y) (by omega)
              (old.getScore zero x)
            refine ⟨h', u1, u2, by omega, fun v => (u4 v).trans (p3 v), fun v hv d hd => ?_⟩
            rw [u5]
            rcases List.mem_append.1 hv with hv | hv
            · have hne : d ≠ y := by
                intro e
                rw [e] at hd
                exact hxp (hinj v x y (hpre v hv) hx hd hmx ▸ hv)
              rw [if_neg hne]
              exact p4 v hv d hd
            · rw [List.mem_singleton.1 hv] at hd ⊢
              rw [hmx] at hd
              cases hd
              rw [if_pos rfl])
        (List.range vars) [] new rfl ⟨n1, n3, hempty, fun v hv => by cases hv⟩
      exact ⟨h1, e, h2, h3, h4, fun v d hv hd => h5 v (List.mem_range.2 hv) d hd⟩
    · rw [if_neg ht]
      refine ⟨new, rfl, n1, n3, hempty, fun v d _ _ => ?_⟩
      rw [hzero]
      unfold Heap.getScore
      split
      · rename_i hlt
        exact (ho.zero (by simpa using ht) v (Nat.lt_of_lt_of_le hlt ho.size)).symm
      · rfl
  obtain ⟨h1, e, c1, c2, c3, c4⟩ := hcopied
  rw [e, Option.bind_some]
  have hold : ∀ v, v ∈ (List.range old.count).map old.stack ↔ old.contains v = true := by
    intro v
    rw [List.mem_map, Model.Heap.contains_iff]
    constructor
    · rintro ⟨i, hi, rfl⟩
      have hi := List.mem_range.1 hi
      rw [ho.link.elem i hi]
      exact ⟨ho.link.lt i hi, rfl⟩
    · rintro ⟨h1, h2⟩
      obtain ⟨i, hi⟩ := Option.isSome_iff_exists.1 h2
      obtain ⟨h3, h4⟩ := ho.link.place v h1 i hi
      exact ⟨i, List.mem_range.2 h3, h4⟩
  have hnodup : ((List.range old.count).map old.stack).Nodup := by
    rw [List.nodup_iff_pairwise_ne, List.pairwise_map]
    have := List.nodup_range (n := old.count)
    rw [List.nodup_iff_pairwise_ne] at this
    refine List.Pairwise.imp_of_mem ?_ this
    intro a b ha hb hab e
    exact hab (ho.link.inj (List.mem_range.1 ha) (List.mem_range.1 hb) e)
  generalize hls : (List.range old.count).map old.stack = ls at *
  obtain ⟨h2, e2, d1, d2, d3, d4⟩ := foldlM_ok (full := ls)
    (f := pushMapped zero m)
    (fun pre h => Model.Heap.Inv zero h ∧ newVars ≤ h.size ∧
      (∀ d, h.contains d = true ↔ ∃ v ∈ pre, m v = some d) ∧
      ∀ v, h.getScore zero v = h1.getScore zero v)
    (fun pre x post h hfull hp => by
      obtain ⟨p1, p2, p3, p4⟩ := hp
      have hlt : ∀ v ∈ ls, v < vars := fun v hv' => hv v ((hold v).1 hv')
      have hxl : x ∈ ls := by rw [hfull]; simp
      have hxp : x ∉ pre := by
        rw [hfull, List.nodup_append] at hnodup
        exact fun hc => hnodup.2.2 x hc x (by simp) rfl
      unfold pushMapped
      cases hmx : m x with
      | none =>
        refine ⟨h, rfl, p1, p2, fun d => ?_, p4⟩
        rw [p3]
        constructor
        · rintro ⟨v, h1, h2⟩
          exact ⟨v, by simp [h1], h2⟩
        · rintro ⟨v, h1, h2⟩
          rcases List.mem_append.1 h1 with h1 | h1
          · exact ⟨v, h1, h2⟩
          · rw [List.mem_singleton.1 h1, hmx] at h2; cases h2
      | some y =>
        have hy := hm x y (hlt x hxl) hmx
        obtain ⟨h', u1, u2, u3, u4, u5⟩ := Model.Heap.push_spec p1 (idx := y) (by omega) (by
          cases hc : h.contains y with
          | false => rfl
          | true =>
            obtain ⟨v, h1, h2⟩ := (p3 y).1 hc
            have hvl : v ∈ ls := by rw [hfull]; simp [h1]
            exact absurd (hinj v x y (hlt v hvl) (hlt x hxl) h2 hmx ▸ h1) hxp)
        refine ⟨h', u1, u2, by omega, fun d => ?_, fun v => (u5 v).trans (p4 v)⟩
        rw [u4, p3]
        constructor
        · rintro (⟨v, h1, h2⟩ | rfl)
          · exact ⟨v, by simp [h1], h2⟩
          · exact ⟨x, by simp, hmx⟩
        · rintro ⟨v, h1, h2⟩
          rcases List.mem_append.1 h1 with h1 | h1
          · exact Or.inl ⟨v, h1, h2⟩
          · rw [List.mem_singleton.1 h1, hmx] at h2
            cases h2; exact Or.inr rfl)
    ls [] h1 rfl ⟨c1, c2, fun d => ⟨fun hc => (by rw [c3] at hc; cases hc), fun hc => (by obtain ⟨v, hv, _⟩ := hc; cases hv)⟩,
      fun v => rfl⟩
  refine ⟨h2, e2, d1, fun d => ?_, fun v d hv' hd => by rw [d4, c4 v d hv' hd]⟩
  rw [d3]
  constructor
  · rintro ⟨v, h3, h4⟩
    exact ⟨v, (hold v).1 h3, h4⟩
  · rintro ⟨v, h3, h4⟩
    exact ⟨v, (hold v).2 h3, h4⟩

end Verif.Compact
