import Verif.Model.Restart
import Verif.Proofs.Decide

namespace Verif.Proofs.Restart

open Verif.Core
open Verif.Model
open Verif.Model.Restart

variable {α : Type} [LinearOrder α]

theorem reuseLoop_spec {frames : List Frame} {stop : Nat → Bool} : ∀ (n : Nat) {res : Nat},
    res + n ≤ frames.length → (∀ (j : Nat) (f : Frame), j < res → frames[j]? = some f → stop (f.decision / 2) = false) →
    ∃ r, reuseLoop frames stop n res = some r ∧ r ≤ res + n ∧
      (∀ (j : Nat) (f : Frame), j < r → frames[j]? = some f → stop (f.decision / 2) = false) ∧
      (r < res + n → ∀ (f : Frame), frames[r]? = some f → stop (f.decision / 2) = true)
  | 0, res, _, hj => ⟨res, rfl, Nat.le_refl _, hj, fun h => absurd h (Nat.lt_irrefl _)⟩
  | n + 1, res, hl, hj => by
    have hlt : res < frames.length := by omega
    have he : frames[res]? = some frames[res] := List.getElem?_eq_getElem hlt
    by_cases hs : stop (frames[res].decision / 2) = true
    · refine ⟨res, ?_, by omega, hj, fun _ f hf => ?_⟩
      · rw [reuseLoop, he]; simp only; rw [if_pos hs]
      · rw [he] at hf; cases hf; exact hs
    · obtain ⟨r, e, h1, h2, h3⟩ := reuseLoop_spec (frames := frames) (stop := stop) n (res := res + 1) (by omega) (fun j f hlt' hf => by
        rcases Nat.lt_succ_iff_lt_or_eq.1 hlt' with h | rfl
        · exact hj j f h hf
        · rw [he] at hf; cases hf; simpa using hs)
      refine ⟨r, ?_, by omega, h2, fun h => h3 (by omega)⟩
      rw [reuseLoop, he]; simp only; rw [if_neg hs]; exact e

/-- Looking for the next decision keeps stamps, scores and the mode. -/
theorem next_same {zero : α} {d d' : Decide.State α} {l : List Nat} {v : Nat} (hi : Decide.DInv zero d l)
    (hex : ∃ v, d.active v = true ∧ d.assigned v = false) (h : d.next = some (v, d')) :
    (∀ w, d'.heap.getScore zero w = d.heap.getScore zero w) ∧ d'.queue.stampOf = d.queue.stampOf ∧
      d'.stable = d.stable := by
  unfold Decide.State.next at h
  cases hst : d.stable with
  | true =>
    obtain ⟨x, hx, hxa⟩ := hex
    obtain ⟨r, k, r1, -, -, -, -, -, -, -, r9⟩ :=
      Decide.largestLoop_spec (zero := zero) (assigned := d.assigned) (d.heap.count + 1) hi.heap
        (Nat.lt_succ_self _) ⟨x, hi.stable hst x hx hxa, hxa⟩
    simp only [hst, if_true, r1, Option.map_some] at h
    cases h
    exact ⟨r9, rfl, rfl⟩
  | false =>
    simp only [hst, Bool.false_eq_true, if_false] at h
    obtain ⟨⟨r, q⟩, h1, h2⟩ := Option.map_eq_some_iff.1 h
    cases h2
    refine ⟨fun _ => rfl, ?_, rfl⟩
    show q.stampOf = _
    unfold Queue.Queue.lastUnassigned at h1
    cases hq : d.queue.search with
    | none => rw [hq] at h1; cases h1
    | some x =>
      rw [hq] at h1
      simp only at h1
      by_cases ha : d.assigned x = true
      · rw [if_pos ha] at h1
        obtain ⟨y, -, h3⟩ := Option.map_eq_some_iff.1 h1
        cases h3; rfl
      · rw [if_neg ha] at h1
        cases h1; rfl

theorem update_limit {logn : Nat → Nat} (hl : ∀ n, n ≠ 0 → 1 ≤ logn n) (p : Pace) :
    p.conflicts + p.interval ≤ (p.update logn).limit ∧ (p.update logn).conflicts = p.conflicts ∧
      (p.update logn).interval = p.interval := by
  refine ⟨?_, rfl, rfl⟩
  unfold Pace.update
  simp only
  split
  · have := hl _ ‹_›
    omega
  · exact Nat.le_refl _

/-- A bound on the limit is kept and every later restart respects it. -/
theorem run_after {logn : Nat → Nat} (hl : ∀ n, n ≠ 0 → 1 ≤ logn n) {b : Nat} : ∀ (es : List Event) {p : Pace},
    b ≤ p.conflicts + p.interval → b ≤ p.limit → ∀ x ∈ p.run logn es, b ≤ x.1
  | [], _, _, _, x, hx => absurd hx List.not_mem_nil
  | e :: es, p, hc, hb, x, hx => by
    have hstep : b ≤ (p.step logn e).1.conflicts + (p.step logn e).1.interval ∧ b ≤ (p.step logn e).1.limit ∧
        ((p.step logn e).2 = true → b ≤ p.conflicts) := by
      cases e with
      | conflict => exact ⟨by simp only [Pace.step]; omega, hb, fun h => by cases h⟩
      | test level due =>
        simp only [Pace.step]
        by_cases hr : p.restarting level due = true
        · rw [if_pos hr]
          have hle : p.limit ≤ p.conflicts := by
            unfold Pace.restarting at hr
            split at hr
            · cases hr
            · split at hr
              · cases hr
              · split at hr
                · cases hr
                · omega
          simp only
          split
          · obtain ⟨h1, h2, h3⟩ := update_limit hl { p with restarts := p.restarts + 1 }
            simp only at h1 h2 h3
            exact ⟨by rw [h2, h3]; exact hc, by omega, fun _ => by omega⟩
          · exact ⟨hc, hb, fun _ => by omega⟩
        · rw [if_neg hr]
          exact ⟨hc, hb, fun h => by cases h⟩
      | toStable => exact ⟨hc, hb, fun h => by cases h⟩
      | toFocused =>
        obtain ⟨h1, h2, h3⟩ := update_limit hl { p with stable := false }
        simp only at h1 h2 h3
        exact ⟨by simp only [Pace.step]; rw [h2, h3]; exact hc, by simp only [Pace.step]; omega, fun h => by cases h⟩
      | search st =>
        simp only [Pace.step]
        split
        · obtain ⟨h1, h2, h3⟩ := update_limit hl { p with stable := st }
          simp only at h1 h2 h3
          exact ⟨by rw [h2, h3]; exact hc, by omega, fun h => by cases h⟩
        · exact ⟨hc, hb, fun h => by cases h⟩
    obtain ⟨h1, h2, h3⟩ := hstep
    rw [Pace.run] at hx
    by_cases hr : (p.step logn e).2 = true
    · rw [if_pos hr] at hx
      rcases List.mem_cons.1 hx with rfl | hx
      · exact h3 hr
      · exact run_after hl es h1 h2 x hx
    · rw [if_neg hr] at hx
      exact run_after hl es h1 h2 x hx

/-- Restarts in focused mode are followed by a pause. -/
theorem run_pause {logn : Nat → Nat} (hl : ∀ n, n ≠ 0 → 1 ≤ logn n) : ∀ (es : List Event) (p : Pace)
    {a b : List (Nat × Bool)} {n : Nat}, p.run logn es = a ++ (n, true) :: b → ∀ x ∈ b, n + p.interval ≤ x.1
  | [], p, a, b, n, h => by simp [Pace.run] at h
  | e :: es, p, a, b, n, h => by
    have hiv : (p.step logn e).1.interval = p.interval := by
      cases e <;> simp only [Pace.step] <;> (try rfl)
      · split
        · simp only; split <;> rfl
        · rfl
      · split <;> rfl
    have ih : ∀ {a b : List (Nat × Bool)} {n : Nat}, (p.step logn e).1.run logn es = a ++ (n, true) :: b →
        ∀ x ∈ b, n + p.interval ≤ x.1 := fun h => by
      have := run_pause hl es (p.step logn e).1 h
      rwa [hiv] at this
    rw [Pace.run] at h
    by_cases hr : (p.step logn e).2 = true
    · rw [if_pos hr] at h
      cases a with
      | cons y a => exact ih (List.cons.inj h).2
      | nil =>
        obtain ⟨h1, h2⟩ := List.cons.inj h
        have hn : p.conflicts = n := (Prod.mk.inj h1).1
        have hst : p.stable = false := by simpa using (Prod.mk.inj h1).2
        have hlim : n + p.interval ≤ (p.step logn e).1.conflicts + (p.step logn e).1.interval ∧
            n + p.interval ≤ (p.step logn e).1.limit := by
          cases e with
          | test level due =>
            simp only [Pace.step] at hr ⊢
            split at hr
            · rename_i hrr
              rw [if_pos hrr]
              simp only
              rw [if_pos hst]
              obtain ⟨h1, h2, h3⟩ := update_limit hl { p with restarts := p.restarts + 1 }
              simp only at h1 h2 h3
              exact ⟨by rw [h2, h3]; omega, by omega⟩
            · cases hr
          | _ => cases hr
        intro x hx
        rw [← h2] at hx
        exact run_after hl es hlim.1 hlim.2 x hx
    · rw [if_neg hr] at h
      exact ih h

end Verif.Proofs.Restart
