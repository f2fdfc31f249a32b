import Verif.Proofs.Core.Deduce

/-! # Minimization and shrinking of learned clauses -/

namespace Verif.Core

open Verif.Spec

/-- The variable `v` was propagated below the conflict level by literals whose
variables are in `R` (or fixed). -/
def Impl (s : Solver) (R : Nat → Prop) (v : Nat) : Prop :=
  ∃ x, x / 2 = v ∧ s.values x = 1 ∧ s.lev x ≠ 0 ∧ s.lev x < s.level ∧
    (s.assigned (x / 2)).reason ≠ .decision ∧ ∀ m ∈ s.antecedents x, s.lev m = 0 ∨ R (m / 2)

theorem Impl.mono {s : Solver} {R R' : Nat → Prop} {v : Nat} (h : Impl s R v)
    (hR : ∀ v, R v → R' v) : Impl s R' v := by
  obtain ⟨x, h1, h2, h3, h4, h5, h6⟩ := h
  exact ⟨x, h1, h2, h3, h4, h5, fun m hm => (h6 m hm).imp id (hR _)⟩

/-- Every variable in `R` is one of `K` or implied by others in `R`. -/
def Closed (s : Solver) (R : Nat → Prop) (K : Nat → Prop) : Prop :=
  ∀ v, R v → (∃ l, K l ∧ l / 2 = v) ∨ Impl s R v

theorem Closed.up {s : Solver} {L k : Nat} (h : InvAt s L k) (hL : s.level ≤ L)
    {R K : Nat → Prop} (hc : Closed s R K)
    (hK : ∀ l, K l → s.values l = -1) : ∀ (n x : Nat), s.pos x < n → s.values x = 1 → R (x / 2) →
    UP s.formula (fun y => K (neg y)) x := by
  intro n
  induction n with
  | zero => intro x hx; omega
  | succ n ih =>
    intro x hx hv hR
    rcases hc _ hR with ⟨l, hl, e⟩ | ⟨y, e, hy, h0, hlev, hd, ha⟩
    · have hlv := hK l hl
      rcases eq_or_eq_neg e with rfl | rfl
      · omega
      · exact .assumed hl
    · have : y = x := by
        rcases eq_or_eq_neg e with rfl | rfl
        · rfl
        · rw [h.trail.anti] at hy; omega
      subst this
      obtain ⟨a1, a2, a3⟩ := antecedents_ok h hv h0 (.inl (by omega)) hd
      refine a3 _ fun m hm => ?_
      obtain ⟨b1, b2, b3⟩ := a1 m hm
      by_cases hm0 : s.lev m = 0
      · exact UP.root h.trail b1 hm0
      · refine ih (neg m) (by rw [pos_neg]; omega) (h.trail.neg_pos.2 b1) ?_
        rw [neg_div]; exact (ha m hm).resolve_left hm0

theorem Closed.drop {s : Solver} {R K K' : Nat → Prop} (h : Closed s R K) {l : Nat}
    (hi : Impl s R (l / 2)) (hK : ∀ x, K x → x = l ∨ K' x) : Closed s R K' := by
  intro v hv
  rcases h v hv with ⟨x, hx, e⟩ | h
  · rcases hK x hx with rfl | hx
    · rw [← e]; exact .inr hi
    · exact .inl ⟨x, hx, e⟩
  · exact .inr h

theorem Closed.mono {s : Solver} {R K K' : Nat → Prop} (h : Closed s R K)
    (hK : ∀ x, K x → K' x) : Closed s R K' := fun v hv =>
  (h v hv).imp (fun ⟨x, hx, e⟩ => ⟨x, hK x hx, e⟩) id

theorem Closed.insert {s : Solver} {R R' K : Nat → Prop} (h : Closed s R K)
    (hR : ∀ v, R v → R' v) (hn : ∀ v, R' v → R v ∨ Impl s R' v) : Closed s R' K := by
  intro v hv
  rcases hn v hv with hr | hi
  · exact (h v hr).imp id fun h => h.mono hR
  · exact .inr hi

/-- The marks `m'` extend `m` soundly. -/
structure Ext (s : Solver) (m m' : Marks) : Prop where
  sub : ∀ v ∈ m.removable, v ∈ m'.removable
  new : ∀ v ∈ m'.removable, v ∈ m.removable ∨ Impl s (· ∈ m'.removable) v

theorem Ext.refl (s : Solver) (m : Marks) : Ext s m m := ⟨fun _ h => h, fun _ h => .inl h⟩

theorem Ext.trans {s : Solver} {a b c : Marks} (h : Ext s a b) (h' : Ext s b c) : Ext s a c := by
  refine ⟨fun v hv => h'.sub v (h.sub v hv), fun v hv => ?_⟩
  rcases h'.new v hv with hb | hi
  · exact (h.new v hb).imp id fun hi => hi.mono h'.sub
  · exact .inr hi

theorem Ext.closed {s : Solver} {m m' : Marks} (h : Ext s m m') {K : Nat → Prop}
    (hc : Closed s (· ∈ m.removable) K) : Closed s (· ∈ m'.removable) K :=
  hc.insert h.sub h.new

theorem Ext.poison {s : Solver} (m : Marks) (vs : List Nat) : Ext s m (m.push false vs) :=
  ⟨fun _ h => h, fun _ h => .inl h⟩

theorem push_true (m : Marks) (vs : List Nat) (v : Nat) :
    v ∈ (m.push true vs).removable ↔ v ∈ vs ∨ v ∈ m.removable := by
  simp [Marks.push]

theorem Ext.push {s : Solver} {m : Marks} {vs : List Nat}
    (h : ∀ v ∈ vs, Impl s (fun v => v ∈ vs ∨ v ∈ m.removable) v) : Ext s m (m.push true vs) := by
  refine ⟨fun v hv => (push_true m vs v).2 (.inr hv), fun v hv => ?_⟩
  rcases (push_true m vs v).1 hv with hv | hv
  · exact .inr ((h v hv).mono fun v hv => (push_true m vs v).2 hv)
  · exact .inl hv

theorem minimizedIndex_true {s : Solver} {used : Nat → Nat} {m : Marks} {mi top : Bool} {v : Nat}
    (h : minimizedIndex s used m mi top v = some true) :
    (s.assigned v).level = 0 ∨ (v ∈ m.removable ∧ top = false) := by
  unfold minimizedIndex at h
  simp only at h
  split at h
  · exact .inl ‹_›
  · split at h
    · rename_i h'; exact .inr ⟨h'.1, by simpa using h'.2⟩
    · repeat' split at h
      all_goals cases h

theorem minimizedIndex_none {s : Solver} {used : Nat → Nat} {m : Marks} {mi top : Bool} {v : Nat}
    (h : minimizedIndex s used m mi top v = none) :
    (s.assigned v).level ≠ 0 ∧ (s.assigned v).reason ≠ .decision := by
  unfold minimizedIndex at h
  simp only at h
  split at h
  · cases h
  · split at h
    · cases h
    · split at h
      · cases h
      · exact ⟨‹_›, ‹_›⟩

/-- A false literal below the conflict level. -/
def Low (s : Solver) (l : Nat) : Prop := s.values l = -1 ∧ s.lev l < s.level

theorem Low.antecedents {s : Solver} {L k : Nat} (h : InvAt s L k) (hL : s.level ≤ L) {l : Nat}
    (hl : Low s l) (h0 : s.lev l ≠ 0) (hd : (s.assigned (l / 2)).reason ≠ .decision) :
    ∀ m ∈ s.antecedents (neg l), Low s m := by
  intro m hm
  have := (antecedents_ok h (lit := neg l) (h.trail.neg_pos.2 hl.1) (by rw [lev_neg]; exact h0)
    (.inl (by rw [lev_neg]; have := hl.2; omega)) (by rw [neg_div]; exact hd)).1 m hm
  refine ⟨this.1, ?_⟩
  have h2 := this.2.1
  rw [lev_neg] at h2
  have := hl.2
  omega

theorem Low.impl {s : Solver} (ht : TrailInv s) {l : Nat} (hl : Low s l) (h0 : s.lev l ≠ 0)
    (hd : (s.assigned (l / 2)).reason ≠ .decision) {R : Nat → Prop}
    (ha : ∀ m ∈ s.antecedents (neg l), s.lev m = 0 ∨ R (m / 2)) : Impl s R (l / 2) :=
  ⟨neg l, neg_div l, ht.neg_pos.2 hl.1, by rw [lev_neg]; exact h0, by rw [lev_neg]; exact hl.2,
    by rw [neg_div]; exact hd, ha⟩

theorem antecedents_binary {s : Solver} {l o : Nat} (h : (s.assigned (l / 2)).reason = .binary o) :
    s.antecedents (neg l) = [o] := by
  unfold Solver.antecedents; rw [neg_div, h]

theorem antecedents_large {s : Solver} {l r : Nat} (h : (s.assigned (l / 2)).reason = .large r) :
    s.antecedents (neg l) = (s.clause r).lits.filter (· ≠ neg l) := by
  unfold Solver.antecedents; rw [neg_div, h]

theorem minimizeChain_spec {s : Solver} {L k : Nat} (h : InvAt s L k) (hL : s.level ≤ L)
    {used : Nat → Nat} {m : Marks} {mi : Bool} : ∀ (n next : Nat) (acc : List Nat), Low s next →
    (∀ v ∈ acc, Impl s (fun v => v ∈ acc ∨ v = next / 2) v) →
    match minimizeChain s used m mi n next acc with
    | (vs, .inl true) => (∀ v ∈ acc, v ∈ vs) ∧
        (∀ v ∈ vs, Impl s (fun v => v ∈ vs ∨ v ∈ m.removable) v) ∧
        (s.lev next = 0 ∨ next / 2 ∈ vs ∨ next / 2 ∈ m.removable)
    | (_, .inl false) => True
    | (vs, .inr (nx, ref)) => (∀ v ∈ acc, v ∈ vs) ∧ next / 2 ∈ vs ∧
        (s.assigned (nx / 2)).reason = .large ref ∧ Low s nx ∧ s.lev nx ≠ 0 ∧
        (∀ v ∈ vs, v = nx / 2 ∨ Impl s (fun v => v ∈ vs ∨ v ∈ m.removable) v) := by
  intro n
  induction n with
  | zero => intro next acc _ _; simp [minimizeChain]
  | succ n ih =>
    intro next acc hlow hacc
    unfold minimizeChain
    cases hmi : minimizedIndex s used m mi false (next / 2) with
    | some r =>
      cases r with
      | false => trivial
      | true =>
        have := minimizedIndex_true hmi
        refine ⟨fun _ h => h, fun v hv => ?_, ?_⟩
        · rcases this with h0 | ⟨hr, _⟩
          · obtain ⟨x, h1, h2, h3, h4, h5, h6⟩ := hacc v hv
            refine ⟨x, h1, h2, h3, h4, h5, fun y hy => ?_⟩
            rcases h6 y hy with h | h | h
            · exact .inl h
            · exact .inr (.inl h)
            · left
              unfold Solver.lev; rw [h]; exact h0
          · exact (hacc v hv).mono fun w hw => hw.imp id fun (e : w = next / 2) => e ▸ hr
        · exact this.imp id fun h => .inr h.1
    | none =>
      obtain ⟨h0, hd⟩ := minimizedIndex_none hmi
      have h0 : s.lev next ≠ 0 := h0
      have hante := hlow.antecedents h hL h0 hd
      cases hre : (s.assigned (next / 2)).reason with
      | unit => trivial
      | decision => trivial
      | binary o =>
        simp only
        have hlo : Low s o := hante o (by rw [antecedents_binary hre]; simp)
        have := ih o (next / 2 :: acc) hlo (by
          intro v hv
          rcases List.mem_cons.1 hv with rfl | hv
          · refine hlow.impl h.trail h0 hd fun x hx => ?_
            rw [antecedents_binary hre, List.mem_singleton] at hx
            subst hx; exact .inr (.inr rfl)
          · refine (hacc v hv).mono fun v hv => .inl ?_
            rcases hv with hv | rfl
            · exact List.mem_cons_of_mem _ hv
            · exact List.mem_cons_self ..)
        generalize minimizeChain s used m mi n o (next / 2 :: acc) = res at this ⊢
        obtain ⟨vs, res⟩ := res
        cases res with
        | inl b =>
          cases b with
          | false => trivial
          | true =>
            obtain ⟨t1, t2, _⟩ := this
            exact ⟨fun v hv => t1 v (List.mem_cons_of_mem _ hv), t2,
              .inr (.inl (t1 _ (List.mem_cons_self ..)))⟩
        | inr p =>
          obtain ⟨nx, ref⟩ := p
          obtain ⟨t1, t2, t3⟩ := this
          exact ⟨fun v hv => t1 v (List.mem_cons_of_mem _ hv), t1 _ (List.mem_cons_self ..), t3⟩
      | large r =>
        refine ⟨fun v hv => List.mem_cons_of_mem _ hv, List.mem_cons_self .., hre, hlow, h0, ?_⟩
        intro v hv
        rcases List.mem_cons.1 hv with rfl | hv
        · exact .inl rfl
        · refine .inr ((hacc v hv).mono fun v hv => .inl ?_)
          rcases hv with hv | rfl
          · exact List.mem_cons_of_mem _ hv
          · exact List.mem_cons_self ..

theorem minimizeAll_spec {s : Solver} {f : Marks → Nat → Bool × Marks}
    (hf : ∀ m l, Low s l → Ext s m (f m l).2 ∧
      ((f m l).1 = true → s.lev l = 0 ∨ l / 2 ∈ (f m l).2.removable)) :
    ∀ (ls : List Nat) (m : Marks), (∀ l ∈ ls, Low s l) →
    Ext s m (minimizeAll f ls m).2 ∧ ((minimizeAll f ls m).1 = true →
      ∀ l ∈ ls, s.lev l = 0 ∨ l / 2 ∈ (minimizeAll f ls m).2.removable) := by
  intro ls
  induction ls with
  | nil => intro m _; exact ⟨.refl s m, by simp⟩
  | cons l ls ih =>
    intro m hl
    unfold minimizeAll
    have h1 := hf m l (hl l (by simp))
    cases hres : f m l with
    | mk r m' =>
      rw [hres] at h1
      cases r with
      | false => exact ⟨h1.1, by simp⟩
      | true =>
        obtain ⟨h2, h3⟩ := ih m' fun x hx => hl x (by simp [hx])
        refine ⟨h1.1.trans h2, fun hr x hx => ?_⟩
        rcases List.mem_cons.1 hx with rfl | hx
        · exact (h1.2 rfl).imp id (h2.sub _)
        · exact h3 hr x hx

/-- The recursive part of `minimizeLiteral`. -/
def minReason (s : Solver) (used : Nat → Nat) (mi : Bool) (d : Nat) (m : Marks) (lit : Nat) :
    Bool × Marks :=
  match (s.assigned (lit / 2)).reason with
  | .binary other =>
    match minimizeChain s used m mi s.trail.length other [] with
    | (vs, .inl r) => (r, m.push r vs)
    | (vs, .inr (next, ref)) =>
      match d with
      | 0 => (false, m.push false vs)
      | d + 1 =>
        match minimizeAll (minimizeLiteral s used mi d false)
          ((s.clause ref).lits.filter (· ≠ neg next)) m with
        | (r, m) => (r, m.push r vs)
  | .large ref =>
    minimizeAll (minimizeLiteral s used mi d false)
      ((s.clause ref).lits.filter (· ≠ neg lit)) m
  | _ => (false, m)

theorem minimizeLiteral_eq (s : Solver) (used : Nat → Nat) (mi : Bool) (d : Nat) (top : Bool)
    (m : Marks) (lit : Nat) : minimizeLiteral s used mi (d + 1) top m lit =
    match minimizedIndex s used m mi top (lit / 2) with
    | some r => (r, m)
    | none => if top then minReason s used mi d m lit else
      ((minReason s used mi d m lit).1,
        (minReason s used mi d m lit).2.push (minReason s used mi d m lit).1 [lit / 2]) := by
  rw [minimizeLiteral]
  rfl

theorem minimizeLiteral_spec {s : Solver} {L k : Nat} (h : InvAt s L k) (hL : s.level ≤ L)
    {used : Nat → Nat} {mi : Bool} : ∀ (d : Nat) (top : Bool) (m : Marks) (lit : Nat),
    Low s lit →
    Ext s m (minimizeLiteral s used mi d top m lit).2 ∧
    ((minimizeLiteral s used mi d top m lit).1 = true → s.lev lit = 0 ∨
      if top then Impl s (· ∈ (minimizeLiteral s used mi d top m lit).2.removable) (lit / 2)
      else lit / 2 ∈ (minimizeLiteral s used mi d top m lit).2.removable) := by
  intro d
  induction d using Nat.strongRecOn with
  | _ d ih =>
    intro top m lit hlow
    cases d with
    | zero => unfold minimizeLiteral; exact ⟨.refl s m, by simp⟩
    | succ d =>
      rw [minimizeLiteral_eq]
      cases hmi : minimizedIndex s used m mi top (lit / 2) with
      | some r =>
        refine ⟨.refl s m, fun hr => ?_⟩
        have hr : r = true := hr
        subst hr
        rcases minimizedIndex_true hmi with h0 | ⟨h1, h2⟩
        · exact .inl h0
        · subst h2; exact .inr h1
      | none =>
        obtain ⟨h0, hd⟩ := minimizedIndex_none hmi
        have h0 : s.lev lit ≠ 0 := h0
        have hante := hlow.antecedents h hL h0 hd
        simp only
        -- the recursive part
        have key : ∀ res : Bool × Marks, res = minReason s used mi d m lit →
            Ext s m res.2 ∧ (res.1 = true → Impl s (· ∈ res.2.removable) (lit / 2)) := by
          intro res hres
          unfold minReason at hres
          cases hre : (s.assigned (lit / 2)).reason with
          | unit => rw [hre] at hres; subst hres; exact ⟨.refl s m, by simp⟩
          | decision => rw [hre] at hres; subst hres; exact ⟨.refl s m, by simp⟩
          | binary o =>
            rw [hre] at hres
            simp only at hres
            have hlo : Low s o := hante o (by rw [antecedents_binary hre]; simp)
            have hch := minimizeChain_spec h hL (used := used) (m := m) (mi := mi)
              s.trail.length o [] hlo (by simp)
            generalize minimizeChain s used m mi s.trail.length o [] = ch at hch hres
            obtain ⟨vs, ch⟩ := ch
            have himpl : ∀ R : Nat → Prop, (s.lev o = 0 ∨ R (o / 2)) → Impl s R (lit / 2) :=
              fun R hR => hlow.impl h.trail h0 hd fun x hx => by
                rw [antecedents_binary hre, List.mem_singleton] at hx
                subst hx; exact hR
            cases ch with
            | inl b =>
              simp only at hres
              subst hres
              cases b with
              | false => exact ⟨Ext.poison m vs, by simp⟩
              | true =>
                obtain ⟨_, c2, c3⟩ := hch
                refine ⟨Ext.push c2, fun _ => himpl _ ?_⟩
                exact c3.imp id fun h => (push_true m vs _).2 h
            | inr p =>
              obtain ⟨nx, ref⟩ := p
              simp only at hres hch
              obtain ⟨_, c2, c3, c4, c5, c6⟩ := hch
              cases d with
              | zero => simp only at hres; subst hres; exact ⟨Ext.poison m vs, by simp⟩
              | succ d =>
                simp only at hres
                have hnd : (s.assigned (nx / 2)).reason ≠ .decision := by rw [c3]; simp
                have hall := minimizeAll_spec (s := s) (f := minimizeLiteral s used mi d false)
                  (fun m l hl => by
                    have := ih d (by omega) false m l hl
                    simpa using this)
                  ((s.clause ref).lits.filter (· ≠ neg nx)) m (by
                    rw [← antecedents_large c3]
                    exact c4.antecedents h hL c5 hnd)
                generalize minimizeAll (minimizeLiteral s used mi d false)
                  ((s.clause ref).lits.filter (· ≠ neg nx)) m = al at hall hres
                obtain ⟨r, m'⟩ := al
                simp only at hres hall
                subst hres
                cases r with
                | false => exact ⟨hall.1.trans (Ext.poison m' vs), by simp⟩
                | true =>
                  have hp : Ext s m' (m'.push true vs) := by
                    refine Ext.push fun v hv => ?_
                    rcases c6 v hv with rfl | hi
                    · refine c4.impl h.trail c5 hnd fun x hx => ?_
                      rw [antecedents_large c3] at hx
                      exact (hall.2 rfl x hx).imp id .inr
                    · exact hi.mono fun v hv => hv.imp id (hall.1.sub v)
                  refine ⟨hall.1.trans hp, fun _ => himpl _ (.inr ?_)⟩
                  exact (push_true m' vs _).2 (.inl c2)
          | large ref =>
            rw [hre] at hres
            simp only at hres
            subst hres
            have hall := minimizeAll_spec (s := s) (f := minimizeLiteral s used mi d false)
              (fun m l hl => by
                have := ih d (by omega) false m l hl
                simpa using this)
              ((s.clause ref).lits.filter (· ≠ neg lit)) m (by
                rw [← antecedents_large hre]; exact hante)
            refine ⟨hall.1, fun hr => ?_⟩
            refine hlow.impl h.trail h0 hd fun x hx => ?_
            rw [antecedents_large hre] at hx
            exact hall.2 hr x hx
        have key' := key _ rfl
        revert key'
        generalize minReason s used mi d m lit = res
        intro key'
        obtain ⟨r, m'⟩ := res
        simp only at key'
        cases top with
        | true => exact ⟨key'.1, fun hr => .inr (key'.2 hr)⟩
        | false =>
          simp only [Bool.false_eq_true, if_false]
          cases r with
          | false => exact ⟨key'.1.trans (Ext.poison m' _), by simp⟩
          | true =>
            refine ⟨key'.1.trans (Ext.push ?_), fun _ => .inr ((push_true m' _ _).2 (.inl (by simp)))⟩
            intro v hv
            rw [List.mem_singleton] at hv
            subst hv
            exact (key'.2 rfl).mono fun v hv => .inr hv

theorem minimizeLoop_spec {s : Solver} {L k : Nat} (h : InvAt s L k) (hL : s.level ≤ L)
    {used : Nat → Nat} {mi : Bool} : ∀ (ls : List Nat) (m : Marks) (A : Nat → Prop),
    (∀ l ∈ ls, Low s l ∧ s.lev l ≠ 0) →
    Closed s (· ∈ m.removable) (fun x => A x ∨ x ∈ ls) →
    Ext s m (minimizeLoop s used mi ls m).2 ∧
    (minimizeLoop s used mi ls m).1.Sublist ls ∧
    Closed s (· ∈ (minimizeLoop s used mi ls m).2.removable)
      (fun x => A x ∨ x ∈ (minimizeLoop s used mi ls m).1) := by
  intro ls
  induction ls with
  | nil => intro m A _ hc; exact ⟨.refl s m, .slnil, hc⟩
  | cons l ls ih =>
    intro m A hl hc
    unfold minimizeLoop
    obtain ⟨h1, h2⟩ := minimizeLiteral_spec h hL (used := used) (mi := mi)
      s.options.minimizedepth true m l (hl l (by simp)).1
    generalize minimizeLiteral s used mi s.options.minimizedepth true m l = res at h1 h2 ⊢
    obtain ⟨r, m'⟩ := res
    simp only at h1 h2 ⊢
    have hc' := h1.closed hc
    cases r with
    | false =>
      obtain ⟨i1, i2, i3⟩ := ih m' (fun x => A x ∨ x = l) (fun x hx => hl x (by simp [hx]))
        (hc'.mono fun x hx => by
          rcases hx with h | h
          · exact .inl (.inl h)
          · rcases List.mem_cons.1 h with h | h
            · exact .inl (.inr h)
            · exact .inr h)
      generalize minimizeLoop s used mi ls m' = res at i1 i2 i3 ⊢
      obtain ⟨ks, m''⟩ := res
      simp only [Bool.false_eq_true, if_false] at i1 i2 i3 ⊢
      refine ⟨h1.trans i1, i2.cons_cons l, i3.mono fun x hx => ?_⟩
      rcases hx with (h | rfl) | h
      · exact .inl h
      · exact .inr (List.mem_cons_self ..)
      · exact .inr (List.mem_cons_of_mem _ h)
    | true =>
      have himpl := (h2 rfl).resolve_left (hl l (by simp)).2
      simp only [if_true] at himpl
      obtain ⟨i1, i2, i3⟩ := ih m' A (fun x hx => hl x (by simp [hx]))
        (hc'.drop himpl fun x hx => by
          rcases hx with h | h
          · exact .inr (.inl h)
          · rcases List.mem_cons.1 h with h | h
            · exact .inl h
            · exact .inr (.inr h))
      generalize minimizeLoop s used mi ls m' = res at i1 i2 i3 ⊢
      obtain ⟨ks, m''⟩ := res
      exact ⟨h1.trans i1, i2.cons l, i3⟩

end Verif.Core
