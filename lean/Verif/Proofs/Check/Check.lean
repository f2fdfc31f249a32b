import Verif.Proofs.Check.Ops

/-! Checking a clause. -/

namespace Verif.Check

open Verif.Spec

/-- Why a clause may be accepted, in terms of the clauses `S` added so far and the clauses
`db` still present. -/
def Justified (S db : List (List Nat)) (C : List Nat) : Prop :=
  RUP (ofList S) C ∨ ∃ l ∈ C, UP (ofList S) none' (neg l) ∨
    ∀ d ∈ db, neg l ∈ d → l ∉ d → RUP (ofList S) (C ++ d.filter (· ≠ neg l))

theorem rup_of_root {F : Formula} {C : List Nat} {l : Nat} (h : UP F none' l) (hl : l ∈ C) :
    RUP F C := by
  by_cases e : neg l ∈ C
  · exact .inr ⟨l, hl, e⟩
  · left
    have h' : UP F (fun x => neg x ∈ C) l := h.mono (fun c hc => ⟨c, hc, .refl c⟩) fun _ h => h.elim
    exact h'.conflict (.assumed (by rw [Spec.neg_neg]; exact hl)) e

theorem rup_of_up {F : Formula} {C E : List Nat} {l : Nat} (h : UP F (fun x => neg x ∈ C) l)
    (hs : ∀ x ∈ C, x ∈ E) (hl : l ∈ E) : RUP F E := by
  by_cases e : neg l ∈ E
  · exact .inr ⟨l, hl, e⟩
  · left
    have h' : UP F (fun x => neg x ∈ E) l :=
      h.mono (fun c hc => ⟨c, hc, .refl c⟩) fun x hx => .assumed (hs _ hx)
    exact h'.conflict (.assumed (by rw [Spec.neg_neg]; exact hl)) e

theorem rup_of_conflict {F : Formula} (h : UPConflict F none') (C : List Nat) : RUP F C :=
  .inl (h.mono (fun c hc => ⟨c, hc, .refl c⟩) fun _ h => h.elim)

/-- What the loop assigning the negation of the literals does. -/
def DecideOk (C done : List Nat) (c : Checker) : Decided → Prop
  | .failedAssertion => ¬ C.Nodup
  | .accepted c' => Wf c' ∧ Frame c c' ∧ (∃ e, c'.trail = c.trail ++ e) ∧
      ∃ l ∈ C, l ∈ c.trail ∨ neg l ∈ C ∨ (c.used (neg l) = false ∧ l ∉ c.trail ∧ neg l ∉ c.trail)
  | .assigned c' => Wf c' ∧ Frame c c' ∧
      (∃ e, c'.trail = c.trail ++ e ∧ ∀ x ∈ e, neg x ∈ C) ∧ ∀ l ∈ C, c'.values l = -1

theorem decideLoop_ok {C : List Nat} {c0 : Checker} : ∀ (rest : List Nat) (prev : Option Nat)
    (done : List Nat) (c : Checker),
    C = done ++ rest → (∀ p, prev = some p → p ∈ done) →
    (∀ l ∈ C, l / 2 < c0.vars) → Wf c → Frame c0 c →
    (∃ e, c.trail = c0.trail ++ e ∧ ∀ x ∈ e, neg x ∈ done) → (∀ l ∈ done, c.values l = -1) →
    DecideOk C done c0 (decideLoop rest prev c) := by
  intro rest
  induction rest with
  | nil =>
    intro prev done c hC hp hb hw hf ⟨e, he, hn⟩ hv
    rw [List.append_nil] at hC
    subst hC
    exact ⟨hw, hf, ⟨e, he, hn⟩, hv⟩
  | cons l rest ih =>
    intro prev done c hC hp hb hw hf ⟨e, he, hn⟩ hv
    have hlC : l ∈ C := by rw [hC]; simp
    have hdC : ∀ x ∈ done, x ∈ C := fun x hx => by rw [hC]; exact List.mem_append_left _ hx
    have hC' : C = (done ++ [l]) ++ rest := by rw [hC]; simp
    unfold decideLoop
    split
    · next h =>
      intro hnd
      rw [hC] at hnd
      exact (List.nodup_append.1 hnd).2.2 l (hp l h) l (List.mem_cons_self ..) rfl
    · split
      · next h =>
        refine ih (some l) (done ++ [l]) c hC' (by simp) hb hw hf
          ⟨e, he, fun x hx => List.mem_append_left _ (hn x hx)⟩ fun x hx => ?_
        rcases List.mem_append.1 hx with hx | hx
        · exact hv x hx
        · rw [List.mem_singleton.1 hx]
          rcases hw.dom l with h' | h' | h' <;> omega
      · split
        · next h =>
          have hm : l ∈ c.trail := by
            rw [hw.trail]; rcases hw.dom l with h' | h' | h' <;> omega
          refine ⟨hw, hf, ⟨e, he⟩, l, hlC, ?_⟩
          rw [he] at hm
          rcases List.mem_append.1 hm with hm | hm
          · exact .inl hm
          · exact .inr (.inl (hdC _ (hn l hm)))
        · have hv0 : c.values l = 0 := by omega
          have hnv : c.values (neg l) = 0 := by rw [hw.anti, hv0]; rfl
          split
          · next h1 h2 h3 h =>
            refine ⟨hw, hf, ⟨e, he⟩, l, hlC, .inr (.inr ⟨?_, ?_, ?_⟩)⟩
            · rw [← hf.used]; simpa using h
            · intro hm
              have := (hw.trail l).1 (by rw [he]; exact List.mem_append_left _ hm)
              omega
            · intro hm
              have := (hw.trail (neg l)).1 (by rw [he]; exact List.mem_append_left _ hm)
              omega
          · refine ih (some l) (done ++ [l]) (c.assign (neg l)) hC' (by simp) hb
              (hw.assign hnv (by rw [neg_div, hf.vars]; exact hb l hlC))
              (hf.trans (frame_assign c _)) ⟨e ++ [neg l], ?_, fun x hx => ?_⟩ fun x hx => ?_
            · show c.trail ++ [neg l] = _
              rw [he, List.append_assoc]
            · rcases List.mem_append.1 hx with hx | hx
              · exact List.mem_append_left _ (hn x hx)
              · rw [List.mem_singleton.1 hx, Spec.neg_neg]; simp
            · rw [Checker.values_assign, Spec.neg_neg]
              split
              · rfl
              · next e1 =>
                rcases List.mem_append.1 hx with hx | hx
                · have := hv x hx
                  split
                  · next e2 => rw [e2] at this; omega
                  · exact this
                · exact absurd (List.mem_singleton.1 hx) e1

/-- Flipping a literal in a model keeps it a model if clauses with its negation have another
true literal. -/
theorem Model.flip {σ : Assignment} {c : Checker} (h : Model σ c) {l : Nat} (hl : neg l ∉ c.trail)
    (hc : ∀ i, c.Live i → neg l ∈ (c.line i).lits →
      ∃ o ∈ (c.line i).lits, o ≠ neg l ∧ litTrue σ o) : Model (Spec.flip σ l) c := by
  have key : ∀ m, m ≠ neg l → litTrue σ m → litTrue (Spec.flip σ l) m := fun m hm ht => by
    by_cases e : m = l
    · rw [e]; exact flip_true σ l
    · refine (flip_other fun hd => ?_).2 ht
      rcases eq_or_eq_neg hd with h | h
      · exact e h
      · exact hm h
  refine ⟨h.inc, fun i hi => ?_, fun x hx => key x (fun e => hl (e ▸ hx)) (h.trail x hx)⟩
  by_cases hn : neg l ∈ (c.line i).lits
  · obtain ⟨o, ho, hne, ht⟩ := hc i hi hn
    exact ⟨o, ho, key o hne ht⟩
  · obtain ⟨o, ho, ht⟩ := h.lines i hi
    exact ⟨o, ho, key o (fun e => hn (e ▸ ho)) ht⟩

/-- The core of the argument for pure and blocked literals. -/
theorem justified_of {nonces : Nat → Nat} {nd : Prop} {S db : List (List Nat)} {c : Checker}
    (h : Inv nonces nd S db c) (hi : c.inconsistent = false) (n : nd) (hdb : ∀ d ∈ db, d.Nodup)
    {C : List Nat} {l : Nat} (hl : l ∈ C)
    (hb : ∀ i, c.Live i → neg l ∈ (c.line i).lits →
      ∃ o ∈ (c.line i).lits, o ≠ neg l ∧ UP (ofList S) (fun x => neg x ∈ C) o) :
    Justified S db C := by
  refine .inr ⟨l, hl, ?_⟩
  by_cases hr : neg l ∈ c.trail
  · exact .inl (h.up.trail _ hr)
  · refine .inr fun d hd hm hnl => ?_
    by_cases hx : ∃ x ∈ d, x ∈ c.trail
    · obtain ⟨x, hxd, hxt⟩ := hx
      have : x ≠ neg l := fun e => hr (e ▸ hxt)
      exact rup_of_root (h.up.trail x hxt) (List.mem_append_right _
        (List.mem_filter.2 ⟨hxd, by simpa using this⟩))
    · have hnt : ∀ x ∈ d, x ∉ c.trail := fun x hxd hxt => hx ⟨x, hxd, hxt⟩
      by_cases ht : ∃ x ∈ d, neg x ∈ d
      · obtain ⟨x, hxd, hnx⟩ := ht
        have h1 : x ≠ neg l := fun e => hnl (by rw [e, Spec.neg_neg] at hnx; exact hnx)
        have h2 : neg x ≠ neg l := fun e => hnl (by rw [neg_inj e] at hxd; exact hxd)
        exact .inr ⟨x, List.mem_append_right _ (List.mem_filter.2 ⟨hxd, by simpa using h1⟩),
          List.mem_append_right _ (List.mem_filter.2 ⟨hnx, by simpa using h2⟩)⟩
      · by_cases hlen : d.length ≤ 1
        · obtain ⟨u, e, hu⟩ := h.small hi d hd hlen
          exact absurd hu (hnt u (by rw [e]; simp))
        · have hc := h.count n hi d (hdb d hd) (by omega) (fun x hx hn => ht ⟨x, hx, hn⟩) hnt
          have hpos : 0 < db.countP (sameLits d) :=
            List.countP_pos_iff.2 ⟨d, hd, sameLits_iff.2 (.refl d)⟩
          obtain ⟨i, hli, hs⟩ := liveCount_pos (hc ▸ hpos)
          obtain ⟨o, ho, hne, hup⟩ := hb i hli ((hs _).1 hm)
          exact rup_of_up hup (fun x hx => List.mem_append_left _ hx) (List.mem_append_right _
            (List.mem_filter.2 ⟨(hs o).2 ho, by simpa using hne⟩))

/-- A clause passes the check. -/
theorem check_ok {nonces : Nat → Nat} {nd : Prop} {S db : List (List Nat)} {c : Checker}
    (h : Inv nonces nd S db c) {C : List Nat} (hb : ∀ l ∈ C, l / 2 < c.vars) :
    c.checkLine C = .abort ∨
    ∃ c', c.checkLine C = .ok c' ∧ Inv nonces nd S db c' ∧ c'.vars = c.vars ∧
      (nd → (∀ d ∈ db, d.Nodup) → Justified S db C) ∧
      (∀ σ, Model σ c → (∀ l ∈ C, ¬ UP (ofList S) none' (neg l)) →
        ∃ σ', Model σ' c' ∧ SatClause σ' C) := by
  unfold Checker.checkLine
  by_cases hi : c.inconsistent = true
  · rw [if_pos hi]
    right
    refine ⟨c, rfl, h, rfl, fun _ _ => .inl (rup_of_conflict (h.inc hi) C), fun σ hm => ?_⟩
    rw [hm.inc] at hi; cases hi
  · rw [if_neg hi]
    rw [Bool.not_eq_true] at hi
    obtain ⟨c1, res, he, w1, p1⟩ := propagate_ok h.wf
    obtain ⟨u1, k1⟩ := p1.up _ _ h.up
    have i1 := h.step w1 p1.frame u1 p1.extends'
    rw [he]
    cases res with
    | false =>
      right
      exact ⟨_, rfl, i1.inconsistent (k1 rfl), p1.frame.vars, fun _ _ => .inl (rup_of_conflict (k1 rfl) C),
        fun σ hm => absurd (hm.step p1).2 (by simp)⟩
    | true =>
      have hi1 : c1.inconsistent = false := by rw [p1.frame.inconsistent]; exact hi
      have hdec := decideLoop_ok (C := C) (c0 := c1) C none [] c1 (by simp) (by simp)
        (by rw [p1.frame.vars]; exact hb) w1 (.refl c1) ⟨[], by simp, by simp⟩ (by simp)
      -- the state after backtracking
      have back : ∀ c', Wf c' → Frame c1 c' → (∃ e, c'.trail = c1.trail ++ e) →
          Inv nonces nd S db (c'.backtrack c1.trail.length) ∧
          (c'.backtrack c1.trail.length).vars = c.vars ∧
          ∀ σ, Model σ c1 → Model σ (c'.backtrack c1.trail.length) := fun c' w f t => by
        obtain ⟨wb, fb, tb⟩ := backtrack_ok w1 w f t
        exact ⟨i1.step wb fb (u1.conv fb tb) ⟨[], by rw [tb]; simp⟩, by rw [fb.vars, p1.frame.vars],
          fun σ hm => hm.frame fb tb⟩
      have sem : ∀ σ c', Model σ c1 → SatClause σ C → (∀ σ, Model σ c1 → Model σ c') →
          ∃ σ', Model σ' c' ∧ SatClause σ' C := fun σ c' hm hs hmc => ⟨σ, hmc σ hm, hs⟩
      simp only
      cases hd : decideLoop C none c1 with
      | failedAssertion => left; rfl
      | accepted c2 =>
        rw [hd] at hdec
        obtain ⟨w2, f2, t2, l, hl, hcase⟩ := hdec
        obtain ⟨ib, vb, mb⟩ := back c2 w2 f2 t2
        right
        refine ⟨_, rfl, ib, vb, fun n hdb => ?_, fun σ hm hroot => ?_⟩
        · rcases hcase with hc | hc | ⟨hc, _, _⟩
          · exact .inl (rup_of_root (u1.trail l hc) hl)
          · exact .inl (.inr ⟨l, hl, hc⟩)
          · refine justified_of i1 hi1 n hdb hl fun i hli hm => ?_
            rw [i1.idx.used i hli _ hm] at hc
            cases hc
        · have hm1 := (hm.step p1).1
          rcases hcase with hc | hc | ⟨hc, _, hnt⟩
          · exact sem σ _ hm1 ⟨l, hl, hm1.trail l hc⟩ mb
          · refine sem σ _ hm1 ?_ mb
            rcases litTrue_or_neg σ l with ht | ht
            · exact ⟨l, hl, ht⟩
            · exact ⟨_, hc, ht⟩
          · refine ⟨Spec.flip σ l, mb _ (hm1.flip hnt fun i hli hmem => ?_), l, hl, flip_true σ l⟩
            rw [i1.idx.used i hli _ hmem] at hc
            cases hc
      | assigned c2 =>
        rw [hd] at hdec
        obtain ⟨w2, f2, ⟨e2, t2, n2⟩, v2⟩ := hdec
        obtain ⟨c3, res, he3, w3, p3⟩ := propagate_ok w2
        obtain ⟨e3, t3⟩ := p3.extends'
        obtain ⟨ib, vb, mb⟩ := back c3 w3 (f2.trans p3.frame) ⟨e2 ++ e3, by rw [t3, t2, List.append_assoc]⟩
        have upA : ∀ F : Formula, Up F none' c1 → Up F (fun x => neg x ∈ C) c2 := fun F hu =>
          ⟨fun i hli => by
            obtain ⟨d, hd, hs⟩ := hu.lines i ((f2.live i).1 hli)
            exact ⟨d, hd, hs.trans fun l => (f2.perm i).mem_iff.symm⟩,
          fun x hx => by
            rw [t2] at hx
            rcases List.mem_append.1 hx with hx | hx
            · exact (hu.trail x hx).mono (fun c hc => ⟨c, hc, .refl c⟩) fun _ h => h.elim
            · exact .assumed (n2 x hx)⟩
        simp only
        rw [he3]
        cases res with
        | false =>
          right
          refine ⟨_, rfl, ib, vb, fun _ _ => .inl (.inl ((p3.up _ _ (upA _ u1)).2 rfl)),
            fun σ hm _ => ?_⟩
          have hm1 := (hm.step p1).1
          have hr : RUP c1.holds C := .inl ((p3.up _ _ (upA _ (up_holds c1 _))).2 rfl)
          exact sem σ _ hm1 (hr.entails σ hm1.sat) mb
        | true =>
          simp only
          by_cases hbl : C.any c3.blockedLiteral = true
          · rw [if_pos hbl]
            right
            obtain ⟨l, hl, hblk⟩ := List.any_eq_true.1 hbl
            unfold Checker.blockedLiteral at hblk
            rw [Bool.and_eq_true, Bool.not_eq_true', List.all_eq_true] at hblk
            obtain ⟨hlarge, hall⟩ := hblk
            have i3 : Idx nonces nd c3 := (i1.idx.frame f2).frame p3.frame
            have hother : ∀ i, c1.Live i → neg l ∈ (c1.line i).lits →
                ∃ o ∈ (c1.line i).lits, o ≠ neg l ∧ o ∈ c3.trail := fun i hli hm => by
              have hf := f2.trans p3.frame
              have hl3 := (hf.live i).2 hli
              have hm3 := (hf.perm i).mem_iff.2 hm
              have hsz : ¬ 2 < (c3.line i).lits.length := fun hlt => by
                rw [i3.large i hl3 hlt _ hm3] at hlarge
                cases hlarge
              have hge := w3.size i hl3
              have hw : i ∈ c3.watches (neg l) := by
                have hsp := lits_split hge
                rw [List.drop_eq_nil_of_le (by omega)] at hsp
                rw [hsp] at hm3
                have := (w3.watch i (neg l)).2 ⟨hl3, by simpa using hm3⟩
                simpa using this
              obtain ⟨o, ho, hx⟩ := List.any_eq_true.1 (hall i hw)
              rw [Bool.and_eq_true, decide_eq_true_eq, decide_eq_true_eq] at hx
              refine ⟨o, (hf.perm i).mem_iff.1 ho, hx.1, ?_⟩
              rw [w3.trail]
              rcases w3.dom o with h' | h' | h' <;> omega
            refine ⟨_, rfl, ib, vb, fun n hdb => ?_, fun σ hm hroot => ?_⟩
            · refine justified_of i1 hi1 n hdb hl fun i hli hm => ?_
              obtain ⟨o, ho, hne, hot⟩ := hother i hli hm
              exact ⟨o, ho, hne, (p3.up _ _ (upA _ u1)).1.trail o hot⟩
            · have hm1 := (hm.step p1).1
              by_cases hs : SatClause σ C
              · exact sem σ _ hm1 hs mb
              · refine ⟨Spec.flip σ l, mb _ (hm1.flip (fun hr => hroot l hl (u1.trail _ hr))
                  fun i hli hmem => ?_), l, hl, flip_true σ l⟩
                obtain ⟨o, ho, hne, hot⟩ := hother i hli hmem
                refine ⟨o, ho, hne, ?_⟩
                refine ((p3.up _ _ (upA _ (up_holds c1 _))).1.trail o hot).sound hm1.sat fun x hx => ?_
                rcases litTrue_or_neg σ x with ht | ht
                · exact ht
                · exact absurd ⟨_, hx, ht⟩ hs
          · rw [if_neg hbl]
            left; rfl

/-! ### Histories -/

/-- The literals of the clause in the coding of the checker. -/
def coded (es : List Int) : List Nat := es.map importLit

def Op.clause : Op → List Int
  | .original es | .check es | .remove es => es

/-- All clauses added. -/
def addStep (S : List (List Nat)) : Op → List (List Nat)
  | .original es | .check es => coded es :: S
  | .remove _ => S

/-- The clauses added and not removed. -/
def dbStep (db : List (List Nat)) : Op → List (List Nat)
  | .original es | .check es => coded es :: db
  | .remove es => deleteClause db (coded es)

theorem foldl_max (ls : List Nat) : ∀ v : Nat,
    v ≤ ls.foldl (fun v l => max v (l / 2 + 1)) v ∧
      ∀ l ∈ ls, l / 2 < ls.foldl (fun v l => max v (l / 2 + 1)) v := by
  induction ls with
  | nil => intro v; simp
  | cons x ls ih =>
    intro v
    obtain ⟨a, b⟩ := ih (max v (x / 2 + 1))
    rw [List.foldl_cons]
    refine ⟨by omega, fun l hl => ?_⟩
    rcases List.mem_cons.1 hl with rfl | hl
    · omega
    · exact b l hl

theorem enlarge_bound (c : Checker) (C : List Nat) : ∀ l ∈ C, l / 2 < (c.enlarge C).vars :=
  (foldl_max C c.vars).2

theorem Inv.enlarge {nonces : Nat → Nat} {nd : Prop} {S db : List (List Nat)} {c : Checker}
    (h : Inv nonces nd S db c) (C : List Nat) : Inv nonces nd S db (c.enlarge C) := by
  have hle : c.vars ≤ (c.enlarge C).vars := (foldl_max C c.vars).1
  refine ⟨{ h.wf with
    bound := fun x hx => Nat.lt_of_lt_of_le (h.wf.bound x hx) hle
    lbound := fun i hi l hl => Nat.lt_of_lt_of_le (h.wf.lbound i hi l hl) hle }, { h.idx with },
    ⟨h.up.lines, h.up.trail⟩, h.inc, h.count, h.small⟩

theorem Model.enlarge {σ : Assignment} {c : Checker} (h : Model σ c) (C : List Nat) :
    Model σ (c.enlarge C) := ⟨h.inc, h.lines, h.trail⟩

/-- No operation gets stuck. -/
theorem exec_not_stuck {nonces : Nat → Nat} {nd : Prop} {S db : List (List Nat)} {c : Checker}
    (h : Inv nonces nd S db c) (o : Op) (hnd : nd → (coded o.clause).Nodup) :
    c.exec nonces o ≠ .stuck := by
  cases o with
  | original es =>
    obtain ⟨c', e, _⟩ := simplify_insert (h.enlarge (coded es)) (enlarge_bound c _) hnd
    simp only [Checker.exec]
    rw [show c.enlarge (es.map importLit) = c.enlarge (coded es) from rfl,
      show es.map importLit = coded es from rfl, e]
    intro h; cases h
  | check es =>
    simp only [Checker.exec]
    rw [show c.enlarge (es.map importLit) = c.enlarge (coded es) from rfl,
      show es.map importLit = coded es from rfl]
    rcases check_ok (h.enlarge (coded es)) (enlarge_bound c _) with e | ⟨c', e, hi, hv, _⟩
    · rw [e]; intro h; cases h
    · rw [e]
      obtain ⟨c2, e2, _⟩ := simplify_insert (C := coded es) hi (by rw [hv]; exact enlarge_bound c _) hnd
      simp only
      rw [e2]; intro h; cases h
  | remove es =>
    simp only [Checker.exec]
    rw [show c.enlarge (es.map importLit) = c.enlarge (coded es) from rfl,
      show es.map importLit = coded es from rfl]
    rcases remove_ok (h.enlarge (coded es)) (coded es) hnd with ⟨e, _⟩ | ⟨c', e, _⟩
    · rw [e]; intro h; cases h
    · rw [e]; intro h; cases h

theorem exec_inv {nonces : Nat → Nat} {nd : Prop} {S db : List (List Nat)} {c c' : Checker}
    (h : Inv nonces nd S db c) {o : Op} (hnd : nd → (coded o.clause).Nodup)
    (he : c.exec nonces o = .ok c') : Inv nonces nd (addStep S o) (dbStep db o) c' := by
  cases o with
  | original es =>
    obtain ⟨c2, e, hi, _⟩ := simplify_insert (h.enlarge (coded es)) (enlarge_bound c _) hnd
    simp only [Checker.exec] at he
    rw [show c.enlarge (es.map importLit) = c.enlarge (coded es) from rfl,
      show es.map importLit = coded es from rfl, e] at he
    injection he with he
    subst he; exact hi
  | check es =>
    simp only [Checker.exec] at he
    rw [show c.enlarge (es.map importLit) = c.enlarge (coded es) from rfl,
      show es.map importLit = coded es from rfl] at he
    rcases check_ok (h.enlarge (coded es)) (enlarge_bound c _) with e | ⟨c1, e, hi, hv, _⟩
    · rw [e] at he; cases he
    · rw [e] at he
      obtain ⟨c2, e2, hi2, _⟩ := simplify_insert (C := coded es) hi (by rw [hv]; exact enlarge_bound c _) hnd
      simp only at he
      rw [e2] at he
      injection he with he
      subst he; exact hi2
  | remove es =>
    simp only [Checker.exec] at he
    rw [show c.enlarge (es.map importLit) = c.enlarge (coded es) from rfl,
      show es.map importLit = coded es from rfl] at he
    rcases remove_ok (h.enlarge (coded es)) (coded es) hnd with ⟨e, _⟩ | ⟨c1, e, hi, _⟩
    · rw [e] at he; cases he
    · rw [e] at he
      injection he with he
      subst he; exact hi

theorem inv_init (nonces : Nat → Nat) (nd : Prop) : Inv nonces nd [] [] Checker.init where
  wf := {
    dom := fun _ => .inr (.inl rfl)
    anti := fun _ => rfl
    trail := fun x => ⟨fun h => (by cases h), fun h => (by cases h)⟩
    nodup := List.nodup_nil
    bound := fun _ h => by cases h
    prop := Nat.le_refl 0
    idx := fun _ h => by cases h
    size := fun _ h => by cases h
    ne := fun _ h => by cases h
    lbound := fun _ h => by cases h
    watch := fun i w => ⟨fun h => (by rcases h with h | ⟨_, h⟩ <;> cases h), fun h => (by cases h.1)⟩
    wnodup := fun _ => List.nodup_nil
    rnodup := List.nodup_nil
    rdisj := fun _ h => by cases h }
  idx := {
    chain := fun _ _ h => by cases h
    cnodup := fun _ => List.nodup_nil
    zero := fun _ => ⟨rfl, fun _ => rfl⟩
    hash := fun _ h => by cases h
    used := fun _ h => by cases h
    large := fun _ h => by cases h
    lnodup := fun _ _ h => by cases h }
  up := ⟨fun _ h => (by cases h), fun _ h => (by cases h)⟩
  inc := fun h => by cases h
  count := fun _ _ D _ _ _ _ => rfl
  small := fun _ D h => by cases h

theorem execAll_inv {nonces : Nat → Nat} {nd : Prop} : ∀ {ops : List Op} {S db : List (List Nat)}
    {c c' : Checker}, Inv nonces nd S db c → (nd → ∀ o ∈ ops, (coded o.clause).Nodup) →
    c.execAll nonces ops = .ok c' → Inv nonces nd (ops.foldl addStep S) (ops.foldl dbStep db) c' := by
  intro ops
  induction ops with
  | nil =>
    intro S db c c' h _ he
    injection he with he
    subst he; exact h
  | cons o ops ih =>
    intro S db c c' h hnd he
    unfold Checker.execAll at he
    cases h1 : c.exec nonces o with
    | ok c1 =>
      rw [h1] at he
      exact ih (exec_inv h (fun n => hnd n o (List.mem_cons_self ..)) h1)
        (fun n p hp => hnd n p (List.mem_cons_of_mem _ hp)) he
    | abort => rw [h1] at he; cases he
    | stuck => rw [h1] at he; cases he

theorem execAll_append {nonces : Nat → Nat} : ∀ {a b : List Op} {c c' : Checker},
    c.execAll nonces (a ++ b) = .ok c' →
    ∃ c1, c.execAll nonces a = .ok c1 ∧ c1.execAll nonces b = .ok c' := by
  intro a
  induction a with
  | nil => intro b c c' h; exact ⟨c, rfl, h⟩
  | cons o a ih =>
    intro b c c' h
    rw [List.cons_append] at h
    unfold Checker.execAll at h
    cases h1 : c.exec nonces o with
    | ok c1 =>
      rw [h1] at h
      obtain ⟨c2, e, e'⟩ := ih h
      exact ⟨c2, by unfold Checker.execAll; rw [h1]; exact e, e'⟩
    | abort => rw [h1] at h; cases h
    | stuck => rw [h1] at h; cases h

theorem execAll_not_stuck {nonces : Nat → Nat} {nd : Prop} : ∀ {ops : List Op}
    {S db : List (List Nat)} {c : Checker}, Inv nonces nd S db c →
    (nd → ∀ o ∈ ops, (coded o.clause).Nodup) → c.execAll nonces ops ≠ .stuck := by
  intro ops
  induction ops with
  | nil => intro S db c _ _ h; cases h
  | cons o ops ih =>
    intro S db c h hnd
    unfold Checker.execAll
    cases h1 : c.exec nonces o with
    | ok c1 =>
      exact ih (exec_inv h (fun n => hnd n o (List.mem_cons_self ..)) h1)
        (fun n p hp => hnd n p (List.mem_cons_of_mem _ hp))
    | abort => intro h; cases h
    | stuck => exact absurd h1 (exec_not_stuck h o fun n => hnd n o (List.mem_cons_self ..))

/-- Original clauses satisfied by an assignment keep it a model. -/
theorem originals_model {nonces : Nat → Nat} {σ : Assignment} : ∀ {cs : List (List Int)}
    {S db : List (List Nat)} {c c' : Checker}, Inv nonces False S db c → Model σ c →
    (∀ es ∈ cs, SatClause σ (coded es)) → c.execAll nonces (cs.map .original) = .ok c' →
    Model σ c' := by
  intro cs
  induction cs with
  | nil =>
    intro S db c c' _ hm _ he
    injection he with he
    subst he; exact hm
  | cons es cs ih =>
    intro S db c c' h hm hs he
    rw [List.map_cons] at he
    unfold Checker.execAll at he
    cases h1 : c.exec nonces (.original es) with
    | ok c1 =>
      rw [h1] at he
      refine ih (exec_inv h (fun n => n.elim) h1) ?_ (fun e he => hs e (List.mem_cons_of_mem _ he)) he
      obtain ⟨c2, e, _, _, hmod⟩ := simplify_insert (h.enlarge (coded es)) (enlarge_bound c _)
        (fun n => n.elim)
      simp only [Checker.exec] at h1
      rw [show c.enlarge (es.map importLit) = c.enlarge (coded es) from rfl,
        show es.map importLit = coded es from rfl, e] at h1
      injection h1 with h1
      subst h1
      exact hmod σ (hm.enlarge _) (hs es (List.mem_cons_self ..))
    | abort => rw [h1] at he; cases he
    | stuck => rw [h1] at he; cases he

/-- No checked clause has a literal falsified by unit propagation of the clauses added
before. -/
def NoneFalsified (S : List (List Nat)) : List Op → Prop
  | [] => True
  | o :: os => (∀ es, o = .check es → ∀ l ∈ coded es, ¬ UP (ofList S) none' (neg l)) ∧
      NoneFalsified (addStep S o) os

theorem checks_model {nonces : Nat → Nat} : ∀ {ops : List Op} {S db : List (List Nat)}
    {c c' : Checker}, Inv nonces False S db c → (∃ σ, Model σ c) → NoneFalsified S ops →
    (∀ o ∈ ops, ∀ es, o ≠ .original es) → c.execAll nonces ops = .ok c' →
    (∃ σ, Model σ c') ∧ Op.check [] ∉ ops := by
  intro ops
  induction ops with
  | nil =>
    intro S db c c' _ hm _ _ he
    injection he with he
    subst he; exact ⟨hm, by simp⟩
  | cons o ops ih =>
    intro S db c c' h ⟨σ, hm⟩ hn hno he
    obtain ⟨hno1, hnf⟩ := hn
    unfold Checker.execAll at he
    cases h1 : c.exec nonces o with
    | ok c1 =>
      rw [h1] at he
      have key : (∃ σ, Model σ c1) ∧ o ≠ .check [] := by
        cases o with
        | original es => exact absurd rfl (hno _ (List.mem_cons_self ..) es)
        | check es =>
          simp only [Checker.exec] at h1
          rw [show c.enlarge (es.map importLit) = c.enlarge (coded es) from rfl,
            show es.map importLit = coded es from rfl] at h1
          rcases check_ok (h.enlarge (coded es)) (enlarge_bound c _) with e | ⟨c2, e, hi, hv, _, hs⟩
          · rw [e] at h1; cases h1
          · rw [e] at h1
            obtain ⟨σ', hm', hsat⟩ := hs σ (hm.enlarge _) (hno1 es rfl)
            obtain ⟨c3, e3, _, _, hmod⟩ := simplify_insert hi (by rw [hv]; exact enlarge_bound c _)
              (fun n => n.elim)
            simp only at h1
            rw [e3] at h1
            injection h1 with h1
            subst h1
            refine ⟨⟨σ', hmod σ' hm' hsat⟩, fun e => ?_⟩
            injection e with e
            subst e
            exact not_satClause_nil σ' hsat
        | remove es =>
          simp only [Checker.exec] at h1
          rw [show c.enlarge (es.map importLit) = c.enlarge (coded es) from rfl,
            show es.map importLit = coded es from rfl] at h1
          rcases remove_ok (h.enlarge (coded es)) (coded es) (fun n => n.elim) with
            ⟨e, _⟩ | ⟨c2, e, _, _, hmod, _⟩
          · rw [e] at h1; cases h1
          · rw [e] at h1
            injection h1 with h1
            subst h1
            exact ⟨⟨σ, hmod σ (hm.enlarge _)⟩, by simp⟩
      obtain ⟨hm', hne⟩ := key
      obtain ⟨a, b⟩ := ih (exec_inv h (fun n => n.elim) h1) hm' hnf
        (fun p hp => hno p (List.mem_cons_of_mem _ hp)) he
      exact ⟨a, fun hmem => by
        rcases List.mem_cons.1 hmem with e | hmem
        · exact hne e.symm
        · exact b hmem⟩
    | abort => rw [h1] at he; cases he
    | stuck => rw [h1] at he; cases he

end Verif.Check
