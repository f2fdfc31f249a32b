import Verif.Model.Simp.Eliminate
import Verif.Proofs.Simp.Gates

/-!
# Bounded variable elimination
-/

namespace Verif.Simp

open Verif.Spec Verif.Model Verif.Model.Extend

/-- Every model of the remaining clauses and the resolvents satisfies the clauses with one of the two
literals without the literal. -/
def Closed (P N : List Nat) (s : State) (x : Nat) (res : List (List Nat)) : Prop :=
  ∀ σ, Holds σ s x res → (∀ r ∈ P, SatClause σ (except (s.clause r).lits x)) ∨
    ∀ r ∈ N, SatClause σ (except (s.clause r).lits (Spec.neg x))

theorem Closed.symm {P N : List Nat} {s : State} {x : Nat} {res : List (List Nat)}
    (h : Closed P N s x res) : Closed N P s (Spec.neg x) res := by
  intro σ hσ
  rw [neg_neg]
  exact (h σ (holds_symm_iff.1 hσ)).symm

/-! ## All resolvents -/

theorem satClause_except_same {σ : Assignment} {c d : List Nat} {x : Nat} (h : SameLits c d) :
    SatClause σ (except c x) → SatClause σ (except d x) := by
  rintro ⟨l, hl, ht⟩
  obtain ⟨h1, h2⟩ := mem_except.1 hl
  exact ⟨l, mem_except.2 ⟨(h l).1 h1, h2⟩, ht⟩

/-- Without gates. -/
theorem closed_of_all {P N : List Nat} {s : State} {x : Nat} {res : List (List Nat)}
    (h : ∀ r ∈ P, ∀ q ∈ N, Done s x res r q) : Closed P N s x res := by
  intro σ hσ
  by_cases hP : ∀ r ∈ P, SatClause σ (except (s.clause r).lits x)
  · exact Or.inl hP
  · right
    intro q hq
    exact Classical.byContradiction fun hn => hP fun r hr => ((h r hr q hq) σ hσ).resolve_right hn

/-- With gates. -/
theorem closed_of_gates {P N : List Nat} {s : State} {x : Nat} {res : List (List Nat)} {G : Gates}
    (hG : GateOk s x P N G)
    (h1 : ∀ r ∈ G.pos, ∀ q ∈ N, q ∉ G.neg → Done s x res r q)
    (h2 : ∀ r ∈ P, r ∉ G.pos → ∀ q ∈ G.neg, Done s x res r q)
    (h3 : G.resolve = true → ∀ r ∈ G.pos, ∀ q ∈ G.neg, Done s x res r q) : Closed P N s x res := by
  intro σ hσ
  by_cases hP : ∀ r ∈ P, SatClause σ (except (s.clause r).lits x)
  · exact Or.inl hP
  · right
    intro q hq
    apply Classical.byContradiction
    intro hn
    apply hP
    intro r hr
    apply Classical.byContradiction
    intro hm
    have no : ∀ {a b : Nat}, Done s x res a b → ¬ SatClause σ (except (s.clause a).lits x) →
        ¬ SatClause σ (except (s.clause b).lits (Spec.neg x)) → False := fun hd ha hb =>
      (hd σ hσ).elim ha hb
    by_cases hrG : r ∈ G.pos
    · by_cases hqG : q ∈ G.neg
      · rcases hG.cover with hc | hc
        · exact no (h3 hc r hrG q hqG) hm hn
        · rcases hc r hrG q hqG with ht | ⟨r', r1, r2, r3⟩ | ⟨q', q1, q2, q3⟩
          · exact (ht σ).elim hm hn
          · exact no (h2 r' r1 r2 q hqG) (fun hh => hm (satClause_except_same r3 hh)) hn
          · exact no (h1 r hrG q' q1 q2) hm fun hh => hn (satClause_except_same q3 hh)
      · exact no (h1 r hrG q hq hqG) hm hn
    · by_cases hqG : q ∈ G.neg
      · exact no (h2 r hr hrG q hqG) hm hn
      · refine hG.unsat σ hσ.1 (fun k hk => ?_) fun k hk => ?_
        · exact Classical.byContradiction fun hh => no (h1 k hk q hq hqG) hh hn
        · exact Classical.byContradiction fun hh => no (h2 r hr hrG k hk) hm hh

theorem GateOk.step {s s' : State} {x : Nat} {P N : List Nat} {G : Gates} {res res' : List (List Nat)}
    (h : GateOk s x P N G) (h' : GStep x s res s' res')
    (ht : ∀ l ∈ s.trail, l ∈ s'.trail) : GateOk s' x P N G := by
  refine ⟨h.pos, h.neg, fun σ h1 h2 h3 => ?_, ?_⟩
  · refine h.unsat σ (fun l hl => h1 l (ht l hl)) (fun r hr => ?_) fun r hr => ?_
    · have := h2 r hr; rwa [h'.frame.lits] at this
    · have := h3 r hr; rwa [h'.frame.lits] at this
  · rcases h.cover with hc | hc
    · exact Or.inl hc
    · right
      intro r hr q hq
      simp only [h'.frame.lits]
      exact hc r hr q hq

theorem trail_frame {orig orig' : List (List Nat)} {s s' : State} (h : Struct orig s)
    (h' : Struct orig' s') (hf : Frame s s') : ∀ l ∈ s.trail, l ∈ s'.trail := fun l hl =>
  (h'.trail l).2 (hf.pos ((h.trail l).1 hl))

theorem GInv.all {orig : List (List Nat)} {v : Option Nat} {x : Nat} {P N : List Nat} {g : Gen}
    (clslim limit : Nat) (h : GInv orig v x P N g.s g.res) {o : Option Gates}
    (hG : ∀ G, o = some G → GateOk g.s x P N G) :
    Inv orig v (g.all clslim limit x P N o).1.s ∧
    ((g.all clslim limit x P N o).2 = true →
      GInv orig v x P N (g.all clslim limit x P N o).1.s (g.all clslim limit x P N o).1.res ∧
      Closed P N (g.all clslim limit x P N o).1.s x (g.all clslim limit x P N o).1.res) := by
  cases o with
  | none =>
    obtain ⟨h1, h2, h3⟩ := outer_spec clslim limit (fun d hd => hd) P g h fun c hc => hc
    exact ⟨h1.inv, fun ht => ⟨h1, closed_of_all (h3 ht)⟩⟩
  | some G =>
    have hG := hG G rfl
    unfold Gen.all
    dsimp only
    have a1 : ∀ q ∈ N.filter (fun r => !G.neg.contains r), q ∈ N := fun q hq => (List.mem_filter.1 hq).1
    have a0 : ∀ q ∈ P.filter (fun r => !G.pos.contains r), q ∈ P := fun q hq => (List.mem_filter.1 hq).1
    have b1 : ∀ q ∈ N, q ∉ G.neg → q ∈ N.filter (fun r => !G.neg.contains r) := fun q hq hn =>
      List.mem_filter.2 ⟨hq, by simpa using hn⟩
    have b0 : ∀ q ∈ P, q ∉ G.pos → q ∈ P.filter (fun r => !G.pos.contains r) := fun q hq hn =>
      List.mem_filter.2 ⟨hq, by simpa using hn⟩
    obtain ⟨h1, h2, h3⟩ := outer_spec clslim limit a1 G.pos g h hG.pos
    cases e1 : g.outer clslim limit x G.pos (N.filter fun r => !G.neg.contains r) with
    | mk g1 t1 =>
      rw [e1] at h1 h2 h3
      dsimp only at h1 h2 h3
      cases t1 with
      | false => exact ⟨h1.inv, fun e => (by cases e)⟩
      | true =>
        dsimp only
        have h3 := h3 rfl
        obtain ⟨k1, k2, k3⟩ := outer_spec clslim limit (x := Spec.neg x) (P := N) (N := P) a0 G.neg g1 h1.symm hG.neg
        cases e2 : g1.outer clslim limit (Spec.neg x) G.neg (P.filter fun r => !G.pos.contains r) with
        | mk g2 t2 =>
          rw [e2] at k1 k2 k3
          dsimp only at k1 k2 k3
          cases t2 with
          | false => exact ⟨k1.inv, fun e => (by cases e)⟩
          | true =>
            dsimp only
            have k3 := k3 rfl
            have k1 := k1.symm
            have k2 := k2.symm
            rw [neg_neg] at k1 k2
            have c1 : ∀ r ∈ G.pos, ∀ q ∈ N, q ∉ G.neg → Done g2.s x g2.res r q := fun r hr q hq hn =>
              (h3 r hr q (b1 q hq hn)).step k2
            have c2 : ∀ r ∈ P, r ∉ G.pos → ∀ q ∈ G.neg, Done g2.s x g2.res r q := fun r hr hn q hq =>
              (k3 q hq r (b0 r hr hn)).symm
            have hG2 := hG.step (h2.trans k2) (trail_frame h.inv.struct k1.inv.struct (h2.trans k2).frame)
            by_cases hr : G.resolve = true
            · rw [if_pos hr]
              obtain ⟨l1, l2, l3⟩ := outer_spec clslim limit hG.neg G.pos g2 k1 hG.pos
              refine ⟨l1.inv, fun ht => ⟨l1, ?_⟩⟩
              exact closed_of_gates (hG2.step l2 (trail_frame k1.inv.struct l1.inv.struct l2.frame))
                (fun r hr q hq hn => (c1 r hr q hq hn).step l2)
                (fun r hr hn q hq => (c2 r hr hn q hq).step l2) fun _ => l3 ht
            · rw [if_neg hr]
              exact ⟨k1.inv, fun _ => ⟨k1, closed_of_gates hG2 c1 c2 fun hh => absurd hh hr⟩⟩

/-! ## Counting occurrences -/

theorem Inv.countOccurrences {orig : List (List Nat)} {v : Option Nat} {x : Nat} (clslim : Nat) :
    ∀ (rs : List Nat) {s : State} (n : Nat), Inv orig v s → rs.Nodup →
    (∀ r ∈ rs, (s.clause r).garbage = false) →
    Inv orig v (s.countOccurrences clslim x rs n).1 ∧ Frame s (s.countOccurrences clslim x rs n).1 ∧
    (s.countOccurrences clslim x rs n).1.values = s.values ∧
    ((s.countOccurrences clslim x rs n).2 = 0 → n = 0 ∧
      ∀ r ∈ rs, ((s.countOccurrences clslim x rs n).1.clause r).garbage = true)
  | [], s, n, h, _, _ => ⟨h, .refl _, rfl, fun e => ⟨e, fun r hr => (by cases hr)⟩⟩
  | r :: rs, s, n, h, hn, hlive => by
    obtain ⟨hn1, hn2⟩ := List.nodup_cons.1 hn
    have hg : (s.clause r).garbage = false := hlive r (by simp)
    have hlive' : ∀ q ∈ rs, (s.clause q).garbage = false := fun q hq => hlive q (List.mem_cons_of_mem _ hq)
    have up : ∀ {s' : State} {m : Nat}, (s.clause r).garbage = true ∨ (s'.clause r).garbage = true ∨ n + 1 = m →
        (n = m ∨ n + 1 = m) → Frame s s' → s'.values = s.values → Inv orig v s' →
        (∀ q ∈ rs, (s'.clause q).garbage = false) →
        Inv orig v (s'.countOccurrences clslim x rs m).1 ∧
        Frame s (s'.countOccurrences clslim x rs m).1 ∧
        (s'.countOccurrences clslim x rs m).1.values = s.values ∧
        ((s'.countOccurrences clslim x rs m).2 = 0 → n = 0 ∧
          ∀ q ∈ r :: rs, ((s'.countOccurrences clslim x rs m).1.clause q).garbage = true) := by
      intro s' m hr hnm hf hv h' hl'
      obtain ⟨i1, i2, i3, i4⟩ := Inv.countOccurrences clslim rs m h' hn2 hl'
      refine ⟨i1, hf.trans i2, i3.trans hv, fun e => ?_⟩
      obtain ⟨j1, j2⟩ := i4 e
      refine ⟨by omega, fun q hq => ?_⟩
      rcases List.mem_cons.1 hq with rfl | hq
      · rcases hr with hr | hr | hr
        · exact (hf.trans i2).garbage _ hr
        · exact i2.garbage _ hr
        · omega
      · exact j2 q hq
    unfold State.countOccurrences
    cases hb : s.binaryOther x r with
    | some other =>
      dsimp only
      by_cases hv : s.values other > 0
      · rw [if_pos hv]
        obtain ⟨b1, b2, b3⟩ := binaryOther_some hb
        have hf := frame_garbage (clause_lt hg) b2 hv
        refine up (Or.inr (Or.inl (by rw [clause_garbage (clause_lt hg), if_pos rfl]))) (Or.inl rfl) hf rfl
          (h.markSatisfied hg b2 hv) fun q hq => ?_
        rw [clause_garbage (clause_lt hg), if_neg]
        · exact hlive' q hq
        · rintro rfl; exact hn1 hq
      · rw [if_neg hv]
        exact up (Or.inr (Or.inr rfl)) (Or.inr rfl) (.refl _) rfl h hlive'
    | none =>
      dsimp only
      rw [if_neg (by rw [hg]; simp)]
      by_cases hl : (s.clause r).lits.length > clslim
      · rw [if_pos hl]
        exact ⟨h, .refl _, rfl, fun e => (by cases e)⟩
      · rw [if_neg hl]
        exact up (Or.inr (Or.inr rfl)) (Or.inr rfl) (.refl _) rfl h hlive'

theorem occurrences_nodup (s : State) (l : Nat) : (s.occurrences l).Nodup :=
  List.nodup_range.filter _

theorem other_literal {c : List Nat} {x : Nat} (h : 2 ≤ c.length) (hn : c.Nodup) : ∃ l ∈ c, l ≠ x := by
  match c, h, hn with
  | a :: b :: _, _, hn =>
    by_cases ha : a = x
    · refine ⟨b, by simp, fun hb => ?_⟩
      rw [ha, hb] at hn
      simp at hn
    · exact ⟨a, by simp, ha⟩

/-- The invariant before resolving. -/
theorem Inv.ginv {orig : List (List Nat)} {v : Option Nat} {s : State} (h : Inv orig v s) {x : Nat}
    (hval : s.values x = 0) (hr : s.InRange x) (hrem : s.removed (x / 2) = false) :
    GInv orig v x (s.occurrences x) (s.occurrences (Spec.neg x)) s [] := by
  have side : ∀ y, Side s y (s.occurrences y) := fun y =>
    ⟨fun r hr => (mem_occurrences.1 hr).2.2, fun r hr => other_literal (h.struct.size r (mem_occurrences.1 hr).1)
      (h.struct.nodup r (mem_occurrences.1 hr).1), fun r hr => (mem_occurrences.1 hr).2.1,
      fun r hr => h.struct.clause r (mem_occurrences.1 hr).1,
      fun r hr hg => (by rw [(mem_occurrences.1 hr).1] at hg; cases hg),
      fun r h1 h2 h3 => mem_occurrences.2 ⟨h1, h2, h3⟩⟩
  exact ⟨h, hval, ⟨hr, hrem⟩, side _, side _, fun R hR => (by cases hR)⟩

/-- What `kissat_generate_resolvents` guarantees. -/
theorem Inv.generateResolvents {orig : List (List Nat)} {v : Option Nat} {s : State}
    (h : Inv orig v s) (o : ElimOptions) (hk : o.kitten.Sound) {idx : Nat}
    (hr : idx < s.exports.length) (hrem : s.removed idx = false) (hval : s.values (2 * idx) = 0) :
    Inv orig v (s.generateResolvents o idx).1 ∧
    ∀ x res, (s.generateResolvents o idx).2 = some (x, res) → x / 2 = idx ∧
      ∃ P N, GInv orig v x P N (s.generateResolvents o idx).1 res ∧
        Closed P N (s.generateResolvents o idx).1 x res := by
  unfold State.generateResolvents
  dsimp only
  obtain ⟨a1, a2, a3, a4⟩ := h.countOccurrences o.clslim (x := 2 * idx) (s.occurrences (2 * idx)) 0
    (occurrences_nodup _ _) fun r hr => (mem_occurrences.1 hr).1
  cases ea : s.countOccurrences o.clslim (2 * idx) (s.occurrences (2 * idx)) 0 with
  | mk s1 n1 =>
    rw [ea] at a1 a2 a3 a4
    dsimp only at a1 a2 a3 a4 ⊢
    obtain ⟨b1, b2, b3, b4⟩ := a1.countOccurrences o.clslim (x := Spec.neg (2 * idx))
      (s1.occurrences (Spec.neg (2 * idx))) 0 (occurrences_nodup _ _) fun r hr => (mem_occurrences.1 hr).1
    cases eb : s1.countOccurrences o.clslim (Spec.neg (2 * idx)) (s1.occurrences (Spec.neg (2 * idx))) 0 with
    | mk s2 n2 =>
      rw [eb] at b1 b2 b3 b4
      dsimp only at b1 b2 b3 b4 ⊢
      have hf := a2.trans b2
      have hv2 : s2.values (2 * idx) = 0 := by rw [b3, a3]; exact hval
      have e2 : 2 * idx / 2 = idx := by omega
      -- no occurrences
      have z1 : n1 = 0 → ∀ r, (s2.clause r).garbage = false → (s2.clause r).redundant = false →
          2 * idx ∉ (s2.clause r).lits := by
        intro hz r g1 g2 hm
        have h1 := hf.live g1
        have := (a4 hz).2 r (mem_occurrences.2 ⟨h1, by rw [← hf.red]; exact g2, by rw [← hf.lits]; exact hm⟩)
        rw [b2.garbage r this] at g1
        cases g1
      have z2 : n2 = 0 → ∀ r, (s2.clause r).garbage = false → (s2.clause r).redundant = false →
          Spec.neg (2 * idx) ∉ (s2.clause r).lits := by
        intro hz r g1 g2 hm
        have h1 := b2.live g1
        have := (b4 hz).2 r (mem_occurrences.2 ⟨h1, by rw [← b2.red]; exact g2, by rw [← b2.lits]; exact hm⟩)
        rw [this] at g1
        cases g1
      -- the rest, for any of the two literals
      have main : ∀ (x m k : Nat), x / 2 = idx → s2.values x = 0 →
          (m = 0 → ∀ r, (s2.clause r).garbage = false → (s2.clause r).redundant = false →
            x ∉ (s2.clause r).lits) →
          Inv orig v (if m ≠ 0 ∧ m + k > o.occlim then (s2, none)
            else if m = 0 then (s2, some (x, []))
            else if (s2.findGates o.toGateOptions x (s2.occurrences x) (s2.occurrences (Spec.neg x))).1.values x ≠ 0
              then ((s2.findGates o.toGateOptions x (s2.occurrences x) (s2.occurrences (Spec.neg x))).1, none)
            else match Gen.all ⟨(s2.findGates o.toGateOptions x (s2.occurrences x)
                (s2.occurrences (Spec.neg x))).1, [], 0⟩ o.clslim (m + k + o.bound) x (s2.occurrences x)
                (s2.occurrences (Spec.neg x)) (s2.findGates o.toGateOptions x (s2.occurrences x)
                (s2.occurrences (Spec.neg x))).2 with
              | (g, true) => (g.s, some (x, g.res))
              | (g, false) => (g.s, none)).1 ∧
          ∀ y res, (if m ≠ 0 ∧ m + k > o.occlim then (s2, none)
            else if m = 0 then (s2, some (x, []))
            else if (s2.findGates o.toGateOptions x (s2.occurrences x) (s2.occurrences (Spec.neg x))).1.values x ≠ 0
              then ((s2.findGates o.toGateOptions x (s2.occurrences x) (s2.occurrences (Spec.neg x))).1, none)
            else match Gen.all ⟨(s2.findGates o.toGateOptions x (s2.occurrences x)
                (s2.occurrences (Spec.neg x))).1, [], 0⟩ o.clslim (m + k + o.bound) x (s2.occurrences x)
                (s2.occurrences (Spec.neg x)) (s2.findGates o.toGateOptions x (s2.occurrences x)
                (s2.occurrences (Spec.neg x))).2 with
              | (g, true) => (g.s, some (x, g.res))
              | (g, false) => (g.s, none)).2 = some (y, res) → y / 2 = idx ∧
            ∃ P N, GInv orig v y P N (if m ≠ 0 ∧ m + k > o.occlim then (s2, none)
              else if m = 0 then (s2, some (x, []))
              else if (s2.findGates o.toGateOptions x (s2.occurrences x) (s2.occurrences (Spec.neg x))).1.values x ≠ 0
                then ((s2.findGates o.toGateOptions x (s2.occurrences x) (s2.occurrences (Spec.neg x))).1, none)
              else match Gen.all ⟨(s2.findGates o.toGateOptions x (s2.occurrences x)
                  (s2.occurrences (Spec.neg x))).1, [], 0⟩ o.clslim (m + k + o.bound) x (s2.occurrences x)
                  (s2.occurrences (Spec.neg x)) (s2.findGates o.toGateOptions x (s2.occurrences x)
                  (s2.occurrences (Spec.neg x))).2 with
                | (g, true) => (g.s, some (x, g.res))
                | (g, false) => (g.s, none)).1 res ∧
              Closed P N (if m ≠ 0 ∧ m + k > o.occlim then (s2, none)
              else if m = 0 then (s2, some (x, []))
              else if (s2.findGates o.toGateOptions x (s2.occurrences x) (s2.occurrences (Spec.neg x))).1.values x ≠ 0
                then ((s2.findGates o.toGateOptions x (s2.occurrences x) (s2.occurrences (Spec.neg x))).1, none)
              else match Gen.all ⟨(s2.findGates o.toGateOptions x (s2.occurrences x)
                  (s2.occurrences (Spec.neg x))).1, [], 0⟩ o.clslim (m + k + o.bound) x (s2.occurrences x)
                  (s2.occurrences (Spec.neg x)) (s2.findGates o.toGateOptions x (s2.occurrences x)
                  (s2.occurrences (Spec.neg x))).2 with
                | (g, true) => (g.s, some (x, g.res))
                | (g, false) => (g.s, none)).1 y res := by
        intro x m k hx hvx hz
        have hrx : s2.InRange x := by
          unfold State.InRange
          rw [hx, hf.exports]; exact hr
        have hremx : s2.removed (x / 2) = false := by rw [hx, hf.removed]; exact hrem
        have hgi := b1.ginv hvx hrx hremx
        by_cases c1 : m ≠ 0 ∧ m + k > o.occlim
        · rw [if_pos c1]
          exact ⟨b1, fun y res hh => (by cases hh)⟩
        · rw [if_neg c1]
          by_cases c2 : m = 0
          · rw [if_pos c2]
            refine ⟨b1, fun y res hh => ?_⟩
            cases hh
            refine ⟨hx, _, _, hgi, fun σ _ => Or.inl fun r hr => ?_⟩
            obtain ⟨r1, r2, r3⟩ := mem_occurrences.1 hr
            exact absurd r3 (hz c2 r r1 r2)
          · rw [if_neg c2]
            obtain ⟨f1, f2⟩ := hgi.findGates (occurrences_nodup _ _) (occurrences_nodup _ _)
              o.toGateOptions hk
            generalize s2.findGates o.toGateOptions x (s2.occurrences x) (s2.occurrences (Spec.neg x)) = fg
              at f1 f2 ⊢
            by_cases c3 : fg.1.values x ≠ 0
            · rw [if_pos c3]
              exact ⟨f1, fun y res hh => (by cases hh)⟩
            · rw [if_neg c3]
              have f2 := f2 (Classical.byContradiction c3)
              obtain ⟨g1, g2⟩ := GInv.all (g := ⟨fg.1, [], 0⟩) o.clslim (m + k + o.bound) f2.inv f2.gate
              cases eg : Gen.all ⟨fg.1, [], 0⟩ o.clslim (m + k + o.bound) x (s2.occurrences x)
                  (s2.occurrences (Spec.neg x)) fg.2 with
              | mk g t =>
                rw [eg] at g1 g2
                cases t with
                | false => exact ⟨g1, fun y res hh => (by cases hh)⟩
                | true =>
                  obtain ⟨g3, g4⟩ := g2 rfl
                  refine ⟨g1, fun y res hh => ?_⟩
                  cases hh
                  exact ⟨hx, _, _, g3, g4⟩
      by_cases hsw : n1 > n2
      · rw [if_pos hsw]
        exact main (Spec.neg (2 * idx)) n2 n1 (by rw [neg_div]; exact e2)
          (by rw [b1.struct.neg, hv2]; rfl) z2
      · rw [if_neg hsw]
        exact main (2 * idx) n1 n2 e2 hv2 z1

/-! ## Connecting resolvents -/

theorem GInv.tail {orig : List (List Nat)} {v : Option Nat} {x : Nat} {P N : List Nat} {s : State}
    {R : List Nat} {res : List (List Nat)} (h : GInv orig v x P N s (R :: res)) :
    GInv orig v x P N s res :=
  ⟨h.inv, h.val, h.var, h.pos, h.neg, fun Q hQ => h.res Q (List.mem_cons_of_mem _ hQ)⟩

theorem GInv.new {orig : List (List Nat)} {v : Option Nat} {x : Nat} {P N : List Nat} {s : State}
    {res : List (List Nat)} (h : GInv orig v x P N s res) {c : List Nat} (hsz : 2 ≤ c.length)
    (hn : c.Nodup) (ht : ∀ l ∈ c, Spec.neg l ∉ c)
    (hr : ∀ l ∈ c, s.InRange l ∧ s.removed (l / 2) = false) (hx : ∀ l ∈ c, l / 2 ≠ x / 2)
    (hrup : RUP s.formula c) :
    GInv orig v x P N (s.newClause c false) res ∧
    (∀ σ, Holds σ (s.newClause c false) x res → Holds σ s x res ∧ SatClause σ c) ∧
    ∀ r, (r ∈ P ∨ r ∈ N) → (s.newClause c false).clause r = s.clause r := by
  have hi := h.inv.newClause (fun l hl => (hr l hl).1) hn ht hsz (fun _ l hl => (hr l hl).2) hrup (red := false)
  have hlt : ∀ {k : Nat}, (∃ l, l ∈ (s.clause k).lits) → k ≠ s.arena.length := by
    rintro k ⟨l, hl⟩ rfl
    unfold State.clause at hl
    rw [List.getD_eq_getElem?_getD, List.getElem?_eq_none (Nat.le_refl _)] at hl
    cases hl
  have same : ∀ r, (r ∈ P ∨ r ∈ N) → (s.newClause c false).clause r = s.clause r := by
    rintro r (hr | hr)
    · rw [clause_new, if_neg (hlt ⟨_, h.pos.mem r hr⟩)]
    · rw [clause_new, if_neg (hlt ⟨_, h.neg.mem r hr⟩)]
  have side : ∀ {y : Nat} {Q : List Nat}, Side s y Q → y / 2 = x / 2 →
      (∀ r ∈ Q, (s.newClause c false).clause r = s.clause r) → Side (s.newClause c false) y Q := by
    intro y Q hs hy hsame
    refine ⟨fun r hr => by rw [hsame r hr]; exact hs.mem r hr,
      fun r hr => by rw [hsame r hr]; exact hs.more r hr,
      fun r hr => by rw [hsame r hr]; exact hs.irr r hr,
      fun r hr => by rw [hsame r hr]; exact hs.range r hr,
      fun r hr => by rw [hsame r hr]; exact hs.sat r hr, fun r => ?_⟩
    rw [clause_new]
    split
    · intro _ _ hm
      exact absurd hy (hx y hm)
    · exact hs.all r
  refine ⟨⟨hi, h.val, h.var, side h.pos rfl fun r hr => same r (Or.inl hr),
    side h.neg (neg_div _) fun r hr => same r (Or.inr hr), fun R hR => ?_⟩, fun σ hσ => ?_, same⟩
  · have hp := h.res R hR
    refine ⟨hp.size, hp.nodup, hp.taut, hp.range, hp.var, ?_⟩
    rcases hp.why with h1 | ⟨r, q, h1, h2, h3, h4, h5, h6⟩
    · exact Or.inl h1
    · refine Or.inr ⟨r, q, ?_⟩
      rw [clause_new, if_neg (hlt ⟨_, h3⟩), clause_new, if_neg (hlt ⟨_, h6⟩)]
      exact ⟨h1, h2, h3, h4, h5, h6⟩
  · refine ⟨⟨hσ.1, fun r h1 h2 h3 h4 => ?_, hσ.2.2⟩, ?_⟩
    · by_cases e : r = s.arena.length
      · rw [e, clause_length] at h1; cases h1
      · have := hσ.2.1 r
        rw [clause_new, if_neg e] at this
        exact this h1 h2 h3 h4
    · have := hσ.2.1 s.arena.length
      rw [clause_new, if_pos rfl] at this
      refine this rfl rfl (fun hm => hx x hm rfl) fun hm => hx _ hm (neg_div _)

theorem GInv.connectResolvents {orig : List (List Nat)} {v : Option Nat} {x : Nat} {P N : List Nat} :
    ∀ (res : List (List Nat)) {s : State}, GInv orig v x P N s res → Closed P N s x res →
    Inv orig v (s.connectResolvents res) ∧
    ((s.connectResolvents res).inconsistent = false →
      GInv orig v x P N (s.connectResolvents res) [] ∧ Closed P N (s.connectResolvents res) x [])
  | [], s, h, hc => ⟨h.inv, fun _ => ⟨h, hc⟩⟩
  | R :: rs, s, h, hc => by
    have hS := h.inv.struct
    have hp := h.res R (by simp)
    unfold State.connectResolvents
    by_cases ha : (R.any fun other => decide (s.values other > 0)) = true
    · rw [if_pos ha]
      refine GInv.connectResolvents rs h.tail fun σ hσ => hc σ ⟨hσ.1, hσ.2.1, fun Q hQ => ?_⟩
      rcases List.mem_cons.1 hQ with rfl | hQ
      · obtain ⟨o, o1, o2⟩ := List.any_eq_true.1 ha
        exact ⟨o, o1, hσ.1 o ((hS.trail o).2 (by simpa using o2))⟩
      · exact hσ.2.2 Q hQ
    · rw [if_neg ha]
      have hle : ∀ o ∈ R, s.values o ≤ 0 := by
        intro o ho
        by_cases hv : s.values o > 0
        · exact absurd (List.any_eq_true.2 ⟨o, ho, by simpa using hv⟩) ha
        · omega
      have hmem : ∀ o : Nat, o ∈ R.filter (fun other => decide ¬ s.values other < 0) ↔
          o ∈ R ∧ s.values o = 0 := by
        intro o
        rw [List.mem_filter]
        simp only [decide_eq_true_eq]
        constructor
        · rintro ⟨h1, h2⟩; have := hle o h1; exact ⟨h1, by omega⟩
        · rintro ⟨h1, h2⟩; exact ⟨h1, by omega⟩
      have hnd : (R.filter (fun other => decide ¬ s.values other < 0)).Nodup := hp.nodup.filter _
      generalize R.filter (fun other => decide ¬ s.values other < 0) = c at hmem hnd ⊢
      have hrup : RUP s.formula c := by
        rcases hp.why with ⟨o, o1, o2⟩ | ⟨r, q, h1, h2, h3, h4, h5, h6⟩
        · have := hle o o1; omega
        · have conv : ∀ {l : Nat}, (l ∈ R ∨ s.values l < 0) → l ∈ c ∨ s.formula [Spec.neg l] := by
            rintro l (hl | hl)
            · by_cases hv : s.values l < 0
              · exact Or.inr (hS.neg_unit hv)
              · have := hle l hl
                exact Or.inl ((hmem _).2 ⟨hl, by omega⟩)
            · exact Or.inr (hS.neg_unit hl)
          exact rup_resolvent (Struct.clause_formula h1) (Struct.clause_formula h2) h3
            (fun m hm hne => conv (h4 m hm hne)) fun m hm hne => conv (h5 m hm hne)
      match c, hmem, hnd, hrup with
      | [], hmem, hnd, hrup =>
        exact ⟨h.inv.learnedEmpty hrup, fun hi => (by cases hi)⟩
      | [u], hmem, hnd, hrup =>
        dsimp only
        obtain ⟨u1, u2⟩ := (hmem _).1 (List.mem_singleton.2 (Eq.refl u))
        obtain ⟨k1, k2⟩ := h.tail.unit' u2 (hp.range u u1).1 (hp.range u u1).2 (hp.var u u1) hrup
        refine GInv.connectResolvents rs k1 fun σ hσ => hc σ ?_
        have h3 := k2 σ hσ
        refine ⟨h3.1, h3.2.1, fun Q hQ => ?_⟩
        rcases List.mem_cons.1 hQ with rfl | hQ
        · exact ⟨u, u1, hσ.1 u (List.mem_append_right _ (by simp))⟩
        · exact h3.2.2 Q hQ
      | a :: b :: c, hmem, hnd, hrup =>
        dsimp only
        obtain ⟨k1, k2, k3⟩ := h.tail.new (c := a :: b :: c) (by simp) hnd
          (fun l hl hl' => hp.taut l ((hmem _).1 hl).1 ((hmem _).1 hl').1) (fun l hl => hp.range l ((hmem _).1 hl).1)
          (fun l hl => hp.var l ((hmem _).1 hl).1) hrup
        refine GInv.connectResolvents rs k1 fun σ hσ => ?_
        obtain ⟨h3, l, l1, l2⟩ := k2 σ hσ
        have := hc σ ⟨h3.1, h3.2.1, fun Q hQ => by
          rcases List.mem_cons.1 hQ with rfl | hQ
          · exact ⟨l, ((hmem _).1 l1).1, l2⟩
          · exact h3.2.2 Q hQ⟩
        rcases this with h4 | h4
        · exact Or.inl fun r hr => by rw [k3 r (Or.inl hr)]; exact h4 r hr
        · exact Or.inr fun r hr => by rw [k3 r (Or.inr hr)]; exact h4 r hr

/-! ## Weakening clauses -/

/-- The invariant while removing clauses. -/
structure WInv (orig : List (List Nat)) (x : Nat) (P N : List Nat) (s : State) : Prop where
  inv : Inv orig (some (x / 2)) s
  val : s.values x = 0
  var : s.InRange x ∧ s.removed (x / 2) = false
  pos : ∀ r, (s.clause r).garbage = false → (s.clause r).redundant = false → x ∈ (s.clause r).lits → r ∈ P
  neg : ∀ r, (s.clause r).garbage = false → (s.clause r).redundant = false →
    Spec.neg x ∈ (s.clause r).lits → r ∈ N
  closed : Closed P N s x []

theorem WInv.symm {orig : List (List Nat)} {x : Nat} {P N : List Nat} {s : State}
    (h : WInv orig x P N s) : WInv orig (Spec.neg x) N P s :=
  ⟨by rw [neg_div]; exact h.inv, by rw [h.inv.struct.neg, h.val]; rfl,
    by rw [inRange_neg, neg_div]; exact h.var, h.neg, by rw [neg_neg]; exact h.pos, h.closed.symm⟩

theorem GInv.winv {orig : List (List Nat)} {x : Nat} {P N : List Nat} {s : State}
    (h : GInv orig none x P N s []) (hc : Closed P N s x []) : WInv orig x P N s :=
  ⟨h.inv.start _, h.val, h.var, h.pos.all, h.neg.all, hc⟩

/-- One clause with one of the literals is removed. -/
theorem WInv.removeClause {orig : List (List Nat)} {x : Nat} {P N : List Nat} {s s' : State}
    (h : WInv orig x P N s) {r : Nat} (hi : Inv orig (some (x / 2)) s') (hv : s'.values = s.values)
    (he : s'.exports = s.exports) (hrem : s'.removed = s.removed) (ht : s'.trail = s.trail)
    (hc : ∀ k, s'.clause k = if k = r then { s.clause r with garbage := true } else s.clause k)
    (hx : x ∈ (s.clause r).lits ∨ Spec.neg x ∈ (s.clause r).lits) : WInv orig x P N s' := by
  have lits : ∀ k, (s'.clause k).lits = (s.clause k).lits := by
    intro k; rw [hc]; split
    · rename_i e; rw [e]
    · rfl
  refine ⟨hi, by rw [hv]; exact h.val, ?_, fun k => ?_, fun k => ?_, fun σ hσ => ?_⟩
  · unfold State.InRange
    rw [he, hrem]; exact h.var
  · rw [hc]
    split
    · intro e; cases e
    · exact h.pos k
  · rw [hc]
    split
    · intro e; cases e
    · exact h.neg k
  · simp only [lits]
    refine h.closed σ ⟨by rw [← ht]; exact hσ.1, fun k h1 h2 h3 h4 => ?_, fun R hR => (by cases hR)⟩
    have := hσ.2.1 k
    rw [hc, if_neg] at this
    · exact this h1 h2 h3 h4
    · rintro rfl
      rcases hx with hx | hx
      · exact h3 hx
      · exact h4 hx

theorem satClause_assign {σ : Assignment} {x : Nat} {c : List Nat} (hc : ∀ l ∈ c, l / 2 ≠ x / 2)
    (h : SatClause σ c) : SatClause (assign σ x) c := by
  obtain ⟨l, l1, l2⟩ := h
  refine ⟨l, l1, ?_⟩
  unfold litTrue assign at *
  rw [if_neg (hc l l1)]
  exact l2

theorem litTrue_assign (σ : Assignment) (x : Nat) : litTrue (assign σ x) x := by
  unfold litTrue assign
  rw [if_pos rfl]

theorem ne_var_of_value {orig : List (List Nat)} {s : State} (h : Struct orig s) {x l : Nat}
    (hv : s.values x = 0) (hl : l ∈ s.trail) : l / 2 ≠ x / 2 := by
  have := (h.trail l).1 hl
  intro e
  rcases eq_or_eq_neg e with e | e
  · rw [e, hv] at this; omega
  · rw [e, h.neg, hv] at this; omega

/-- Removing a clause with the literal is justified by the resolvents. -/
theorem WInv.redundant {orig : List (List Nat)} {x : Nat} {P N : List Nat} {s : State}
    (h : WInv orig x P N s) {r : Nat} (hg : (s.clause r).garbage = false)
    (hirr : (s.clause r).redundant = false) (hx : x ∈ (s.clause r).lits) :
    Redundant (s.markGarbage r).irr (s.clause r).lits x := by
  have hS := h.inv.struct
  intro σ hσ hn
  have hold : Holds σ s x [] := by
    refine ⟨fun l hl => ?_, fun k h1 h2 h3 _ => ?_, fun R hR => (by cases hR)⟩
    · obtain ⟨m, m1, m2⟩ := hσ [l] (Or.inl ⟨l, hl, rfl⟩)
      rw [List.mem_singleton.1 m1] at m2; exact m2
    · refine hσ _ ((irr_garbage (clause_lt hg)).2 (Or.inr ⟨k, ?_, h1, h2, rfl⟩))
      rintro rfl; exact h3 hx
  have hN : ∀ q ∈ N, SatClause σ (except (s.clause q).lits (Spec.neg x)) := by
    refine (h.closed σ hold).resolve_left fun hP => hn ?_
    obtain ⟨l, l1, l2⟩ := hP r (h.pos r hg hirr hx)
    exact ⟨l, (mem_except.1 l1).1, l2⟩
  intro d hd
  rcases (irr_garbage (clause_lt hg)).1 hd with ⟨l, l1, rfl⟩ | ⟨k, hk, h1, h2, rfl⟩
  · exact satClause_assign (fun m hm => by
      rw [List.mem_singleton.1 hm]; exact ne_var_of_value hS h.val l1) (hσ _ hd)
  · by_cases m1 : x ∈ (s.clause k).lits
    · exact ⟨x, m1, litTrue_assign σ x⟩
    · by_cases m2 : Spec.neg x ∈ (s.clause k).lits
      · obtain ⟨l, l1, l2⟩ := satClause_assign (x := x) (fun l hl => by
          obtain ⟨l1, l2⟩ := mem_except.1 hl
          exact ne_var (by rintro rfl; exact m1 l1) l2) (hN k (h.neg k h1 h2 m2))
        exact ⟨l, (mem_except.1 l1).1, l2⟩
      · exact satClause_assign (fun l hl =>
          ne_var (by rintro rfl; exact m1 hl) (by rintro rfl; exact m2 hl)) (hσ _ hd)

/-- Clauses only become garbage. -/
structure Kept (s s' : State) : Prop where
  lits : ∀ r, (s'.clause r).lits = (s.clause r).lits
  red : ∀ r, (s'.clause r).redundant = (s.clause r).redundant
  garbage : ∀ r, (s.clause r).garbage = true → (s'.clause r).garbage = true

theorem Kept.refl (s : State) : Kept s s := ⟨fun _ => rfl, fun _ => rfl, fun _ h => h⟩

theorem Kept.trans {a b c : State} (h : Kept a b) (h' : Kept b c) : Kept a c :=
  ⟨fun r => (h'.lits r).trans (h.lits r), fun r => (h'.red r).trans (h.red r),
    fun r hr => h'.garbage r (h.garbage r hr)⟩

theorem Kept.live {s s' : State} (h : Kept s s') {r : Nat} (hg : (s'.clause r).garbage = false) :
    (s.clause r).garbage = false := by
  cases e : (s.clause r).garbage
  · rfl
  · rw [h.garbage r e] at hg; cases hg

theorem kept_of {s s' : State} {r : Nat}
    (hc : ∀ k, s'.clause k = if k = r then { s.clause r with garbage := true } else s.clause k) :
    Kept s s' := by
  refine ⟨fun k => ?_, fun k => ?_, fun k hk => ?_⟩
  · rw [hc]; split
    · rename_i e; rw [e]
    · rfl
  · rw [hc]; split
    · rename_i e; rw [e]
    · rfl
  · rw [hc]; split
    · rfl
    · exact hk

theorem WInv.weakenLoop {orig : List (List Nat)} {x : Nat} {P N : List Nat} :
    ∀ (rs : List Nat) {s : State}, WInv orig x P N s →
    (∀ r ∈ rs, x ∈ (s.clause r).lits ∧ (s.clause r).redundant = false) →
    WInv orig x P N (s.weakenLoop x true rs) ∧ Kept s (s.weakenLoop x true rs) ∧
    ∀ r ∈ rs, ((s.weakenLoop x true rs).clause r).garbage = true
  | [], s, h, _ => ⟨h, .refl _, fun r hr => (by cases hr)⟩
  | r :: rs, s, h, hrs => by
    obtain ⟨r1, r2⟩ := hrs r (by simp)
    have go : ∀ {s' : State}, WInv orig x P N s' → Kept s s' → (s'.clause r).garbage = true →
        WInv orig x P N (s'.weakenLoop x true rs) ∧ Kept s (s'.weakenLoop x true rs) ∧
        ∀ q ∈ r :: rs, ((s'.weakenLoop x true rs).clause q).garbage = true := by
      intro s' h' hk hg
      obtain ⟨i1, i2, i3⟩ := WInv.weakenLoop rs h' fun q hq => by
        rw [hk.lits, hk.red]; exact hrs q (List.mem_cons_of_mem _ hq)
      refine ⟨i1, hk.trans i2, fun q hq => ?_⟩
      rcases List.mem_cons.1 hq with rfl | hq
      · exact i2.garbage _ hg
      · exact i3 q hq
    unfold State.weakenLoop
    by_cases hg : (s.clause r).garbage = true
    · rw [if_pos hg]
      exact go h (.refl _) hg
    · rw [if_neg hg]
      have hg : (s.clause r).garbage = false := by simpa using hg
      have hlt := clause_lt hg
      by_cases ha : (!true || (s.clause r).lits.any fun other => decide (s.values other > 0)) = true
      · rw [if_pos ha]
        obtain ⟨o, o1, o2⟩ := List.any_eq_true.1 (show ((s.clause r).lits.any fun other =>
          decide (s.values other > 0)) = true from by simpa using ha)
        have o2 : s.values o > 0 := by simpa using o2
        have hc : ∀ k, (s.markGarbage r).clause k =
          if k = r then { s.clause r with garbage := true } else s.clause k := clause_garbage hlt
        exact go (h.removeClause (h.inv.markSatisfied hg o1 o2) rfl rfl rfl rfl hc (Or.inl r1)) (kept_of hc)
          (by rw [hc, if_pos rfl])
      · rw [if_neg ha]
        have hi := h.inv.weakenGarbage hg r2 r1 h.val rfl (h.redundant hg r2 r1)
        have hc : ∀ k, ((s.weaken x (s.clause r).lits).markGarbage r).clause k =
            if k = r then { s.clause r with garbage := true } else s.clause k := by
          rw [weaken_eq]
          exact clause_garbage hlt
        refine go (h.removeClause hi ?_ ?_ ?_ ?_ hc (Or.inl r1)) (kept_of hc)
          (by rw [hc, if_pos rfl])
        · rw [weaken_eq]; rfl
        · rw [weaken_eq]; rfl
        · rw [weaken_eq]; rfl
        · rw [weaken_eq]; rfl

/-- Removing clauses without weakening them. -/
theorem Struct.weakenLoop {orig : List (List Nat)} {x : Nat} :
    ∀ (rs : List Nat) {s : State}, Struct orig s →
    Struct orig (s.weakenLoop x false rs) ∧ Kept s (s.weakenLoop x false rs) ∧
    (s.weakenLoop x false rs).toState = s.toState ∧ (s.weakenLoop x false rs).trail = s.trail ∧
    (s.weakenLoop x false rs).removed = s.removed ∧
    (∀ r ∈ rs, ((s.weakenLoop x false rs).clause r).garbage = true) ∧
    ∀ r, r ∉ rs → (s.weakenLoop x false rs).clause r = s.clause r
  | [], s, h => ⟨h, .refl _, rfl, rfl, rfl, fun r hr => (by cases hr), fun _ _ => rfl⟩
  | r :: rs, s, h => by
    unfold State.weakenLoop
    by_cases hg : (s.clause r).garbage = true
    · rw [if_pos hg]
      obtain ⟨i1, i2, i3, i4, i5, i6, i7⟩ := Struct.weakenLoop rs h
      refine ⟨i1, i2, i3, i4, i5, fun q hq => ?_, fun q hq => ?_⟩
      · rcases List.mem_cons.1 hq with rfl | hq
        · exact i2.garbage _ hg
        · exact i6 q hq
      · exact i7 q fun hh => hq (List.mem_cons_of_mem _ hh)
    · rw [if_neg hg]
      have hg : (s.clause r).garbage = false := by simpa using hg
      rw [if_pos (by simp)]
      have hc : ∀ k, (s.markGarbage r).clause k =
        if k = r then { s.clause r with garbage := true } else s.clause k := clause_garbage (clause_lt hg)
      obtain ⟨i1, i2, i3, i4, i5, i6, i7⟩ := Struct.weakenLoop rs (h.markGarbage hg)
      refine ⟨i1, (kept_of hc).trans i2, i3, i4, i5, fun q hq => ?_, fun q hq => ?_⟩
      · rcases List.mem_cons.1 hq with rfl | hq
        · refine i2.garbage _ ?_
          rw [hc, if_pos rfl]
        · exact i6 q hq
      · rw [i7 q fun hh => hq (List.mem_cons_of_mem _ hh), hc, if_neg]
        rintro rfl
        exact hq (by simp)

/-- No live irredundant clause has the variable. -/
def State.NoVar (s : State) (v : Nat) : Prop := ∀ r, (s.clause r).garbage = false →
  (s.clause r).redundant = false → ∀ l ∈ (s.clause r).lits, l / 2 ≠ v

theorem redundant_noVar {orig : List (List Nat)} {s : State} (h : Struct orig s) {x : Nat}
    (hv : s.values x = 0) (hn : s.NoVar (x / 2)) (c : List Nat) : Redundant s.irr c x := by
  intro σ hσ _ d hd
  refine satClause_assign (fun l hl => ?_) (hσ d hd)
  rcases hd with ⟨k, k1, rfl⟩ | ⟨r, r1, r2, rfl⟩
  · rw [List.mem_singleton.1 hl]; exact ne_var_of_value h hv k1
  · exact hn r r1 r2 l hl

theorem Inv.weakenClauses {orig : List (List Nat)} {x : Nat} {P N : List Nat} {s : State}
    (h : WInv orig x P N s) (o : ElimOptions) :
    Inv orig (some (x / 2)) (s.weakenClauses o x) ∧ (s.weakenClauses o x).NoVar (x / 2) ∧
    (s.weakenClauses o x).values x = 0 ∧ (s.weakenClauses o x).InRange x ∧
    (s.weakenClauses o x).removed (x / 2) = false := by
  have fin : ∀ {s' : State}, Inv orig (some (x / 2)) s' → s'.NoVar (x / 2) → s'.values x = 0 →
      s'.InRange x → s'.removed (x / 2) = false →
      Inv orig (some (x / 2)) s'.flushUnitsWhileConnected ∧ s'.flushUnitsWhileConnected.NoVar (x / 2) ∧
      s'.flushUnitsWhileConnected.values x = 0 ∧ s'.flushUnitsWhileConnected.InRange x ∧
      s'.flushUnitsWhileConnected.removed (x / 2) = false := by
    intro s' h1 h2 h3 h4 h5
    obtain ⟨i1, i2⟩ := h1.flushUnitsWhileConnected
    refine ⟨i1, fun r g1 g2 => ?_, ?_, ?_, ?_⟩
    · rw [i2.lits]
      rw [i2.red] at g2
      exact h2 r (i2.live g1) g2
    · rw [i2.untouched (x / 2) h2 x rfl]; exact h3
    · unfold State.InRange; rw [i2.exports]; exact h4
    · rw [i2.removed]; exact h5
  unfold State.weakenClauses
  dsimp only
  obtain ⟨a1, a2, a3⟩ := h.weakenLoop (s.occurrences x) fun r hr =>
    ⟨(mem_occurrences.1 hr).2.2, (mem_occurrences.1 hr).2.1⟩
  generalize s.weakenLoop x true (s.occurrences x) = s1 at a1 a2 a3 ⊢
  have nox : ∀ r, (s1.clause r).garbage = false → (s1.clause r).redundant = false →
      x ∉ (s1.clause r).lits := by
    intro r g1 g2 hm
    rw [a2.red] at g2
    rw [a2.lits] at hm
    rw [a3 r (mem_occurrences.2 ⟨a2.live g1, g2, hm⟩)] at g1
    cases g1
  have novar : ∀ {s2 : State}, Kept s1 s2 →
      (∀ r ∈ s1.occurrences (Spec.neg x), (s2.clause r).garbage = true) → s2.NoVar (x / 2) := by
    intro s2 hk hall r g1 g2 l hl
    rw [hk.red] at g2
    rw [hk.lits] at hl
    have g0 := hk.live g1
    refine ne_var ?_ ?_
    · rintro rfl; exact nox r g0 g2 hl
    · rintro rfl
      rw [hall r (mem_occurrences.2 ⟨g0, g2, hl⟩)] at g1
      cases g1
  cases hinc : o.incremental with
  | true =>
    rw [if_neg (by simp)]
    obtain ⟨b1, b2, b3⟩ := a1.symm.weakenLoop (s1.occurrences (Spec.neg x)) fun r hr =>
      ⟨(mem_occurrences.1 hr).2.2, (mem_occurrences.1 hr).2.1⟩
    have b1 := b1.symm
    rw [neg_neg] at b1
    exact fin b1.inv (novar b2 b3) b1.val b1.var.1 b1.var.2
  | false =>
    obtain ⟨b1, b2, b3, b4, b5, b6, b7⟩ := a1.inv.struct.weakenLoop (x := Spec.neg x)
      (s1.occurrences (Spec.neg x))
    by_cases hcond : (!false && (!(s1.occurrences (Spec.neg x)).isEmpty || o.stale)) = true
    · rw [if_pos hcond]
      generalize s1.weakenLoop (Spec.neg x) false (s1.occurrences (Spec.neg x)) = s2
        at b1 b2 b3 b4 b5 b6 b7 ⊢
      have hn := novar b2 b6
      have hval : s2.values (Spec.neg x) = 0 := by
        show s2.toState.values _ = 0
        rw [b3]
        show s1.values _ = 0
        rw [a1.inv.struct.neg, a1.val]; rfl
      have hexp : s2.exports = s1.exports := by
        show s2.toState.exports = _
        rw [b3]
      have hir : ∀ l, s2.InRange l ↔ s1.InRange l := by
        intro l; unfold State.InRange; rw [hexp]
      have hh : s2.Hist orig s1.irr := by
        have := a1.inv.hist
        unfold State.Hist at this ⊢
        rw [b3, ext_eq hexp]; exact this
      have hvx : s2.values x = 0 := by
        have := hval; rw [b1.neg] at this; omega
      have hback : ∀ σ, SatFormula σ s2.irr → SatClause σ [Spec.neg x] → SatFormula σ s1.irr := by
        intro σ hσ hcl d hd
        rcases hd with ⟨l, l1, rfl⟩ | ⟨r, r1, r2, rfl⟩
        · exact hσ _ (Or.inl ⟨l, by rw [b4]; exact l1, rfl⟩)
        · by_cases hr : r ∈ s1.occurrences (Spec.neg x)
          · obtain ⟨y, y1, y2⟩ := hcl
            rw [List.mem_singleton.1 y1] at y2
            exact ⟨_, (mem_occurrences.1 hr).2.2, y2⟩
          · refine hσ _ (Or.inr ⟨r, ?_⟩)
            rw [b7 r hr]
            exact ⟨r1, r2, rfl⟩
      have hfor : ∀ d, s2.formula d → s1.formula d := by
        rintro d (⟨l, l1, rfl⟩ | ⟨r, r1, rfl⟩)
        · exact Or.inl ⟨l, by rw [← b4]; exact l1, rfl⟩
        · exact Or.inr ⟨r, b2.live r1, by rw [b2.lits]⟩
      have hw := State.Hist.weaken b1 hh (F' := s2.irr) (w := Spec.neg x) (c := [Spec.neg x])
        (fun c hc l hl => (hir l).2 (a1.inv.struct.irr_range c hc l hl)) b1.irr_range (by simp)
        (fun l hl => by
          rw [List.mem_singleton.1 hl, inRange_neg, hir, neg_div, b5]
          exact a1.var) hval
        (fun l hl => Or.inl ⟨l, (b1.trail l).2 hl, rfl⟩)
        (redundant_noVar b1 hval (by rw [neg_div]; exact hn) _)
        hback
      have hwit : s2.Witnesses (some (x / 2)) := by
        have := a1.inv.witness
        unfold State.Witnesses at this ⊢
        rw [b3, b5]; exact this
      have hinv : Inv orig (some (x / 2)) (s2.weaken (Spec.neg x) [Spec.neg x]) := by
        refine ⟨b1.weaken _ _, by rw [weaken_irr]; exact hw, ?_, ?_⟩
        · exact hwit.weaken b1 (inRange_neg.2 ((hir x).2 a1.var.1)) (by rw [neg_div]) _ fun l hl => by
            rw [List.mem_singleton.1 hl, neg_div]
            exact ⟨inRange_neg.2 ((hir x).2 a1.var.1), by rw [b5]; exact a1.var.2⟩
        · unfold State.Implied
          rw [weaken_irr, show (s2.weaken (Spec.neg x) [Spec.neg x]).formula = s2.formula from by rw [weaken_eq]; rfl,
            show (s2.weaken (Spec.neg x) [Spec.neg x]).removed = s1.removed from by rw [weaken_eq]; exact b5]
          exact a1.inv.implied.weaken (w := Spec.neg x) (c := [Spec.neg x]) (by rw [neg_div])
            (redundant_noVar b1 hval (by rw [neg_div]; exact hn) _) hback hfor (by simp)
      refine fin hinv ?_ ?_ ?_ ?_
      · rw [weaken_eq]; exact hn
      · rw [weaken_eq]; exact hvx
      · rw [weaken_eq]; exact (hir x).2 a1.var.1
      · rw [weaken_eq]
        show s2.removed _ = false
        rw [b5]; exact a1.var.2
    · rw [if_neg hcond]
      have hemp : s1.occurrences (Spec.neg x) = [] := by
        cases hl : s1.occurrences (Spec.neg x) with
        | nil => rfl
        | cons a l => rw [hl] at hcond; simp at hcond
      rw [hemp]
      exact fin a1.inv (novar (.refl _) (by rw [hemp]; intro r hr; cases hr)) a1.val a1.var.1 a1.var.2

/-! ## Eliminating a variable -/

/-- The state between techniques.  After deriving the empty clause only the proof matters. -/
structure Fine (orig : List (List Nat)) (s : State) : Prop where
  unsat : s.inconsistent = true → ∃ db, Replay orig s.proof db ∧ [] ∈ db
  inv : s.inconsistent = false → Inv orig none s

theorem Inv.fine {orig : List (List Nat)} {s : State} (h : Inv orig none s) : Fine orig s :=
  ⟨fun hi => by
    obtain ⟨db, h1, h2⟩ := h.struct.proof
    exact ⟨db, h1, h2.empty hi⟩, fun _ => h⟩

theorem Fine.eliminateVariable {orig : List (List Nat)} {s : State} (h : Inv orig none s)
    (o : ElimOptions) (hk : o.kitten.Sound) {idx : Nat} (ha : s.active idx = true) :
    Fine orig (s.eliminateVariable o idx) := by
  unfold State.active at ha
  simp only [Bool.and_eq_true, decide_eq_true_eq, Bool.not_eq_true'] at ha
  obtain ⟨⟨a1, a2⟩, a3⟩ := ha
  obtain ⟨g1, g2⟩ := h.generateResolvents o hk a1 a2 a3
  unfold State.eliminateVariable
  cases hg : s.generateResolvents o idx with
  | mk s1 r =>
    rw [hg] at g1 g2
    dsimp only at g1 g2
    cases r with
    | none => exact g1.fine
    | some p =>
      obtain ⟨x, res⟩ := p
      dsimp only
      obtain ⟨hx, P, N, k1, k2⟩ := g2 x res rfl
      obtain ⟨c1, c2⟩ := k1.connectResolvents res k2
      generalize s1.connectResolvents res = s2 at c1 c2 ⊢
      cases hi : s2.inconsistent with
      | true =>
        rw [if_pos rfl]
        refine ⟨fun _ => ?_, fun hh => ?_⟩
        · obtain ⟨db, d1, d2⟩ := c1.struct.proof
          exact ⟨db, d1, d2.empty hi⟩
        · rw [show (s2.markEliminated idx).inconsistent = s2.inconsistent from rfl, hi] at hh
          cases hh
      | false =>
        rw [if_neg (by simp)]
        obtain ⟨d1, d2⟩ := c2 hi
        obtain ⟨w1, w2, w3, w4, w5⟩ := Inv.weakenClauses (d1.winv d2) o
        subst hx
        refine Inv.fine (Inv.markEliminated w1 w4 w5 w2 ?_)
        rcases eq_or_eq_neg (show 2 * (x / 2) / 2 = x / 2 by omega) with e | e
        · rw [e]; exact w3
        · rw [e, w1.struct.neg, w3]; rfl

theorem Fine.eliminateLoop {orig : List (List Nat)} : ∀ (sched : List (ElimOptions × Nat)) {s : State},
    (∀ e ∈ sched, e.1.kitten.Sound) → Fine orig s → Fine orig (s.eliminateLoop sched)
  | [], s, _, h => h
  | (o, idx) :: rest, s, hk, h => by
    have hk' : ∀ e ∈ rest, e.1.kitten.Sound := fun e he => hk e (List.mem_cons_of_mem _ he)
    unfold State.eliminateLoop
    cases hi : s.inconsistent with
    | true => rw [if_pos rfl]; exact h
    | false =>
      rw [if_neg (by simp)]
      cases ha : s.active idx with
      | false =>
        rw [if_pos (by simp)]
        exact Fine.eliminateLoop rest hk' h
      | true =>
        rw [if_neg (by simp)]
        have h1 := Fine.eliminateVariable (h.inv hi) o (hk (o, idx) (by simp)) ha
        generalize s.eliminateVariable o idx = s1 at h1 ⊢
        dsimp only
        cases hi1 : s1.inconsistent with
        | true => rw [if_pos rfl]; exact h1
        | false =>
          rw [if_neg (by simp)]
          exact Fine.eliminateLoop rest hk' (h1.inv hi1).flushUnitsWhileConnected.1.fine

end Verif.Simp
