import Verif.Proofs.Collect.Rewatch

/-! # The state after garbage collection -/

namespace Verif.Core

open Verif.Spec

/-- What garbage collection from `start` on does to the clauses of `s`. -/
structure Collected (s u : Solver) (start : Nat) : Prop where
  framed : Framed s u
  low : ∀ r, r < start → u.clause r = s.clause r
  len : start ≤ u.arena.length
  kept : ∀ r, start ≤ r → s.Stays r → 3 ≤ (s.reduct (s.clause r).lits).length →
    ∃ r', start ≤ r' ∧ u.Live r' ∧ (u.clause r').redundant = (s.clause r).redundant ∧
      (u.clause r').lits.Perm (s.reduct (s.clause r).lits)
  back : ∀ r', start ≤ r' → r' < u.arena.length → ∃ r, start ≤ r ∧ s.Stays r ∧
    3 ≤ (s.reduct (s.clause r).lits).length ∧ u.Live r' ∧ (u.clause r').searched = 2 ∧
    (u.clause r').redundant = (s.clause r).redundant ∧
    (u.clause r').lits.Perm (s.reduct (s.clause r).lits)
  best : ∀ r', start ≤ r' → r' < u.arena.length →
    ∃ a b rest, (u.clause r').lits = a :: b :: rest ∧ Best s a b rest
  bins : ∀ a b, Watch.binary b ∈ u.watches a ↔
    (Watch.binary b ∈ s.watches a ∧ ¬ s.RootSat [a, b]) ∨
    ∃ r, start ≤ r ∧ s.Stays r ∧
      (s.reduct (s.clause r).lits = [a, b] ∨ s.reduct (s.clause r).lits = [b, a])
  large : ∀ w b r, Watch.large b r ∈ u.watches w ↔
    (r < start ∧ Watch.large b r ∈ s.watches w ∧ s.fixed w = 0) ∨
    (start ≤ r ∧ ∃ x y rest, (u.clause r).lits = x :: y :: rest ∧ ((w = x ∧ b = y) ∨ (w = y ∧ b = x)))
  once : ∀ w, ((u.watches w).filterMap Watch.ref?).Nodup
  last : ∀ x ∈ u.lastLearned, x = none
  keptReason : ∀ l, s.values l = 1 →
    (∀ r, (s.assigned (l / 2)).reason = .large r → r < start) →
    (u.assigned (l / 2)).reason = (s.assigned (l / 2)).reason
  newReason : ∀ l r, s.values l = 1 → (s.assigned (l / 2)).reason = .large r → start ≤ r →
    (∃ r', start ≤ r' ∧ (u.assigned (l / 2)).reason = .large r' ∧ u.Live r' ∧
      (u.clause r').redundant = (s.clause r).redundant ∧
      (u.clause r').lits.Perm (s.reduct (s.clause r).lits)) ∨
    ∃ o, (u.assigned (l / 2)).reason = .binary o ∧
      (s.reduct (s.clause r).lits = [l, o] ∨ s.reduct (s.clause r).lits = [o, l])

theorem clause_of_get {s : Solver} {r : Nat} {c : Clause} (h : s.arena[r]? = some c) :
    s.clause r = c := by
  have := clause_get (List.getElem?_eq_some_iff.1 h).1
  rw [h] at this
  exact (Option.some.inj this).symm

theorem Settled.collect {s : Solver} {start : Nat} (hs : Settled s) (hst : start ≤ s.arena.length) :
    Collected s (s.collectClauses start) start := by
  have h := (hs.sweep hst).move hs |>.1
  unfold Solver.collectClauses
  generalize ((s.flushWatches start).sweepGarbage start).moveRedundant start = t at h
  have g := h.rewatch hs
  generalize t.rewatchClauses start = u at g
  have hlen : start ≤ u.arena.length := by rw [g.length]; exact h.len
  have sorted : ∀ r r', start ≤ r' → t.arena[r']? = some (s.shrunk r) → s.Stays r →
      u.Live r' ∧ (u.clause r').searched = 2 ∧ (u.clause r').redundant = (s.clause r).redundant ∧
        (u.clause r').lits.Perm (s.reduct (s.clause r).lits) := by
    intro r r' h1 h2 h3
    obtain ⟨a, b, rest, e, hp, _⟩ := g.done r' h1 (List.getElem?_eq_some_iff.1 h2).1
    rw [clause_of_get h2] at e hp
    unfold Solver.Live
    rw [e]
    exact ⟨shrunk_live h3, rfl, rfl, hp⟩
  refine ⟨h.framed.trans g.framed, fun r hr => ?_, hlen, fun r h1 h2 h3 => ?_, fun r' h1 h2 => ?_,
    fun r' h1 h2 => ?_, fun a b => ?_, fun w b r => ?_, g.once, by rw [g.last]; exact h.last,
    fun l hv hr => ?_, fun l r hv hr h1 => ?_⟩
  · rw [g.others r (.inl hr)]
    unfold Solver.clause
    rw [List.getD_eq_getElem?_getD, List.getD_eq_getElem?_getD, h.low r hr]
  · obtain ⟨r', k1, k2⟩ := h.fwd r h1 (clause_lt h2.1) h2 h3
    obtain ⟨k3, _, k4⟩ := sorted r r' k1 k2 h2
    exact ⟨r', k1, k3, k4⟩
  · rw [g.length] at h2
    obtain ⟨r, k1, _, k3, k4, k5⟩ := h.back r' _ h1 (clause_get h2)
    have := sorted r r' h1 (by rw [clause_get h2, k4]) k3
    exact ⟨r, k1, k3, k5, this⟩
  · rw [g.length] at h2
    obtain ⟨a, b, rest, e, _, hb⟩ := g.done r' h1 h2
    refine ⟨a, b, rest, by rw [e], ?_⟩
    obtain ⟨b1, b2⟩ := hb
    simp only [h.framed.values, h.framed.lev] at b1 b2
    exact ⟨b1, b2⟩
  · rw [g.watches, h.bins]
    constructor
    · rintro ((k | ⟨r, k1, k2, k3⟩) | ⟨r, x, y, rest, _, _, _, k | k⟩)
      · exact .inl k
      · exact .inr ⟨r, k1, k3⟩
      · exact absurd k.2 (by simp)
      · exact absurd k.2 (by simp)
    · rintro (k | ⟨r, k1, k2, k3⟩)
      · exact .inl (.inl k)
      · exact .inl (.inr ⟨r, k1, clause_lt k2.1, k2, k3⟩)
  · rw [g.watches, h.large]
    constructor
    · rintro (⟨k1, k2, k3⟩ | ⟨r', x, y, rest, k1, k2, k3, k⟩)
      · exact .inl ⟨k3, k1, k2⟩
      · rcases k with ⟨rfl, k⟩ | ⟨rfl, k⟩ <;> cases k
        · exact .inr ⟨k1, _, _, rest, k3, .inl ⟨rfl, rfl⟩⟩
        · exact .inr ⟨k1, _, _, rest, k3, .inr ⟨rfl, rfl⟩⟩
    · rintro (⟨k1, k2, k3⟩ | ⟨k1, x, y, rest, k2, k⟩)
      · exact .inl ⟨k2, k3, k1⟩
      · refine .inr ⟨r, x, y, rest, k1, ?_, k2, ?_⟩
        · refine Nat.lt_of_not_le fun hle => ?_
          have := g.others r (.inr hle)
          rw [this] at k2
          unfold Solver.clause at k2
          rw [List.getD_eq_getElem?_getD, List.getElem?_eq_none hle] at k2
          cases k2
        · rcases k with ⟨rfl, rfl⟩ | ⟨rfl, rfl⟩
          · exact .inl ⟨rfl, rfl⟩
          · exact .inr ⟨rfl, rfl⟩
  · rw [g.assigned]
    exact h.keptReason l hv fun r hr' => .inl (hr r hr')
  · rw [g.assigned]
    have hf := hs.inv.forces hv hr
    rcases h.newReason l r hv hr h1 (clause_lt hf.1) with ⟨r', k1, k2, k3⟩ | k
    · obtain ⟨k4, _, k5⟩ := sorted r r' k1 k3 ⟨hf.1, hf.2.1.not_rootSat⟩
      exact .inl ⟨r', k1, k2, k4, k5⟩
    · exact .inr k

/-- Propagation over binary clauses does not need the clauses satisfied by units. -/
theorem Settled.up {s : Solver} (hs : Settled s) {F : Formula}
    (hF : ∀ a b, Watch.binary b ∈ s.watches a → ¬ s.RootSat [a, b] → F [a, b])
    {o l : Nat} (ho : s.values o = -1) (h : UP s.bins (fun x => x = neg o) l) :
    s.values l = 1 ∧ ((s.lev l = 0) ∨ UP F (fun x => x = neg o) l) := by
  have ht := hs.inv.trail
  have key : ∀ x y, Watch.binary y ∈ s.watches x →
      (s.values (neg x) = 1 ∧ (s.lev (neg x) = 0 ∨ UP F (fun z => z = neg o) (neg x))) →
      s.values y = 1 ∧ (s.lev y = 0 ∨ UP F (fun z => z = neg o) y) := by
    intro x y hxy ⟨h1, h2⟩
    have hx : s.values x = -1 := ht.neg_pos.1 h1
    obtain ⟨z, hz, h3, _⟩ := hs.watching.binary x y hxy hx (by simp)
    rw [List.mem_singleton.1 hz] at h3
    refine ⟨h3, ?_⟩
    by_cases h0 : s.lev x = 0
    · exact .inl (hs.binary hxy hx h0).2
    · rcases h2 with h2 | h2
      · rw [lev_neg] at h2; exact absurd h2 h0
      · by_cases hr : s.RootSat [x, y]
        · obtain ⟨z, hz, h4, h5⟩ := hr
          simp only [List.mem_cons, List.not_mem_nil, or_false] at hz
          rcases hz with rfl | rfl
          · exact absurd h5 h0
          · exact .inl h5
        · refine .inr (.unit (hF x y hxy hr) (by simp) fun m hm hml => ?_)
          simp only [List.mem_cons, List.not_mem_nil, or_false] at hm
          rcases hm with rfl | rfl
          · exact h2
          · exact absurd rfl hml
  induction h with
  | assumed e => rw [e, ht.anti, ho]; exact ⟨rfl, .inr (.assumed rfl)⟩
  | @unit c l hc hl _ ih =>
    obtain ⟨a, b, hab, rfl⟩ := hc
    obtain ⟨hba, hne, _⟩ := hs.inv.clause.bin a b hab
    simp only [List.mem_cons, List.not_mem_nil, or_false] at hl
    rcases hl with rfl | rfl
    · exact key b l hba (ih b (by simp) (Ne.symm hne))
    · exact key a l hab (ih a (by simp) hne)

/-- All invariants hold except that clauses satisfied by units need not be watched. -/
structure Collectible (u : Solver) : Prop where
  trail : TrailInv u
  reason : ReasonInv u (u.level + 1) 0
  clause : ClauseInv u
  watched : ∀ r, u.Live r → ¬ u.RootSat (u.clause r).lits →
    ∀ w, (u.clause r).Watched w → ∃ b, Watch.large b r ∈ u.watches w
  inarena : ∀ w b r, Watch.large b r ∈ u.watches w → r < u.arena.length
  back : ∀ w b r, Watch.large b r ∈ u.watches w → u.Live r →
    (u.clause r).Watched w ∧ b ∈ (u.clause r).lits
  once : ∀ w, ((u.watches w).filterMap Watch.ref?).Nodup

theorem Collected.bin_new {s u : Solver} {start : Nat} (h : Collected s u start) {r a b : Nat}
    (h1 : start ≤ r) (h2 : s.Stays r) (h3 : s.reduct (s.clause r).lits = [a, b]) :
    Watch.binary b ∈ u.watches a ∧ Watch.binary a ∈ u.watches b :=
  ⟨(h.bins a b).2 (.inr ⟨r, h1, h2, .inl h3⟩), (h.bins b a).2 (.inr ⟨r, h1, h2, .inr h3⟩)⟩

theorem Collected.collectible {s u : Solver} {start : Nat} (hs : Settled s)
    (h : Collected s u start) : Collectible u := by
  have ht := hs.inv.trail
  have hut := h.framed.trailInv ht
  have hV : ∀ l, u.Valid l ↔ s.Valid l := fun l => by
    unfold Solver.Valid; rw [h.framed.vars, h.framed.removed]
  have hnd : ∀ r, s.Live r → (s.reduct (s.clause r).lits).Nodup := fun r hr =>
    (hs.inv.clause.nodup r hr).filter _
  have hmem : ∀ {r l}, l ∈ s.reduct (s.clause r).lits → l ∈ (s.clause r).lits := fun hl =>
    ((mem_reduct ht).1 hl).1
  refine ⟨hut, ⟨?_, ?_, ?_, ?_, ?_⟩, ⟨?_, ?_, ?_, ?_, ?_, ?_, ?_⟩, ?_, ?_, ?_, h.once⟩
  -- reasons
  · intro l hv h0
    rw [h.framed.values] at hv; rw [h.framed.lev] at h0
    have := hs.inv.reason.root l hv h0
    rw [h.keptReason l hv (fun r hr => by rw [this] at hr; cases hr), this]
  · intro l hv h0
    rw [h.framed.values] at hv; rw [h.framed.lev] at h0
    by_cases hx : ∀ r, (s.assigned (l / 2)).reason = .large r → r < start
    · rw [h.keptReason l hv hx]; exact hs.inv.reason.unit l hv h0
    · obtain ⟨r, hx⟩ := Classical.not_forall.1 hx
      obtain ⟨hr, hx⟩ := Classical.not_imp.1 hx
      rcases h.newReason l r hv hr (by omega) with ⟨r', _, k, _⟩ | ⟨o, k, _⟩ <;> rw [k] <;> simp
  · intro l hv hd
    rw [h.framed.values] at hv
    rw [h.framed.frames, h.framed.lev]
    by_cases hx : ∀ r, (s.assigned (l / 2)).reason = .large r → r < start
    · rw [h.keptReason l hv hx] at hd; exact hs.inv.reason.decision l hv hd
    · obtain ⟨r, hx⟩ := Classical.not_forall.1 hx
      obtain ⟨hr, hx⟩ := Classical.not_imp.1 hx
      rcases h.newReason l r hv hr (by omega) with ⟨r', _, k, _⟩ | ⟨o, k, _⟩ <;> rw [k] at hd <;> cases hd
  · intro l o hv hd
    rw [h.framed.values] at hv ⊢
    rw [h.framed.lev, h.framed.lev, h.framed.pos, h.framed.pos]
    by_cases hx : ∀ r, (s.assigned (l / 2)).reason = .large r → r < start
    · rw [h.keptReason l hv hx] at hd
      obtain ⟨k1, k2, k3, k4⟩ := hs.inv.reason.binary l o hv hd
      refine ⟨k1, k2, k3, ?_⟩
      have hup := (hs.up (F := u.bins) (fun a b hab hr => ⟨a, b, (h.bins a b).2 (.inl ⟨hab, hr⟩), rfl⟩) k1 k4).2
      refine hup.resolve_left fun h0 => ?_
      rw [hs.inv.reason.root l hv h0] at hd; cases hd
    · obtain ⟨r, hx⟩ := Classical.not_forall.1 hx
      obtain ⟨hr, hx⟩ := Classical.not_imp.1 hx
      obtain ⟨f1, f2, _⟩ := hs.inv.forces hv hr
      have f3 := f2.reduct ht
      have hst : s.Stays r := ⟨f1, f2.not_rootSat⟩
      rcases h.newReason l r hv hr (by omega) with ⟨r', _, k, _⟩ | ⟨o', k, k2⟩
      · rw [k] at hd; cases hd
      · rw [k] at hd
        cases hd
        have hb : Watch.binary l ∈ u.watches o := by
          rcases k2 with k2 | k2
          · exact (h.bin_new (by omega) hst k2).2
          · exact (h.bin_new (by omega) hst k2).1
        have hne : o ≠ l := by
          have := hnd r f1
          rcases k2 with k2 | k2 <;> rw [k2] at this <;> simp at this
          · exact fun e => this e.symm
          · exact this
        have hom : o ∈ s.reduct (s.clause r).lits := by
          rcases k2 with k2 | k2 <;> rw [k2] <;> simp
        obtain ⟨m, hm, hml, hmlev⟩ := f3.max
        have hmo : m = o := by
          rcases k2 with k2 | k2 <;> rw [k2] at hm <;>
            simp only [List.mem_cons, List.not_mem_nil, or_false] at hm
          · exact hm.resolve_left hml
          · exact hm.resolve_right hml
        rw [hmo] at hmlev
        have k3 := f3.others o hom hne
        refine ⟨k3.1, hmlev, k3.2.2.resolve_left fun h0 => f3.lev (by omega), ?_⟩
        refine .unit ⟨o, l, hb, rfl⟩ (by simp) fun x hx hxl => ?_
        simp only [List.mem_cons, List.not_mem_nil, or_false] at hx
        rcases hx with rfl | rfl
        · exact .assumed rfl
        · exact absurd rfl hxl
  · intro l r' hv hd _
    rw [h.framed.values] at hv ⊢
    simp only [h.framed.lev, h.framed.pos]
    by_cases hx : ∀ r, (s.assigned (l / 2)).reason = .large r → r < start
    · rw [h.keptReason l hv hx] at hd
      have := hx r' hd
      unfold Solver.Live
      rw [h.low r' this]
      exact hs.inv.reason.large l r' hv hd (.inl (Nat.lt_succ_of_le (ht.levle l hv)))
    · obtain ⟨r, hx⟩ := Classical.not_forall.1 hx
      obtain ⟨hr, hx⟩ := Classical.not_imp.1 hx
      obtain ⟨f1, f2, _⟩ := hs.inv.forces hv hr
      have f3 := f2.reduct ht
      rcases h.newReason l r hv hr (by omega) with ⟨r2, k1, k, k2, _, k4⟩ | ⟨o', k, k2⟩
      · rw [k] at hd
        cases hd
        have f4 := f3.perm fun x => k4.mem_iff.symm
        refine ⟨k2, ?_, f4.others, f4.max⟩
        obtain ⟨a, b, rest, e, hb⟩ := h.best r' k1 (clause_lt k2)
        by_cases hal : a = l
        · exact .inl (by rw [e, hal]; rfl)
        · have := f4.others a (by rw [e]; simp) hal
          have := (hb.first (by omega) l (by rw [← e]; exact f4.mem)).1
          omega
      · rw [k] at hd; cases hd
  -- clauses
  · intro r hr
    by_cases hlt : r < start
    · unfold Solver.Live at hr
      rw [h.low r hlt] at hr ⊢
      exact hs.inv.clause.size r hr
    · obtain ⟨r0, _, _, k3, _, _, _, k4⟩ := h.back r (by omega) (clause_lt hr)
      rw [k4.length_eq]; exact k3
  · intro r hr
    by_cases hlt : r < start
    · unfold Solver.Live at hr
      rw [h.low r hlt] at hr ⊢
      exact hs.inv.clause.nodup r hr
    · obtain ⟨r0, _, k2, _, _, _, _, k4⟩ := h.back r (by omega) (clause_lt hr)
      exact k4.nodup_iff.2 (hnd r0 k2.1)
  · intro r hr l hl
    by_cases hlt : r < start
    · unfold Solver.Live at hr
      rw [h.low r hlt] at hr hl ⊢
      exact hs.inv.clause.taut r hr l hl
    · obtain ⟨r0, _, k2, _, _, _, _, k4⟩ := h.back r (by omega) (clause_lt hr)
      exact fun hn => hs.inv.clause.taut r0 k2.1 l (hmem (k4.mem_iff.1 hl)) (hmem (k4.mem_iff.1 hn))
  · intro r hr l hl
    rw [hV]
    by_cases hlt : r < start
    · unfold Solver.Live at hr
      rw [h.low r hlt] at hr hl
      exact hs.inv.clause.valid r hr l hl
    · obtain ⟨r0, _, k2, _, _, _, _, k4⟩ := h.back r (by omega) (clause_lt hr)
      exact hs.inv.clause.valid r0 k2.1 l (hmem (k4.mem_iff.1 hl))
  · intro r hr
    by_cases hlt : r < start
    · unfold Solver.Live at hr
      rw [h.low r hlt] at hr ⊢
      exact hs.inv.clause.searched r hr
    · obtain ⟨r0, _, _, k3, _, k5, _, k4⟩ := h.back r (by omega) (clause_lt hr)
      rw [k5, k4.length_eq]; omega
  · intro a b hab
    rw [hV, hV]
    rcases (h.bins a b).1 hab with ⟨k1, k2⟩ | ⟨r, k1, k2, k3⟩
    · obtain ⟨j1, j2⟩ := hs.inv.clause.bin a b k1
      refine ⟨(h.bins b a).2 (.inl ⟨j1, fun ⟨l, hl, hr⟩ => k2 ⟨l, ?_, hr⟩⟩), j2⟩
      simp only [List.mem_cons, List.not_mem_nil, or_false] at hl ⊢
      exact hl.symm
    · have hm : a ∈ (s.clause r).lits ∧ b ∈ (s.clause r).lits := by
        constructor <;> apply hmem <;> rcases k3 with k3 | k3 <;> rw [k3] <;> simp
      refine ⟨(h.bins b a).2 (.inr ⟨r, k1, k2, k3.symm⟩), ?_, ?_, hs.inv.clause.valid r k2.1 a hm.1,
        hs.inv.clause.valid r k2.1 b hm.2⟩
      · have := hnd r k2.1
        rcases k3 with k3 | k3 <;> rw [k3] at this <;> simp at this
        · exact this
        · exact fun e => this e.symm
      · intro e
        exact hs.inv.clause.taut r k2.1 b hm.2 (e ▸ hm.1)
  · intro r hr
    exact absurd (h.last _ hr) (by simp)
  -- watches
  · intro r hr hn w hw
    by_cases hlt : r < start
    · rw [h.framed.rootSat] at hn
      unfold Solver.Live at hr
      rw [h.low r hlt] at hr hn hw
      obtain ⟨b, hb⟩ := (hs.inv.watch.watched r hr w hw).resolve_right hn
      refine ⟨b, (h.large w b r).2 (.inl ⟨hlt, hb, ?_⟩)⟩
      have hwm : w ∈ (s.clause r).lits := by
        rcases hw with hw | hw <;> exact List.mem_of_getElem? hw
      have h1 : ¬ 0 < s.fixed w := fun hf => hn ⟨w, hwm, (fixed_pos ht w).1 hf⟩
      have h2 : ¬ s.fixed w < 0 := fun hf => by
        obtain ⟨j1, j2⟩ := (fixed_neg ht w).1 hf
        exact hn (hs.watched hr hw j1 j2)
      omega
    · obtain ⟨a, b, rest, e, _⟩ := h.best r (by omega) (clause_lt hr)
      rcases hw with hw | hw <;> rw [e] at hw <;> cases hw
      · exact ⟨b, (h.large _ _ _).2 (.inr ⟨by omega, w, b, rest, e, .inl ⟨rfl, rfl⟩⟩)⟩
      · exact ⟨a, (h.large _ _ _).2 (.inr ⟨by omega, a, w, rest, e, .inr ⟨rfl, rfl⟩⟩)⟩
  · intro w b r hw
    rcases (h.large w b r).1 hw with ⟨k, _⟩ | ⟨k, x, y, rest, e, _⟩
    · have := h.len; omega
    · refine Nat.lt_of_not_le fun hle => ?_
      unfold Solver.clause at e
      rw [List.getD_eq_getElem?_getD, List.getElem?_eq_none hle] at e
      cases e
  · intro w b r hw hr
    rcases (h.large w b r).1 hw with ⟨k, k1, _⟩ | ⟨k, x, y, rest, e, k1⟩
    · unfold Solver.Live at hr
      rw [h.low r k] at hr ⊢
      exact hs.inv.watch.back w b r k1 hr
    · unfold Clause.Watched
      rw [e]
      rcases k1 with ⟨rfl, rfl⟩ | ⟨rfl, rfl⟩
      · exact ⟨.inl rfl, by simp⟩
      · exact ⟨.inr rfl, by simp⟩

end Verif.Core
