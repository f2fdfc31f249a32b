import Verif.Proofs.Kitten.Flip
import Verif.Model.KittenRun

/-! # Histories of calls of kitten -/

namespace Verif.Kitten

open Verif.Spec
open Verif.Core (upd)

/-- The stored original clauses are the given ones. -/
structure Link (k : Kitten) (p : Problem) : Prop where
  stored : ∀ c ∈ p.clauses, ∃ kl ∈ k.klauses, kl.learned = false ∧ kl.id = c.1 ∧ kl.lits.Perm (c.2.map k.inner)
  given : ∀ kl ∈ k.klauses, kl.learned = false → ∃ c ∈ p.clauses, kl.id = c.1 ∧ kl.lits.Perm (c.2.map k.inner)
  known : ∀ c ∈ p.clauses, ∀ e ∈ c.2, k.imports (e / 2) ≠ 0
  assumptions : k.assumptions = p.assumptions.map k.inner
  assumed : ∀ e ∈ p.assumptions, k.imports (e / 2) ≠ 0

/-- An inconsistent clause found without search is empty. -/
def Early (k : Kitten) : Prop :=
  ∀ (r : Nat) (kl : Klause), k.inconsistent = some r → k.klauses[r]? = some kl → kl.lits = []

/-- The invariant of histories. -/
structure RInv (k : Kitten) (p : Problem) (f : Bool) : Prop where
  good : Good k
  link : Link k p
  early : f = true → Early k

theorem init_rinv : RInv Kitten.init ⟨[], []⟩ true :=
  ⟨init_good, ⟨fun c h => (by cases h), fun kl h => (by cases h), fun c h => (by cases h), rfl, fun e h => (by cases h)⟩,
    fun _ r kl h => (by cases h)⟩

/-! ## Tracking -/

theorem calm_track (k : Kitten) : ({ k with antecedents := true } : Kitten).calm = { k.calm with antecedents := true } := by
  unfold Kitten.calm Kitten.root
  by_cases h : k.level ≠ 0
  · rw [if_pos h, if_pos (show ({ k with antecedents := true } : Kitten).level ≠ 0 from h)]; rfl
  · rw [if_neg h, if_neg (show ¬ ({ k with antecedents := true } : Kitten).level ≠ 0 from h)]

theorem track_rinv {k k' : Kitten} {p : Problem} (h : RInv k p true) (he : k.track = some k') : RInv k' p true := by
  unfold Kitten.track at he
  by_cases hc : k.status ≠ 0 ∨ k.learned = true
  · rw [if_pos hc] at he; cases he
  · rw [if_neg hc] at he
    cases he
    have hl : k.learned = false := by
      cases hx : k.learned with
      | false => rfl
      | true => exact absurd (Or.inr hx) hc
    have hg := h.good
    have hi := hg.inv
    have hcl : k.calm.learned = false := ((root_same k).2.2.2.2.2.2.2.2.2.2.1).trans hl
    refine ⟨⟨?_, hg.valid, fun hi' => ?_, hg.failed, hg.failing, hg.idle, hg.core, hg.names⟩,
      ⟨h.link.stored, h.link.given, h.link.known, h.link.assumptions, h.link.assumed⟩, fun _ => h.early rfl⟩
    · rw [calm_track]
      refine ⟨⟨⟨hi.vals.dom, hi.vals.anti, hi.vals.valid, hi.vals.count, hi.vals.nodup, hi.vals.tval, hi.vals.flushed,
        hi.vals.levle, hi.vals.sorted, hi.vals.high, hi.vals.pending⟩, ⟨hi.why.root, hi.why.decision, hi.why.first, hi.why.reason⟩,
        ⟨hi.store.valid, hi.store.distinct, fun r kl hr hlr => ?_, hi.store.flag, hi.store.empty, hi.store.units, hi.store.unit,
          fun r hr => ?_⟩⟩, ⟨hi.watch.watched, hi.watch.back, hi.watch.once⟩⟩
      · have hr : k.calm.klauses[r]? = some kl := hr
        have := hi.store.flag hcl kl (List.mem_of_getElem? hr)
        rw [this] at hlr; cases hlr
      · have hr : k.calm.inconsistent = some r := hr
        obtain ⟨⟨kl, q1, _⟩, q3⟩ := hi.store.inconsistent r hr
        refine ⟨⟨kl, q1, fun _ => ?_⟩, q3⟩
        have e1 : k.calm.klauses = k.klauses := (root_same k).1
        have e2 : k.calm.inconsistent = k.inconsistent := (root_same k).2.2.2.1
        rw [e1] at q1
        rw [e2] at hr
        exact h.early rfl r kl hr q1
    · rw [calm_track]; exact hg.semi hi'

/-! ## Clauses and assumptions -/

theorem ready_values {k : Kitten} : k.ready.calm.values = k.root.values := by
  unfold Kitten.ready
  by_cases hs : k.status ≠ 0
  · rw [if_pos hs]
    have ha := reset_alike k
    have := (Alike.calm ha).values
    rw [this]
    unfold Kitten.calm
    rw [root_zero (root_level k)]
  · rw [if_neg hs]; rfl

theorem Extends.calm_values {k k' : Kitten} (h : Extends k k') : k'.calm.values = k.calm.values := by
  unfold Kitten.calm Kitten.root
  rw [h.level]
  by_cases h0 : k.level ≠ 0
  · rw [if_pos h0, if_pos h0]
    show clearValues k'.values k'.trail = clearValues k.values k.trail
    rw [h.values, h.trail]
  · rw [if_neg h0, if_neg h0]
    exact h.values

/-- A literal falsified on root level is reported as fixed. -/
theorem fixed_of_root {k k2 : Kitten} {e : Nat} (hg : Good k) (hi2 : k2.imports (e / 2) ≠ 0) (hn2 : Names k2)
    (hx : ∃ t, k2.exports = k.exports ++ t) (hold : ∀ v, k.imports v ≠ 0 → k2.imports v = k.imports v)
    (hv : k.calm.values (k2.inner e) = -1) : k.fixed e < 0 := by
  have hlt : k2.inner e / 2 < k.n := by
    have := hg.inv.vals.valid _ (show k.calm.values (k2.inner e) ≠ 0 by omega)
    have hn : k.calm.n = k.n := by
      show k.root.exports.length = k.exports.length
      rw [(root_same k).2.1]
    rw [hn] at this
    exact this
  have hknown : k.imports (e / 2) ≠ 0 := by
    intro hc
    rw [inner_div] at hlt
    have h1 := (hn2 (e / 2) (k2.imports (e / 2) - 1)).2 (by omega)
    obtain ⟨t, ht⟩ := hx
    rw [ht, List.getElem?_append_left hlt] at h1
    have := (hg.names _ _).1 h1
    omega
  have hin : k2.inner e = k.inner e := by
    unfold Kitten.inner
    rw [hold _ hknown]
  rw [hin] at hv
  have hlev : k.lev (k.inner e) = 0 := by
    have h1 := hg.inv.vals.neg_true.2 hv
    have h2 := hg.inv.vals.levle _ h1
    rw [lev_neg] at h2
    have h3 : k.calm.level = 0 := root_level k
    have h4 : k.calm.lev (k.inner e) = k.lev (k.inner e) := by
      unfold Kitten.lev
      show (k.root.vars _).level = _
      rw [(root_same k).2.2.2.2.2.2.2.2.2.2.2.1]
    omega
  have hval : k.values (k.inner e) = -1 := by
    have hv' : k.root.values (k.inner e) = -1 := hv
    unfold Kitten.root at hv'
    split at hv'
    · have hv' : clearValues k.values k.trail (k.inner e) = -1 := hv'
      rw [clearValues_get] at hv'
      split at hv'
      · omega
      · exact hv'
    · exact hv'
  unfold Kitten.fixed Kitten.internal
  simp only
  rw [if_neg hknown]
  show (if k.lev (k.inner e) = 0 then k.values (k.inner e) else 0) < 0
  rw [if_pos hlev, hval]
  omega

theorem add_inconsistent' {k : Kitten} {c : Klause} {r : Nat} (hr : (k.add c).inconsistent = some r) :
    k.inconsistent = some r ∨ (r = k.klauses.length ∧ c.lits = []) := by
  revert hr
  unfold Kitten.add Kitten.connect
  split
  · rename_i heq
    split
    · intro hr; simp at hr; exact Or.inr ⟨hr.symm, heq⟩
    · exact Or.inl
  · exact Or.inl
  · exact Or.inl

theorem Early.ready {k : Kitten} (hg : Good k) (h : Early k) : Early k.ready := by
  obtain ⟨_, _, _, _, r5, r6, _⟩ := ready_ok hg
  intro r kl h1 h2
  rw [r6] at h1
  obtain ⟨y, e1, e2, _⟩ := r5.get h2
  rw [← e2]
  exact h r y h1 e1

theorem Link.ready {k : Kitten} {p : Problem} (hg : Good k) (h : Link k p) : Link k.ready (p.ready k.status) := by
  obtain ⟨_, _, _, r4, r5, _, _, r8⟩ := ready_ok hg
  have hin : k.ready.inner = k.inner := by funext e; unfold Kitten.inner; rw [r4]
  have hcl : (p.ready k.status).clauses = p.clauses := by unfold Problem.ready; split <;> rfl
  have has : (p.ready k.status).assumptions = if k.status ≠ 0 then [] else p.assumptions := by
    unfold Problem.ready; split <;> rfl
  constructor
  · intro c hc
    rw [hcl] at hc
    rw [hin]
    obtain ⟨kl, h1, h2, h3, h4⟩ := h.stored c hc
    obtain ⟨y, e1, e2, e3, e4, _⟩ := SameKs.mem r5.symm h1
    exact ⟨y, e1, e3.trans h2, e4.trans h3, by rw [e2]; exact h4⟩
  · intro kl hk hl
    rw [hcl, hin]
    obtain ⟨y, e1, e2, e3, e4, _⟩ := SameKs.mem r5 hk
    obtain ⟨c, h1, h2, h3⟩ := h.given y e1 (e3.trans hl)
    exact ⟨c, h1, e4.symm.trans h2, by rw [← e2]; exact h3⟩
  · rw [hcl, r4]; exact h.known
  · rw [r8, has, hin]
    split
    · rfl
    · exact h.assumptions
  · rw [has, r4]
    split
    · intro e he; cases he
    · exact h.assumed

theorem Link.extend {k k' : Kitten} {p : Problem} (h : Link k p) (hx : Extends k k') : Link k' p := by
  have hmap : ∀ es : List Nat, (∀ e ∈ es, k.imports (e / 2) ≠ 0) → es.map k'.inner = es.map k.inner := by
    intro es hes
    exact List.map_congr_left fun e he => hx.inner (hes e he)
  constructor
  · intro c hc
    rw [hx.klauses, hmap _ (h.known c hc)]
    exact h.stored c hc
  · intro kl hk hl
    rw [hx.klauses] at hk
    obtain ⟨c, h1, h2, h3⟩ := h.given kl hk hl
    exact ⟨c, h1, h2, by rw [hmap _ (h.known c h1)]; exact h3⟩
  · intro c hc e he
    rw [hx.old _ (h.known c hc e he)]
    exact h.known c hc e he
  · rw [hx.assumptions, hmap _ h.assumed]; exact h.assumptions
  · intro e he
    rw [hx.old _ (h.assumed e he)]
    exact h.assumed e he

theorem clause_rinv {k k' : Kitten} {p : Problem} {f : Bool} {id : Nat} {elits : List Nat} {except : Option Nat}
    (h : RInv k p f) (he : k.clause id elits except = some k')
    (hb : k.blocked (elits.filter fun e => some e ≠ except) = false) :
    RInv k' { p.ready k.status with clauses := p.clauses ++ [(id, elits.filter fun e => some e ≠ except)] } f := by
  obtain ⟨r1, r2, r3, r4, r5, r6, r7, r8⟩ := ready_ok h.good
  unfold Kitten.clause at he
  generalize (elits.filter fun e => some e ≠ except) = es at *
  cases hi : Kitten.importAll es [] k.ready with
  | none => rw [hi] at he; cases he
  | some x =>
    obtain ⟨k2, lits⟩ := x
    rw [hi] at he
    simp only [Option.some.injEq] at he
    subst he
    obtain ⟨q1, q2, q3, q4, q5, q6⟩ := importAll_ok _ _ _ _ _ hi r1 (by simp) (by simp)
    simp only [List.nil_append] at q3
    rw [newOriginal_eq]
    have hold : ∀ v, k.imports v ≠ 0 → k2.imports v = k.imports v := by
      intro v hv
      rw [← r4] at hv ⊢
      exact q2.old v hv
    have hexp : ∃ t, k2.exports = k.exports ++ t := by
      obtain ⟨t, ht⟩ := q2.exports
      exact ⟨t, by rw [ht, r3]⟩
    have hvals : k2.calm.values = k.calm.values := by
      rw [q2.calm_values, ready_values]; rfl
    have hw : Watchable k2 lits := by
      intro h2
      rw [q3] at h2 ⊢
      match es, q4, h2, hb with
      | [], _, h2, _ => simp at h2
      | [_], _, h2, _ => simp at h2
      | e1 :: e2 :: es, q4, _, hb =>
        have hb : (if k.fixed e1 < 0 ∧ k.fixed e2 < 0 then true else false) = false := hb
        by_cases h1 : k2.calm.values (k2.inner e1) = -1
        · refine ⟨k2.inner e2, isWatch_two.2 (Or.inr rfl), fun hc => ?_⟩
          rw [hvals] at h1 hc
          have f1 := fixed_of_root h.good (q4 e1 (by simp)) q1.names hexp hold h1
          have f2 := fixed_of_root h.good (q4 e2 (by simp)) q1.names hexp hold hc
          rw [if_pos ⟨f1, f2⟩] at hb
          cases hb
        · exact ⟨k2.inner e1, isWatch_two.2 (Or.inl rfl), h1⟩
    have hL := (h.link.ready h.good).extend q2
    have hcl : (p.ready k.status).clauses = p.clauses := by unfold Problem.ready; split <;> rfl
    have hin : (k2.add ⟨false, false, id, lits, []⟩).inner = k2.inner := by
      funext e; unfold Kitten.inner; rw [add_imports]
    refine ⟨add_good q1 (q2.status.trans r2) rfl rfl q5 q6 hw, ⟨?_, ?_, ?_, ?_, ?_⟩, fun hf => ?_⟩
    · intro c hc
      rw [add_klauses, hin]
      rcases List.mem_append.1 hc with hc | hc
      · obtain ⟨kl, h1, h2⟩ := hL.stored c (by rw [hcl]; exact hc)
        exact ⟨kl, List.mem_append_left _ h1, h2⟩
      · rw [show c = (id, es) by simpa using hc]
        exact ⟨⟨false, false, id, lits, []⟩, List.mem_append_right _ (List.mem_singleton.2 rfl), rfl, rfl, by rw [q3]⟩
    · intro kl hk hl
      rw [add_klauses] at hk
      rw [hin]
      rcases List.mem_append.1 hk with hk | hk
      · obtain ⟨c, h1, h2⟩ := hL.given kl hk hl
        rw [hcl] at h1
        exact ⟨c, List.mem_append_left _ h1, h2⟩
      · rw [show kl = ⟨false, false, id, lits, []⟩ by simpa using hk]
        exact ⟨(id, es), List.mem_append_right _ (by simp), rfl, by rw [q3]⟩
    · intro c hc e he
      rw [add_imports]
      rcases List.mem_append.1 hc with hc | hc
      · exact hL.known c (by rw [hcl]; exact hc) e he
      · rw [show c = (id, es) by simpa using hc] at he
        exact q4 e he
    · rw [add_assumptions, hin]; exact hL.assumptions
    · rw [add_imports]; exact hL.assumed
    · intro r kl h1 h2
      rw [add_klauses] at h2
      have hE := (h.early hf).ready h.good
      rcases add_inconsistent' h1 with h1 | ⟨rfl, hnil⟩
      · rw [q2.inconsistent] at h1
        obtain ⟨⟨kl'', g1, _⟩, _⟩ := (calm_store r1).inconsistent r h1
        rcases getElem?_concat h2 with h2 | ⟨h2, _⟩
        · rw [q2.klauses] at h2
          exact hE r kl h1 h2
        · have := lt_of_get g1
          rw [h2, q2.klauses] at this
          omega
      · rcases getElem?_concat h2 with h2 | ⟨_, rfl⟩
        · have := lt_of_get h2
          omega
        · exact hnil

theorem assume_rinv {k : Kitten} {p : Problem} {f : Bool} (e : Nat) (h : RInv k p f) :
    RInv (k.assume e) { p.ready k.status with assumptions := (p.ready k.status).assumptions ++ [e] } f := by
  obtain ⟨r1, r2, r3, r4, r5, r6, r7, r8⟩ := ready_ok h.good
  obtain ⟨k2, e1, g1, x1, i1, v1⟩ := import_ok r1 e
  have hL := (h.link.ready h.good).extend x1
  unfold Kitten.assume
  rw [e1]
  simp only
  have hst : k2.status = 0 := x1.status.trans r2
  obtain ⟨d1, d2⟩ := g1.idle (Or.inl hst)
  have hA : Alike k2 { k2 with assumptions := k2.assumptions ++ [k2.inner e] } :=
    ⟨rfl, rfl, rfl, rfl, rfl, rfl, rfl, rfl, rfl, rfl, rfl, rfl, rfl, rfl⟩
  refine ⟨⟨g1.inv.alike hA.calm (Or.inl (root_level k2)), ?_, ?_, ?_, ?_, fun _ => ⟨d1, d2⟩, g1.core, g1.names⟩,
    ⟨hL.stored, hL.given, hL.known, ?_, ?_⟩, fun hf => ?_⟩
  · intro a ha
    rcases List.mem_append.1 ha with ha | ha
    · exact g1.valid a ha
    · rw [show a = k2.inner e by simpa using ha]; exact v1
  · intro hi
    obtain ⟨q1, q2, q3⟩ := g1.semi hi
    exact ⟨q1.alike hA.calm, hA.calm.trail.trans q2, hA.calm.propagated.trans q3⟩
  · intro l hl
    have hl : k2.failed l = true := hl
    rw [d1] at hl; cases hl
  · intro hc; exact absurd d2 hc
  · show k2.assumptions ++ [k2.inner e] = ((p.ready k.status).assumptions ++ [e]).map k2.inner
    rw [hL.assumptions]; simp
  · intro x hx
    rcases List.mem_append.1 hx with hx | hx
    · exact hL.assumed x hx
    · rw [show x = e by simpa using hx]; exact i1
  · have hE := (h.early hf).ready h.good
    intro r kl h1 h2
    have h1 : k2.inconsistent = some r := h1
    have h2 : k2.klauses[r]? = some kl := h2
    rw [x1.inconsistent] at h1
    rw [x1.klauses] at h2
    exact hE r kl h1 h2

/-! ## Search and core -/

theorem link_solve {k k' : Kitten} {p : Problem} {res : Nat} (h : Link k p) (hs : SolveOk k k' res) :
    Link k' (if res = 0 then { p with assumptions := [] } else p.ready k.status) := by
  have hin : k'.inner = k.inner := by funext e; unfold Kitten.inner; rw [hs.imports]
  have hcl : (if res = 0 then { p with assumptions := [] } else p.ready k.status : Problem).clauses = p.clauses := by
    split
    · rfl
    · unfold Problem.ready; split <;> rfl
  have has : (if res = 0 then { p with assumptions := [] } else p.ready k.status : Problem).assumptions =
      if res = 0 then [] else if k.status ≠ 0 then [] else p.assumptions := by
    split
    · rfl
    · unfold Problem.ready; split <;> rfl
  obtain ⟨ks, s1, s2⟩ := hs.evolve
  constructor
  · intro c hc
    rw [hcl] at hc
    obtain ⟨kl, h1, h2, h3, h4⟩ := h.stored c hc
    obtain ⟨y, e1, e2, e3, e4, _⟩ := SameKs.mem s1.symm h1
    obtain ⟨r, hr⟩ := List.getElem?_of_mem e1
    obtain ⟨z, z1, z2, z3, z4, _⟩ := s2.old r y hr
    exact ⟨z, List.mem_of_getElem? z1, z3.trans (e3.trans h2), z4.trans (e4.trans h3), by
      rw [hin]; exact z2.trans (by rw [e2]; exact h4)⟩
  · intro kl hk hl
    rw [hcl]
    obtain ⟨r, hr⟩ := List.getElem?_of_mem hk
    rcases s2.new r kl hr with hlt | ⟨h', _⟩
    · obtain ⟨z, z1, z2, z3, z4, _⟩ := s2.old r ks[r] (List.getElem?_eq_getElem hlt)
      rw [hr] at z1
      cases z1
      obtain ⟨y, e1, e2, e3, e4, _⟩ := s1.mem (List.getElem_mem hlt)
      obtain ⟨c, h1, h2, h3⟩ := h.given y e1 (e3.trans (z3.symm.trans hl))
      exact ⟨c, h1, z4.trans (e4.symm.trans h2), by rw [hin]; exact z2.trans (by rw [← e2]; exact h3)⟩
    · rw [hl] at h'; cases h'
  · rw [hcl, hs.imports]; exact h.known
  · rw [hs.assumptions, has, hin]
    split
    · rfl
    · split
      · rfl
      · exact h.assumptions
  · rw [has, hs.imports]
    split
    · intro e he; cases he
    · split
      · intro e he; cases he
      · exact h.assumed

theorem link_core {k k' : Kitten} {p : Problem} (h : Link k p) (hc : CoreOk k k') : Link k' p := by
  have hin : k'.inner = k.inner := by funext e; unfold Kitten.inner; rw [hc.alike.imports]
  constructor
  · intro c hc'
    rw [hin]
    obtain ⟨kl, h1, h2, h3, h4⟩ := h.stored c hc'
    obtain ⟨y, e1, e2, e3, e4, _⟩ := SameKs.mem hc.alike.klauses.symm h1
    exact ⟨y, e1, e3.trans h2, e4.trans h3, by rw [e2]; exact h4⟩
  · intro kl hk hl
    rw [hin]
    obtain ⟨y, e1, e2, e3, e4, _⟩ := SameKs.mem hc.alike.klauses hk
    obtain ⟨c, h1, h2, h3⟩ := h.given y e1 (e3.trans hl)
    exact ⟨c, h1, e4.symm.trans h2, by rw [← e2]; exact h3⟩
  · rw [hc.alike.imports]; exact h.known
  · rw [hc.assumptions, hin]; exact h.assumptions
  · rw [hc.alike.imports]; exact h.assumed

theorem early_core {k k' : Kitten} (h : Early k) (hc : CoreOk k k') : Early k' := by
  intro r kl h1 h2
  rw [hc.alike.inconsistent] at h1
  obtain ⟨y, e1, e2, _⟩ := hc.alike.klauses.get h2
  rw [← e2]
  exact h r y h1 e1

/-! ## Shrinking -/

theorem reconnect_eq : ∀ (cs : List Klause) (k : Kitten), (∀ c ∈ cs, c.lits ≠ []) →
    Kitten.reconnect cs k = cs.foldl (fun k c => k.add (strip c)) k := by
  intro cs
  induction cs with
  | nil => intro k _; rfl
  | cons c cs ih =>
    intro k h
    unfold Kitten.reconnect
    simp only [List.foldl_cons]
    rw [← ih _ (fun c hc => h c (List.mem_cons_of_mem _ hc))]
    congr 1
    unfold Kitten.add Kitten.connect strip
    have := h c (by simp)
    cases hl : c.lits with
    | nil => exact absurd hl this
    | cons a as =>
      cases as with
      | nil => rfl
      | cons b rest => rfl

/-- A state without values. -/
structure Blank (b : Kitten) : Prop where
  inv : Inv b
  level : b.level = 0
  values : b.values = fun _ => 0
  trail : b.trail = []
  propagated : b.propagated = 0
  inconsistent : b.inconsistent = none

theorem blank_fold : ∀ (cs : List Klause) (b : Kitten), Blank b →
    (∀ c ∈ cs, c.learned = false ∧ c.lits ≠ [] ∧ (∀ l ∈ c.lits, l / 2 < b.n) ∧ (c.lits.map (· / 2)).Nodup) →
    Blank (cs.foldl (fun k c => k.add (strip c)) b) ∧
    (cs.foldl (fun k c => k.add (strip c)) b).klauses = b.klauses ++ cs.map strip ∧
    (cs.foldl (fun k c => k.add (strip c)) b).exports = b.exports ∧
    (cs.foldl (fun k c => k.add (strip c)) b).imports = b.imports ∧
    (cs.foldl (fun k c => k.add (strip c)) b).assumptions = b.assumptions ∧
    (cs.foldl (fun k c => k.add (strip c)) b).failed = b.failed ∧
    (cs.foldl (fun k c => k.add (strip c)) b).failing = b.failing := by
  intro cs
  induction cs with
  | nil => intro b h _; exact ⟨h, by simp, rfl, rfl, rfl, rfl, rfl⟩
  | cons c cs ih =>
    intro b h hc
    obtain ⟨c1, c2, c3, c4⟩ := hc c (by simp)
    have hB : Blank (b.add (strip c)) := by
      refine ⟨add_inv h.inv c1 c3 c4, (add_level _ _).trans h.level, (add_values _ _).trans h.values,
        (add_trail _ _).trans h.trail, (add_propagated _ _).trans h.propagated, ?_⟩
      cases hx : (b.add (strip c)).inconsistent with
      | none => rfl
      | some r =>
        rcases add_inconsistent' hx with h' | ⟨_, h'⟩
        · rw [h.inconsistent] at h'; cases h'
        · exact absurd h' c2
    have hn : (b.add (strip c)).n = b.n := by show (b.add (strip c)).exports.length = _; rw [add_exports]
    obtain ⟨q1, q2, q3, q4, q5, q6, q7⟩ := ih (b.add (strip c)) hB (fun d hd => by rw [hn]; exact hc d (List.mem_cons_of_mem _ hd))
    simp only [List.foldl_cons]
    refine ⟨q1, ?_, q3.trans (add_exports _ _), q4.trans (add_imports _ _), q5.trans (add_assumptions _ _),
      q6.trans (add_failed _ _), q7.trans (add_failing _ _)⟩
    rw [q2, add_klauses]; simp

theorem freeCount_blank (n : Nat) : freeCount (fun _ => 0) n = n := by
  unfold freeCount
  simp

theorem shrink_rinv {k k' : Kitten} {p : Problem} {f : Bool} (h : RInv k p f) (he : k.shrink = some k')
    (hne : ∀ c ∈ p.clauses, c.2 ≠ []) : RInv k' { p with clauses := p.clauses.filter k.inCore } f := by
  have hg := h.good
  have hst := calm_store hg
  have hfull : ∀ kl ∈ k.klauses, kl.learned = false → kl.lits ≠ [] := by
    intro kl hk hl hc
    obtain ⟨c, h1, h2, h3⟩ := h.link.given kl hk hl
    rw [hc] at h3
    have := h3.symm.eq_nil
    exact hne c h1 (List.map_eq_nil_iff.1 this)
  unfold Kitten.shrink at he
  by_cases h21 : k.status ≠ 21
  · rw [if_pos h21] at he; cases he
  · rw [if_neg h21] at he
    cases hi : k.inconsistent with
    | none => rw [hi] at he; cases he
    | some ref =>
      rw [hi] at he
      simp only at he
      obtain ⟨⟨kl, q1, q2⟩, q3⟩ := hst.inconsistent ref hi
      rw [q1] at he
      simp only [Option.some.injEq] at he
      have hcond : (kl.learned || !kl.lits.isEmpty) = true := by
        cases hl : kl.learned with
        | true => rfl
        | false =>
          have := hfull kl (List.mem_of_getElem? q1) hl
          cases hx : kl.lits with
          | nil => exact absurd hx this
          | cons a as => rfl
      rw [if_pos hcond] at he
      generalize hb : ({ k with
            trail := [], unassigned := k.exports.length, propagated := 0, level := 0
            values := fun _ => 0, watches := fun _ => [], units := [], klauses := []
            inconsistent := none } : Kitten) = b at he
      have hB : Blank b := by
        rw [← hb]
        refine ⟨⟨⟨⟨fun _ => Or.inr (Or.inl rfl), fun _ => rfl, fun l h => absurd rfl h, (freeCount_blank _).symm, .nil,
          fun l h => (by cases h), fun l h => (by cases h), fun l h => (by cases h), .nil, fun h => (by cases h),
          fun l h => (by cases h)⟩,
          ⟨fun l h => (by cases h), fun l h => (by cases h), fun a l b h => ?_, fun a l b r h => ?_⟩,
          ⟨fun l h => (by cases h), fun l h => (by cases h), fun r kl h => (by cases h), fun _ kl h => (by cases h),
            fun kl h => (by cases h), fun r kl l h => (by cases h), fun r h => (by cases h), fun r h => (by cases h)⟩⟩,
          ⟨fun r kl w h => (by cases h), fun w x h => (by cases h), fun w => .nil⟩⟩, rfl, rfl, rfl, rfl, rfl⟩
        · have h : ([] : List Nat) = a ++ l :: b := h
          simp at h
        · have h : ([] : List Nat) = a ++ l :: b := h
          simp at h
      have hbn : b.n = k.n := by rw [← hb]
      have hcs : ∀ c ∈ k.klauses.filter (fun c => !c.learned && c.core), c ∈ k.klauses ∧ c.learned = false ∧ c.core = true := by
        intro c hc
        obtain ⟨h1, h2⟩ := List.mem_filter.1 hc
        simp at h2
        exact ⟨h1, h2.1, h2.2⟩
      rw [reconnect_eq _ _ (fun c hc => hfull c (hcs c hc).1 (hcs c hc).2.1)] at he
      obtain ⟨w1, w2, w3, w4, w5, w6, w7⟩ := blank_fold (k.klauses.filter (fun c => !c.learned && c.core)) b hB (fun c hc => by
        obtain ⟨c1, c2, _⟩ := hcs c hc
        exact ⟨c2, hfull c c1 c2, by rw [hbn]; exact hst.valid c c1, hst.distinct c c1⟩)
      have bk : b.klauses = [] := by rw [← hb]
      have bimp : b.imports = k.imports := by rw [← hb]
      have bexp : b.exports = k.exports := by rw [← hb]
      have bas : b.assumptions = k.assumptions := by rw [← hb]
      have bfl : b.failed = k.failed := by rw [← hb]
      have bfg : b.failing = k.failing := by rw [← hb]
      rw [bk, List.nil_append] at w2
      generalize (k.klauses.filter (fun c => !c.learned && c.core)).foldl (fun k c => k.add (strip c)) b = b' at *
      subst he
      obtain ⟨d1, d2⟩ := hg.idle (Or.inr (by rw [hi]; simp))
      have hA : Alike b' { b' with core := [], status := 0 } :=
        ⟨rfl, rfl, rfl, rfl, rfl, rfl, rfl, rfl, rfl, rfl, rfl, rfl, rfl, rfl⟩
      have hn : b'.n = k.n := by show b'.exports.length = k.exports.length; rw [w3, bexp]
      have hR : Rest { b' with core := [], status := 0 } := by
        refine ⟨w1.inv.alike hA (Or.inl w1.level), ?_, fun _ => ?_, fun _ => ?_, fun _ _ => w1.trail⟩
        · intro a ha
          have ha : a ∈ b'.assumptions := ha
          show a / 2 < b'.n
          rw [hn]
          rw [w5, bas] at ha
          exact hg.valid a ha
        · show b'.propagated = b'.trail.length
          rw [w1.propagated, w1.trail]; rfl
        · intro r kl' hr h2
          match hl : kl'.lits, h2 with
          | a :: c :: rest, _ =>
            refine ⟨a, isWatch_two.2 (Or.inl rfl), fun hv => ?_⟩
            have hv : b'.values a = -1 := hv
            rw [w1.values] at hv
            exact absurd (show (0 : Int) = -1 from hv) (by decide)
      have hin : ({ b' with core := [], status := 0 } : Kitten).inner = k.inner := by
        funext e
        show 2 * (b'.imports (e / 2) - 1) + e % 2 = _
        rw [w4, bimp]; rfl
      refine ⟨good_of_rest hR w1.level (fun l => ?_) (w7.trans (bfg.trans d2)) rfl ?_
        (hg.names.congr (w3.trans bexp) (w4.trans bimp)), ⟨?_, ?_, ?_, ?_, ?_⟩, fun _ r kl' hr => ?_⟩
      · show b'.failed l = false
        rw [w6, bfl]; exact d1 l
      · intro kl' hk
        have hk : kl' ∈ b'.klauses := hk
        rw [w2] at hk
        obtain ⟨c, _, rfl⟩ := List.mem_map.1 hk
        rfl
      · intro c hc
        obtain ⟨_, h2⟩ := List.mem_filter.1 hc
        unfold Kitten.inCore at h2
        rw [List.any_eq_true] at h2
        obtain ⟨y, y1, y2⟩ := h2
        simp only [Bool.and_eq_true, Bool.not_eq_true', beq_iff_eq, List.isPerm_iff] at y2
        obtain ⟨⟨⟨y2, y3⟩, y4⟩, y5⟩ := y2
        refine ⟨strip y, ?_, y2, y4, by rw [hin]; exact y5⟩
        show strip y ∈ b'.klauses
        rw [w2]
        exact List.mem_map_of_mem (List.mem_filter.2 ⟨y1, by rw [y2, y3]; rfl⟩)
      · intro kl' hk _
        have hk : kl' ∈ b'.klauses := hk
        rw [w2] at hk
        obtain ⟨y, hy, rfl⟩ := List.mem_map.1 hk
        obtain ⟨y1, y2, y3⟩ := hcs y hy
        obtain ⟨c, h1, h2, h3⟩ := h.link.given y y1 y2
        refine ⟨c, List.mem_filter.2 ⟨h1, ?_⟩, h2, by rw [hin]; exact h3⟩
        unfold Kitten.inCore
        rw [List.any_eq_true]
        refine ⟨y, y1, ?_⟩
        simp only [Bool.and_eq_true, Bool.not_eq_true', beq_iff_eq, List.isPerm_iff]
        exact ⟨⟨⟨y2, y3⟩, h2⟩, h3⟩
      · intro c hc e hce
        show b'.imports (e / 2) ≠ 0
        rw [w4, bimp]
        exact h.link.known c (List.mem_filter.1 hc).1 e hce
      · rw [hin]
        show b'.assumptions = _
        rw [w5, bas]
        exact h.link.assumptions
      · intro e hce
        show b'.imports (e / 2) ≠ 0
        rw [w4, bimp]
        exact h.link.assumed e hce
      · have hr : b'.inconsistent = some r := hr
        rw [w1.inconsistent] at hr; cases hr

/-! ## Status -/

theorem clause_status {k k' : Kitten} {id : Nat} {elits : List Nat} {except : Option Nat} (hg : Good k)
    (he : k.clause id elits except = some k') : k'.status = 0 := by
  have h0 : k.ready.status = 0 := (ready_ok hg).2.1
  have key : ∀ (es lits : List Nat) {a b : Kitten} {out : List Nat}, Kitten.importAll es lits a = some (b, out) →
      b.status = a.status := by
    intro es
    induction es with
    | nil => intro lits a b out h; unfold Kitten.importAll at h; cases h; rfl
    | cons e es ih =>
      intro lits a b out h
      unfold Kitten.importAll at h
      have h1 : (a.importLit e).1.status = a.status := by
        unfold Kitten.importLit
        dsimp only
        split <;> rfl
      generalize a.importLit e = x at h h1
      obtain ⟨a1, i⟩ := x
      dsimp only at h
      split at h
      · cases h
      · exact (ih _ h).trans h1
  unfold Kitten.clause at he
  cases hi : Kitten.importAll (elits.filter fun e => some e ≠ except) [] k.ready with
  | none => rw [hi] at he; cases he
  | some x =>
    obtain ⟨k2, lits⟩ := x
    rw [hi] at he
    simp only [Option.some.injEq] at he
    subst he
    rw [newOriginal_eq, add_status, key _ _ hi, h0]

theorem assume_status {k : Kitten} (e : Nat) (hg : Good k) : (k.assume e).status = 0 := by
  have h0 : k.ready.status = 0 := (ready_ok hg).2.1
  unfold Kitten.assume Kitten.importLit
  dsimp only
  split
  · exact h0
  · exact h0

/-! ## Shuffling and flipping -/

theorem shuffle_rinv {k k' : Kitten} {p : Problem} {f : Bool} {pick : Nat → Nat → Nat} {pickUnit : Nat → Nat} (h : RInv k p f)
    (he : k.shuffle pick pickUnit = some k') : RInv k' p f ∧ k'.status = 0 := by
  have hg := shuffle_good h.good he
  unfold Kitten.shuffle at he
  by_cases h0 : k.status ≠ 0
  · rw [if_pos h0] at he; cases he
  rw [if_neg h0] at he
  cases he
  exact ⟨⟨hg, ⟨h.link.stored, h.link.given, h.link.known, h.link.assumptions, h.link.assumed⟩, h.early⟩, by simpa using h0⟩

theorem flip_rinv {k k' : Kitten} {p : Problem} {f : Bool} (h : RInv k p f) (hf : FlipOk k k') : RInv k' p f := by
  have hev := hf.evolve
  have hlen := hf.length
  have hg := hf.good
  have hr := hf.rest
  generalize k'.klauses = ks at *
  generalize k'.watches = ws at *
  generalize k'.values = vs at *
  subst hr
  refine ⟨hg, ⟨fun c hc => ?_, fun kl hk hl => ?_, h.link.known, h.link.assumptions, h.link.assumed⟩, fun hff r kl h1 h2 => ?_⟩
  · obtain ⟨kl, h1, h2, h3, h4⟩ := h.link.stored c hc
    obtain ⟨r, hr⟩ := List.getElem?_of_mem h1
    obtain ⟨kl', e1, e2, e3, e4, _⟩ := hev.old r kl hr
    exact ⟨kl', List.mem_of_getElem? e1, e3.trans h2, e4.trans h3, e2.trans h4⟩
  · obtain ⟨r, hr⟩ := List.getElem?_of_mem hk
    obtain ⟨kl0, e1, e2, e3, e4, _⟩ := hev.back hlen hr
    obtain ⟨c, c1, c2, c3⟩ := h.link.given kl0 (List.mem_of_getElem? e1) (e3.symm.trans hl)
    exact ⟨c, c1, e4.trans c2, e2.trans c3⟩
  · obtain ⟨kl0, e1, e2, _⟩ := hev.back hlen h2
    have := h.early hff r kl0 h1 e1
    rw [this] at e2
    exact e2.eq_nil

theorem run_both {k : Kitten} {p : Problem} {f : Bool} (h : Run k p f) : RInv k p f ∧ (k.status = 10 → Flippable k) := by
  have no : ∀ {k : Kitten} {n : Nat}, k.status = n → n ≠ 10 → k.status = 10 → Flippable k :=
    fun h1 h2 h3 => absurd (h1.symm.trans h3) h2
  induction h with
  | init => exact ⟨init_rinv, no rfl (by decide)⟩
  | clear _ _ => exact ⟨init_rinv, no (n := 0) rfl (by decide)⟩
  | @track k p k' _ he ih =>
    refine ⟨track_rinv ih.1 he, no (n := 0) ?_ (by decide)⟩
    unfold Kitten.track at he
    split at he
    · cases he
    · rename_i hc
      cases he
      by_cases h0 : k.status = 0
      · exact h0
      · exact absurd (Or.inl h0) hc
  | clause _ he hb ih => exact ⟨clause_rinv ih.1 he hb, no (clause_status ih.1.good he) (by decide)⟩
  | assume e _ ih => exact ⟨assume_rinv e ih.1, no (assume_status e ih.1.good) (by decide)⟩
  | @solve k p f choice rounds res k' _ he ih =>
    rcases solve_ok ih.1.good choice rounds with h' | ⟨res', k'', h', hs⟩
    · rw [h'] at he; cases he
    · rw [h'] at he
      cases he
      refine ⟨⟨hs.good, link_solve ih.1.link hs, fun hc => (by cases hc)⟩, fun h10 => ?_⟩
      exact (hs.sat (hs.status.symm.trans h10)).2.flippable
  | core _ he ih =>
    have hc := computeCore_ok ih.1.good he
    exact ⟨⟨core_good ih.1.good hc, link_core ih.1.link hc, fun hf => early_core (ih.1.early hf) hc⟩, no hc.status (by decide)⟩
  | shrink _ he hne ih =>
    refine ⟨shrink_rinv ih.1 he hne, no (n := 0) ?_ (by decide)⟩
    unfold Kitten.shrink at he
    split at he
    · cases he
    · split at he
      · cases he
      · split at he
        · cases he
        · cases he; rfl
  | shuffle _ he ih =>
    obtain ⟨h1, h2⟩ := shuffle_rinv ih.1 he
    exact ⟨h1, no h2 (by decide)⟩
  | flip _ he ih =>
    obtain ⟨h1, h2⟩ := flip_ok ih.1.good ih.2 he
    exact ⟨flip_rinv ih.1 h1, fun _ => h1.flippable⟩

theorem run_rinv {k : Kitten} {p : Problem} {f : Bool} (h : Run k p f) : RInv k p f := (run_both h).1

end Verif.Kitten
