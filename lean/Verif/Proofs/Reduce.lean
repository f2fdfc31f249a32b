import Verif.Model.Reduce
import Verif.Proofs.Containers.Radix

/-!
# Which learned clauses are thrown away
-/

namespace Verif.Proofs.Reduce

open Verif.Spec Verif.Model Verif.Model.Reduce

/-- Sizes of the bit-fields. -/
def Typed (c : Clause) : Prop := c.used < 2 ^ 5 ∧ c.glue < 2 ^ 19 ∧ c.size < 2 ^ 32

theorem shift_mod {g : Nat} (h : g < 2 ^ 19) :
    ((2 ^ 64 - 1 - g) <<< 32) % 2 ^ 64 = 2 ^ 32 * (2 ^ 32 - 1 - g) := by
  rw [Nat.shiftLeft_eq]
  omega

theorem rank_eq {c : Clause} (h : Typed c) :
    c.rank = 2 ^ 32 * (2 ^ 32 - 1 - c.glue) + (2 ^ 32 - 1 - c.size) := by
  unfold Clause.rank
  rw [shift_mod h.2.1, Nat.or_comm]
  have := h.2.2
  rw [Nat.two_pow_add_eq_or_of_lt (by omega)]

theorem rank_lt {c : Clause} (h : Typed c) : c.rank < 2 ^ (8 * 8) := by
  rw [rank_eq h, show 8 * 8 = 64 from rfl]
  omega

/-- Smaller ranks: larger glue, then larger size. -/
theorem rank_le {c d : Clause} (hc : Typed c) (hd : Typed d) :
    c.rank ≤ d.rank ↔ d.glue < c.glue ∨ (d.glue = c.glue ∧ d.size ≤ c.size) := by
  rw [rank_eq hc, rank_eq hd]
  obtain ⟨_, h1, h2⟩ := hc
  obtain ⟨_, h3, h4⟩ := hd
  omega

/-- A clause the loop pushes. -/
def pushed (tier1 tier2 : Nat) (c : Clause) : Prop :=
  c.redundant = true ∧ c.garbage = false ∧ c.reason = false ∧
    ¬ (c.glue ≤ tier1 ∧ c.used ≠ 0) ∧ ¬ (c.glue ≤ tier2 ∧ 30 ≤ c.used)

/-- A clause after the loop. -/
def aged (c : Clause) : Clause :=
  if c.redundant = true ∧ c.garbage = false then { c with used := c.used - 1 } else c

theorem collect_clause (t1 t2 : Nat) (c : Clause) :
    (c.collect t1 t2).1 = aged c ∧ ((c.collect t1 t2).2 = true ↔ pushed t1 t2 c) := by
  obtain ⟨red, gar, rea, used, glue, size⟩ := c
  unfold Clause.collect aged pushed
  cases red
  · simp
  cases gar
  · rw [if_neg (by simp), if_neg (by simp)]
    dsimp only
    by_cases hu : used = 0
    · subst hu
      simp only [ne_eq, not_true_eq_false, if_false]
      cases rea <;> simp
    · simp only [ne_eq, hu, not_false_eq_true, if_true, and_true]
      cases rea
      · simp only [Bool.false_eq_true, if_false]
        by_cases h1 : glue ≤ t1
        · simp [h1]
        · simp only [h1, if_false, not_false_eq_true, true_and]
          by_cases h2 : glue ≤ t2 ∧ 30 ≤ used
          · rw [if_pos ⟨h2.1, h2.2⟩]; simp [h2]
          · rw [if_neg (fun h => h2 ⟨h.1, h.2⟩)]; simpa using h2
      · simp
  · simp

theorem collect_get (t1 t2 : Nat) : ∀ (cs : List Clause) (i k : Nat),
    (collect t1 t2 cs i).1[k]? = cs[k]?.map aged
  | [], _, _ => by simp [collect]
  | c :: cs, i, 0 => by simp [collect, (collect_clause t1 t2 c).1]
  | c :: cs, i, k + 1 => by
    simp only [collect, List.getElem?_cons_succ]
    exact collect_get t1 t2 cs (i + 1) k

theorem aged_rank (c : Clause) : (aged c).rank = c.rank := by
  unfold aged; split <;> rfl

theorem collect_mem (t1 t2 : Nat) : ∀ (cs : List Clause) (i : Nat) (p : Reducible),
    p ∈ (collect t1 t2 cs i).2 ↔ ∃ k c, cs[k]? = some c ∧ pushed t1 t2 c ∧ p = ⟨c.rank, i + k⟩
  | [], _, p => by simp [collect]
  | c :: cs, i, p => by
    have ih := collect_mem t1 t2 cs (i + 1) p
    have hc := collect_clause t1 t2 c
    simp only [collect]
    constructor
    · intro h
      split at h
      · rename_i hx
        rcases List.mem_cons.1 h with rfl | h
        · exact ⟨0, c, rfl, hc.2.1 hx, by rw [hc.1, aged_rank]; rfl⟩
        · obtain ⟨k, d, h1, h2, h3⟩ := ih.1 h
          exact ⟨k + 1, d, h1, h2, by rw [h3, Nat.add_assoc, Nat.add_comm 1]⟩
      · obtain ⟨k, d, h1, h2, h3⟩ := ih.1 h
        exact ⟨k + 1, d, h1, h2, by rw [h3, Nat.add_assoc, Nat.add_comm 1]⟩
    · rintro ⟨k, d, h1, h2, h3⟩
      cases k with
      | zero =>
        rw [List.getElem?_cons_zero] at h1
        cases h1
        rw [if_pos (hc.2.2 h2), h3, hc.1, aged_rank]
        simp
      | succ k =>
        have : p ∈ (collect t1 t2 cs (i + 1)).2 :=
          ih.2 ⟨k, d, h1, h2, by rw [h3, Nat.add_assoc, Nat.add_comm 1]⟩
        split
        · exact List.mem_cons_of_mem _ this
        · exact this

theorem collect_ge {t1 t2 : Nat} {cs : List Clause} {i : Nat} {p : Reducible}
    (h : p ∈ (collect t1 t2 cs i).2) : i ≤ p.ref := by
  obtain ⟨k, c, _, _, rfl⟩ := (collect_mem t1 t2 cs i p).1 h
  exact Nat.le_add_right i k

theorem collect_sorted (t1 t2 : Nat) : ∀ (cs : List Clause) (i : Nat),
    (collect t1 t2 cs i).2.Pairwise fun p q => p.ref < q.ref
  | [], _ => by simp [collect]
  | c :: cs, i => by
    have ih := collect_sorted t1 t2 cs (i + 1)
    simp only [collect]
    split
    · refine List.pairwise_cons.2 ⟨fun q hq => ?_, ih⟩
      have := collect_ge hq
      show i < q.ref
      omega
    · exact ih

instance (t1 t2 : Nat) (c : Clause) : Decidable (pushed t1 t2 c) := by
  unfold pushed; infer_instance

theorem collect_length (t1 t2 : Nat) : ∀ (cs : List Clause) (i : Nat),
    (collect t1 t2 cs i).2.length = cs.countP fun c => pushed t1 t2 c
  | [], _ => by simp [collect]
  | c :: cs, i => by
    have ih := collect_length t1 t2 cs (i + 1)
    have hc := collect_clause t1 t2 c
    simp only [collect]
    by_cases h : pushed t1 t2 c
    · rw [if_pos (hc.2.2 h), List.length_cons, ih, List.countP_cons_of_pos (by simpa using h)]
    · rw [if_neg (fun e => h (hc.2.1 e)), ih, List.countP_cons_of_neg (by simpa using h)]

/-- The clause is thrown away if its number is among the chosen ones. -/
def chosenClause (chosen : List Nat) (k : Nat) (c : Clause) : Clause :=
  if k ∈ chosen then { c with garbage := true } else c

theorem markGarbage_get (cs : List Clause) (r k : Nat) :
    (markGarbage cs r)[k]? = cs[k]?.map (chosenClause [r] k) := by
  unfold markGarbage chosenClause
  rw [List.getElem?_modify]
  by_cases h : r = k
  · subst h; simp
  · have h' : ¬ k = r := fun e => h e.symm
    simp only [h, if_false, List.mem_singleton, h']
    rfl

theorem markLoop_get : ∀ (reds : List Reducible) (cs : List Clause) (t k : Nat),
    (markLoop cs reds t)[k]? = cs[k]?.map (chosenClause ((reds.take t).map (·.ref)) k)
  | [], cs, t, k => by
    unfold markLoop chosenClause
    simp
  | p :: reds, cs, 0, k => by
    unfold markLoop chosenClause
    simp
  | p :: reds, cs, t + 1, k => by
    unfold markLoop
    rw [markLoop_get reds _ t k, markGarbage_get, Option.map_map, List.take_succ_cons, List.map_cons]
    congr 1
    funext c
    unfold chosenClause
    simp only [Function.comp, List.mem_cons, List.not_mem_nil, or_false]
    by_cases h1 : k = p.ref
    · simp only [h1, if_true, true_or]
      split <;> rfl
    · simp only [h1, if_false, false_or]

/-- What a reduction does. -/
structure Reduced (t1 t2 : Nat) (target : Nat → Nat) (cs cs' : List Clause) (chosen : List Nat) : Prop where
  nodup : chosen.Nodup
  length : chosen.length =
    min (target (cs.countP fun c => pushed t1 t2 c)) (cs.countP fun c => pushed t1 t2 c)
  get : ∀ k, cs'[k]? = cs[k]?.map fun c => chosenClause chosen k (aged c)
  pushed : ∀ k ∈ chosen, ∃ c, cs[k]? = some c ∧ pushed t1 t2 c
  worst : ∀ k ∈ chosen, ∀ j, j ∉ chosen → ∀ c d, cs[k]? = some c → cs[j]? = some d →
    Reduce.pushed t1 t2 d → d.glue < c.glue ∨ (d.glue = c.glue ∧ d.size < c.size) ∨
      (d.glue = c.glue ∧ d.size = c.size ∧ k < j)

/-- Elements of equal rank keep their order. -/
theorem stable_before {l l' : List Reducible} (hs : StablySorted Reducible.rank l l')
    (hl : l.Pairwise fun p q => p.ref < q.ref) {n : Nat} {p q : Reducible} (hp : p ∈ l'.take n)
    (hq : q ∈ l'.drop n) (he : p.rank = q.rank) : p.ref < q.ref := by
  have h1 := hs.stable q.rank
  have h2 : (l'.filter fun x => x.rank == q.rank).Pairwise fun p q => p.ref < q.ref := by
    rw [h1]; exact hl.filter _
  rw [← List.take_append_drop n l', List.filter_append, List.pairwise_append] at h2
  exact h2.2.2 p (List.mem_filter.2 ⟨hp, by simpa using he⟩) q (List.mem_filter.2 ⟨hq, by simp⟩)

theorem reduce_spec (t1 t2 : Nat) (target : Nat → Nat) {tmp : Nat → List Reducible} (junk : Nat → Nat)
    {cs : List Clause} (ht : ∀ c ∈ cs, Typed c) (htmp : ∀ n, (tmp n).length = n) :
    ∃ cs' chosen, reduce t1 t2 target tmp junk cs = some cs' ∧
      Reduced t1 (max t1 t2) target cs cs' chosen := by
  unfold reduce
  dsimp only
  have hmem := collect_mem t1 (max t1 t2) cs 0
  have hlen := collect_length t1 (max t1 t2) cs 0
  have hget := collect_get t1 (max t1 t2) cs 0
  have hsorted := collect_sorted t1 (max t1 t2) cs 0
  generalize collect t1 (max t1 t2) cs 0 = r at hmem hlen hget hsorted
  obtain ⟨cs1, reds⟩ := r
  dsimp only at hmem hlen hget hsorted ⊢
  by_cases he : reds.isEmpty = true
  · rw [if_pos he]
    have he' : reds = [] := List.isEmpty_iff.1 he
    subst he'
    refine ⟨cs1, [], rfl, List.nodup_nil, ?_, fun k => ?_, by simp, by simp⟩
    · rw [← hlen]; simp
    · rw [hget]; congr 1
  · rw [if_neg he]
    obtain ⟨l', h1, h2⟩ := Verif.Proofs.Radix.radixSort_spec (rank := Reducible.rank) (bytes := 8)
      (tmp := tmp reds.length) (junk := junk) (l := reds) (fun p hp => by
        obtain ⟨k, c, e1, _, rfl⟩ := (hmem p).1 hp
        exact rank_lt (ht c (List.mem_of_getElem? e1))) (htmp _)
    rw [h1]
    refine ⟨_, (l'.take (target reds.length)).map (·.ref), rfl, ?_, ?_, ?_, ?_, ?_⟩
    · have hn : (reds.map (·.ref)).Nodup := by
        unfold List.Nodup
        rw [List.pairwise_map]
        exact hsorted.imp fun h => Nat.ne_of_lt h
      have hn' : (l'.map (·.ref)).Nodup := (h2.perm.map (·.ref)).nodup_iff.2 hn
      exact ((List.take_sublist _ _).map _).nodup hn'
    · rw [List.length_map, List.length_take, h2.perm.length_eq, hlen]
    · intro k
      rw [markLoop_get, hget, Option.map_map]
      rfl
    · intro k hk
      obtain ⟨p, hp, rfl⟩ := List.mem_map.1 hk
      obtain ⟨k, c, e1, e2, rfl⟩ := (hmem p).1 (h2.perm.mem_iff.1 (List.mem_of_mem_take hp))
      exact ⟨c, by simpa using e1, e2⟩
    · intro k hk j hj c d hc hd hpd
      obtain ⟨p, hp, rfl⟩ := List.mem_map.1 hk
      have hq : (⟨d.rank, 0 + j⟩ : Reducible) ∈ reds := (hmem _).2 ⟨j, d, hd, hpd, rfl⟩
      have hq' := h2.perm.mem_iff.2 hq
      rw [← List.take_append_drop (target reds.length) l', List.mem_append] at hq'
      rcases hq' with hq' | hq'
      · exact absurd (List.mem_map.2 ⟨_, hq', by simp⟩) hj
      have ho := h2.ordered
      rw [← List.take_append_drop (target reds.length) l', List.pairwise_append] at ho
      have hle := ho.2.2 p hp _ hq'
      have hst := stable_before h2 hsorted hp hq'
      obtain ⟨k, c', e1, e2, rfl⟩ := (hmem p).1 (h2.perm.mem_iff.1 (List.mem_of_mem_take hp))
      simp only [Nat.zero_add] at hc hle hst ⊢
      rw [e1] at hc
      cases hc
      have tc := ht c (List.mem_of_getElem? e1)
      have td := ht d (List.mem_of_getElem? hd)
      rcases (rank_le tc td).1 hle with h | ⟨h3, h4⟩
      · exact .inl h
      · rcases Nat.lt_or_ge d.size c.size with h5 | h5
        · exact .inr (.inl ⟨h3, h5⟩)
        · have h6 : d.size = c.size := Nat.le_antisymm h4 h5
          refine .inr (.inr ⟨h3, h6, hst ?_⟩)
          rw [rank_eq tc, rank_eq td, h3, h6]

/-! ## Histories -/

/-- Arguments of events fit in their types. -/
def EventTyped : Event → Prop
  | .learn _ size => size < 2 ^ 32
  | .reduce _ _ _ tmp _ => ∀ n, (tmp n).length = n
  | _ => True

theorem aged_typed {c : Clause} (h : Typed c) : Typed (aged c) := by
  unfold aged
  split
  · exact ⟨by have := h.1; show c.used - 1 < _; omega, h.2⟩
  · exact h

theorem chosen_typed {chosen : List Nat} {k : Nat} {c : Clause} (h : Typed c) :
    Typed (chosenClause chosen k c) := by
  unfold chosenClause; split <;> exact h

theorem run_spec {cs : List Clause} (ht : ∀ c ∈ cs, Typed c) {e : Event} (he : EventTyped e) :
    ∃ cs', e.run cs = some cs' ∧ ∀ c ∈ cs', Typed c := by
  cases e with
  | learn glue size =>
    refine ⟨_, rfl, fun c hc => ?_⟩
    rcases List.mem_append.1 hc with hc | hc
    · exact ht c hc
    · rw [List.mem_singleton.1 hc]
      exact ⟨by show 31 < 2 ^ 5; decide, by show min _ _ < _; omega, he⟩
  | use ref glue =>
    refine ⟨_, rfl, fun c hc => ?_⟩
    obtain ⟨i, hi⟩ := List.mem_iff_getElem?.1 hc
    unfold Reduce.use at hi
    rw [List.getElem?_modify] at hi
    cases hx : cs[i]? with
    | none => rw [hx] at hi; cases hi
    | some d =>
      have hd := ht d (List.mem_of_getElem? hx)
      rw [hx] at hi
      split at hi
      · cases hi
        dsimp only
        by_cases hr : d.redundant = true
        · rw [if_pos hr]
          refine ⟨by show 31 < _; decide, ?_, hd.2.2⟩
          show (if _ then _ else _) < _
          have := hd.2.1
          split <;> omega
        · rw [if_neg hr]; exact hd
      · cases hi; exact hd
  | reasons f =>
    refine ⟨_, rfl, fun c hc => ?_⟩
    obtain ⟨i, hi, rfl⟩ := List.mem_mapIdx.1 hc
    have := ht _ (List.getElem_mem hi)
    exact ⟨this.1, this.2.1, this.2.2⟩
  | reduce t1 t2 target tmp junk =>
    obtain ⟨cs', chosen, h1, h2⟩ := reduce_spec t1 t2 target junk ht he
    refine ⟨cs', h1, fun c hc => ?_⟩
    obtain ⟨i, hi⟩ := List.mem_iff_getElem?.1 hc
    rw [h2.get i] at hi
    cases hx : cs[i]? with
    | none => rw [hx] at hi; cases hi
    | some d =>
      rw [hx] at hi
      cases hi
      exact chosen_typed (aged_typed (ht d (List.mem_of_getElem? hx)))

/-- A clause is learned and not thrown away, with a bound on the counter. -/
structure Alive (cs : List Clause) (k u g : Nat) : Prop where
  ex : ∃ c, cs[k]? = some c ∧ c.redundant = true ∧ c.garbage = false ∧ c.glue ≤ g ∧ u ≤ c.used

/-- The reductions among events. -/
def isReduction : Event → Bool
  | .reduce .. => true
  | _ => false

/-- All reductions satisfy a condition on the limits. -/
def Limits (P : Nat → Nat → Prop) (es : List Event) : Prop :=
  ∀ t1 t2 target tmp junk, Event.reduce t1 t2 target tmp junk ∈ es → P t1 (max t1 t2)

/-- An event keeps the clause alive. -/
theorem alive_step {cs cs' : List Clause} {k u g : Nat} (ht : ∀ c ∈ cs, Typed c) {e : Event}
    (he : EventTyped e) (hu : u ≤ 31) (h : Alive cs k u g) (hr : e.run cs = some cs')
    (hk : ∀ t1 t2 target tmp junk, e = .reduce t1 t2 target tmp junk →
      (g ≤ t1 ∧ 1 ≤ u) ∨ (g ≤ max t1 t2 ∧ 30 ≤ u)) :
    Alive cs' k (u - (if isReduction e then 1 else 0)) g := by
  obtain ⟨c, h1, h2, h3, h4, h5⟩ := h.ex
  cases e with
  | learn glue size =>
    cases hr
    refine ⟨c, ?_, h2, h3, h4, by simpa [isReduction] using h5⟩
    unfold Reduce.learn
    rw [List.getElem?_append_left (List.getElem?_eq_some_iff.1 h1).1]
    exact h1
  | use ref glue =>
    cases hr
    refine ⟨_, by unfold Reduce.use; rw [List.getElem?_modify, h1]; rfl, ?_⟩
    dsimp only
    by_cases hx : ref = k
    · rw [if_pos hx]
      rw [if_pos h2]
      refine ⟨h2, h3, ?_, Nat.le_trans (Nat.sub_le _ _) hu⟩
      show (if _ then _ else _) ≤ _
      split <;> omega
    · rw [if_neg hx]
      exact ⟨h2, h3, h4, Nat.le_trans (Nat.sub_le _ _) h5⟩
  | reasons f =>
    cases hr
    refine ⟨{ c with reason := f k }, by rw [List.getElem?_mapIdx, h1]; rfl, h2, h3, h4,
      by simpa [isReduction] using h5⟩
  | reduce t1 t2 target tmp junk =>
    obtain ⟨cs'', chosen, e1, e2⟩ := reduce_spec t1 t2 target junk ht he
    have hr' : reduce t1 t2 target tmp junk cs = some cs' := hr
    rw [e1] at hr'
    cases hr'
    have hn : k ∉ chosen := by
      intro hm
      obtain ⟨d, d1, d2⟩ := e2.pushed k hm
      rw [h1] at d1
      cases d1
      rcases hk _ _ _ _ _ rfl with ⟨x1, x2⟩ | ⟨x1, x2⟩
      · exact d2.2.2.2.1 ⟨by omega, by omega⟩
      · exact d2.2.2.2.2 ⟨by omega, by omega⟩
    refine ⟨aged c, ?_, ?_⟩
    · rw [e2.get k, h1]
      unfold chosenClause
      rw [Option.map_some, if_neg hn]
    · unfold aged
      rw [if_pos ⟨h2, h3⟩]
      refine ⟨h2, h3, h4, ?_⟩
      simp only [isReduction]
      show u - 1 ≤ c.used - 1
      omega

/-- Events keep the clause alive. -/
theorem alive_run {k g m : Nat} {P : Nat → Nat → Prop}
    (hP : ∀ t1 t2 u, P t1 t2 → m + 1 ≤ u → (g ≤ t1 ∧ 1 ≤ u) ∨ (g ≤ t2 ∧ 30 ≤ u)) :
    ∀ (es : List Event) {cs cs' : List Clause} {u : Nat}, (∀ c ∈ cs, Typed c) →
      (∀ e ∈ es, EventTyped e) → u ≤ 31 → m + es.countP isReduction ≤ u → Alive cs k u g → Limits P es →
      runAll es cs = some cs' → ∃ c, cs'[k]? = some c ∧ c.redundant = true ∧ c.garbage = false
  | [], cs, cs', u, _, _, _, _, h, _, hr => by
    cases hr
    obtain ⟨c, h1, h2, h3, _⟩ := h.ex
    exact ⟨c, h1, h2, h3⟩
  | e :: es, cs, cs', u, ht, he, hu, hc, h, hl, hr => by
    obtain ⟨cs1, r1, ht1⟩ := run_spec ht (he e (by simp))
    unfold runAll at hr
    rw [r1] at hr
    rw [List.countP_cons] at hc
    have := alive_step ht (he e (by simp)) hu h r1 (fun t1 t2 target tmp junk e1 => by
      subst e1
      refine hP _ _ _ (hl t1 t2 target tmp junk (by simp)) ?_
      simp only [isReduction, if_true] at hc
      omega)
    refine alive_run hP es ht1 (fun e h => he e (by simp [h])) (Nat.le_trans (Nat.sub_le _ _) hu) ?_ this
      (fun t1 t2 target tmp junk h => hl t1 t2 target tmp junk (by simp [h])) hr
    split at hc <;> rename_i hx
    · rw [if_pos hx]; omega
    · rw [if_neg hx]; omega

end Verif.Proofs.Reduce
