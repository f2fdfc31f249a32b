import Verif.Proofs.Check.Remove
import Verif.Proofs.External

/-! The operations of the proof checker. -/

namespace Verif.Check

open Verif.Spec

/-- Number of lines with the given literals. -/
def Checker.liveCount (c : Checker) (D : List Nat) : Nat :=
  (List.range c.lines.length).countP fun i =>
    decide (i ∈ c.table (reduceHash (c.line i).hash c.hashed)) && sameLits D (c.line i).lits

abbrev none' : Nat → Prop := fun _ => False

/-- Invariant between operations: `S` are all clauses added so far and `db` those which
have not been removed. -/
structure Inv (nonces : Nat → Nat) (nd : Prop) (S db : List (List Nat)) (c : Checker) : Prop where
  wf : Wf c
  idx : Idx nonces nd c
  up : Up (ofList S) none' c
  inc : c.inconsistent = true → UPConflict (ofList S) none'
  count : nd → c.inconsistent = false → ∀ D, D.Nodup → 2 ≤ D.length → (∀ x ∈ D, neg x ∉ D) →
    (∀ x ∈ D, x ∉ c.trail) → db.countP (sameLits D) = c.liveCount D
  small : c.inconsistent = false → ∀ D ∈ db, D.length ≤ 1 → ∃ u, D = [u] ∧ u ∈ c.trail

/-- The assignment satisfies everything the checker holds. -/
structure Model (σ : Assignment) (c : Checker) : Prop where
  inc : c.inconsistent = false
  lines : ∀ i, c.Live i → SatClause σ (c.line i).lits
  trail : ∀ x ∈ c.trail, litTrue σ x

theorem sameLits_congr {D a b : List Nat} (h : SameLits a b) : sameLits D a = sameLits D b := by
  rw [Bool.eq_iff_iff, sameLits_iff, sameLits_iff]
  exact ⟨fun g => g.trans h, fun g => g.trans h.symm⟩

theorem Frame.liveCount {c c' : Checker} (f : Frame c c') (D : List Nat) :
    c'.liveCount D = c.liveCount D := by
  unfold Checker.liveCount
  rw [f.length]
  refine congrArg (fun p => List.countP p _) (funext fun i => ?_)
  rw [f.table, f.hash, f.hashed, sameLits_congr fun _ => (f.perm i).mem_iff]

theorem liveCount_pos {c : Checker} {D : List Nat} (h : 0 < c.liveCount D) :
    ∃ i, c.Live i ∧ SameLits D (c.line i).lits := by
  obtain ⟨i, _, hi⟩ := List.countP_pos_iff.1 h
  simp only [Bool.and_eq_true, decide_eq_true_eq] at hi
  exact ⟨i, hi.1, sameLits_iff.1 hi.2⟩

theorem Up.mono {S T : List (List Nat)} {A B : Nat → Prop} {c : Checker} (h : Up (ofList S) A c)
    (hs : ∀ d ∈ S, d ∈ T) (hA : ∀ l, A l → UP (ofList T) B l) : Up (ofList T) B c :=
  ⟨fun i hi => by
    obtain ⟨d, hd, e⟩ := h.lines i hi
    exact ⟨d, hs d hd, e⟩,
  fun x hx => (h.trail x hx).mono (fun d hd => ⟨d, hs d hd, .refl d⟩) hA⟩

/-- Steps which only propagate keep the invariant. -/
theorem Inv.step {nonces : Nat → Nat} {nd : Prop} {S db : List (List Nat)} {c c' : Checker}
    (h : Inv nonces nd S db c) (hw : Wf c') (hf : Frame c c') (hu : Up (ofList S) none' c')
    (ht : ∃ e, c'.trail = c.trail ++ e) : Inv nonces nd S db c' := by
  obtain ⟨e, he⟩ := ht
  have hsub : ∀ x ∈ c.trail, x ∈ c'.trail := fun x hx => by
    rw [he]; exact List.mem_append_left _ hx
  refine ⟨hw, h.idx.frame hf, hu, fun hi => h.inc (hf.inconsistent ▸ hi),
    fun n hi D h1 h2 h3 h4 => ?_, fun hi D hD hl => ?_⟩
  · rw [hf.liveCount]
    exact h.count n (hf.inconsistent ▸ hi) D h1 h2 h3 fun x hx hm => h4 x hx (hsub x hm)
  · obtain ⟨u, e, hm⟩ := h.small (hf.inconsistent ▸ hi) D hD hl
    exact ⟨u, e, hsub u hm⟩

theorem Inv.inconsistent {nonces : Nat → Nat} {nd : Prop} {S db : List (List Nat)} {c : Checker}
    (h : Inv nonces nd S db c) (hc : UPConflict (ofList S) none') :
    Inv nonces nd S db { c with inconsistent := true } :=
  ⟨{ h.wf with }, { h.idx with }, ⟨h.up.lines, h.up.trail⟩, fun _ => hc, fun _ e => (by cases e),
    fun e => (by cases e)⟩

/-- The lines and units of the checker as a formula. -/
def Checker.holds (c : Checker) : Formula :=
  fun d => (∃ i, c.Live i ∧ d = (c.line i).lits) ∨ ∃ x ∈ c.trail, d = [x]

theorem up_holds (c : Checker) (A : Nat → Prop) : Up c.holds A c :=
  ⟨fun i hi => ⟨_, .inl ⟨i, hi, rfl⟩, .refl _⟩, fun x hx =>
    .unit (c := [x]) (.inr ⟨x, hx, rfl⟩) (by simp) fun m hm hne => absurd (by simpa using hm) hne⟩

theorem Model.sat {σ : Assignment} {c : Checker} (h : Model σ c) : SatFormula σ c.holds := by
  rintro d (⟨i, hi, rfl⟩ | ⟨x, hx, rfl⟩)
  · exact h.lines i hi
  · exact ⟨x, by simp, h.trail x hx⟩

theorem Model.step {σ : Assignment} {c c' : Checker} {res : Bool} (h : Model σ c)
    (hp : Propagated c c' res) : Model σ c' ∧ res = true := by
  obtain ⟨hu, hc⟩ := hp.up c.holds none' (up_holds c _)
  refine ⟨⟨hp.frame.inconsistent ▸ h.inc, fun i hi => ?_, fun x hx => ?_⟩, ?_⟩
  · exact (satClause_same fun l => (hp.frame.perm i).mem_iff).2 (h.lines i ((hp.frame.live i).1 hi))
  · exact (hu.trail x hx).sound h.sat (fun _ hl => hl.elim)
  · cases res with
    | true => rfl
    | false => exact absurd h.sat ((hc rfl).sound fun _ hl => hl.elim)

theorem Model.frame {σ : Assignment} {c c' : Checker} (h : Model σ c) (hf : Frame c c')
    (ht : c'.trail = c.trail) : Model σ c' :=
  ⟨hf.inconsistent ▸ h.inc, fun i hi =>
    (satClause_same fun l => (hf.perm i).mem_iff).2 (h.lines i ((hf.live i).1 hi)),
    fun x hx => h.trail x (ht ▸ hx)⟩

/-! ### Adding a clause -/

theorem liveCount_insert {c c' : Checker} {lits : List Nat}
    {hash : Nat} (h : Inserted lits hash c c')
    (D : List Nat) :
    c'.liveCount D = c.liveCount D + if sameLits D lits then 1 else 0 := by
  unfold Checker.liveCount
  rw [h.length, List.range_succ, List.countP_append, List.countP_singleton]
  congr 1
  · refine List.countP_congr fun i hi => ?_
    have hi := List.mem_range.1 hi
    have hl := h.live i
    unfold Checker.Live at hl
    rw [Bool.and_eq_true, Bool.and_eq_true, decide_eq_true_eq, decide_eq_true_eq, hl, h.line,
      if_neg (by omega)]
    simp [show i ≠ c.lines.length by omega]
  · have hl := (h.live c.lines.length).2 (.inr rfl)
    unfold Checker.Live at hl
    rw [decide_eq_true hl, h.line, if_pos rfl, Bool.true_and]

theorem simplify_insert {nonces : Nat → Nat} {nd : Prop} {S db : List (List Nat)} {c : Checker}
    (h : Inv nonces nd S db c) {C : List Nat} (hb : ∀ l ∈ C, l / 2 < c.vars)
    (hnd : nd → C.Nodup) :
    ∃ c', c.insertIfNotSimplified nonces C = .ok c' ∧ Inv nonces nd (C :: S) (C :: db) c' ∧
      c'.vars = c.vars ∧ ∀ σ, Model σ c → SatClause σ C → Model σ c' := by
  obtain ⟨s, hs, hp, ho⟩ := sortLine_ok C
  unfold Checker.insertIfNotSimplified
  rw [hs]
  simp only
  have hmono : Up (ofList (C :: S)) none' c :=
    h.up.mono (fun d hd => List.mem_cons_of_mem _ hd) fun _ hl => hl.elim
  have hcmono : c.inconsistent = true → UPConflict (ofList (C :: S)) none' := fun e =>
    (h.inc e).mono (fun d hd => ⟨d, List.mem_cons_of_mem _ hd, .refl d⟩) fun _ hl => hl.elim
  have hCmem : ofList (C :: S) C := List.mem_cons_self ..
  have hcnt : ∀ D, (C :: db).countP (sameLits D) =
      db.countP (sameLits D) + if sameLits D C then 1 else 0 := fun D => List.countP_cons ..
  unfold Checker.simplify
  by_cases hi : c.inconsistent = true
  · rw [if_pos hi]
    exact ⟨c, rfl, ⟨h.wf, h.idx, hmono, hcmono, fun _ e => (by rw [hi] at e; cases e),
      fun e => (by rw [hi] at e; cases e)⟩, rfl, fun _ hm _ => hm⟩
  · rw [if_neg hi]
    rw [Bool.not_eq_true] at hi
    have hspec := simplifyLoop_spec c.values s
    have hmC : ∀ l, l ∈ s ↔ l ∈ C := fun l => hp.mem_iff
    cases hl : simplifyLoop c.values s.length 0 s [] 0 with
    | none =>
      rw [hl] at hspec
      obtain ⟨l, hls, hx⟩ := hspec
      have hlC := (hmC l).1 hls
      have htriv : l ∈ c.trail ∨ neg l ∈ C := hx.imp (fun hx => by
        rw [h.wf.trail]; rcases h.wf.dom l with h' | h' | h' <;> omega) (hmC _).1
      refine ⟨c, rfl, ⟨h.wf, h.idx, hmono, hcmono, fun n e D h1 h2 h3 h4 => ?_,
        fun e D hD hlen => ?_⟩, rfl, fun _ hm _ => hm⟩
      · rw [hcnt, if_neg]
        · exact h.count n e D h1 h2 h3 h4
        · intro hsame
          have hsame := sameLits_iff.1 hsame
          rcases htriv with ht | ht
          · exact h4 l ((hsame l).2 hlC) ht
          · exact h3 l ((hsame l).2 hlC) ((hsame _).2 ht)
      · rcases List.mem_cons.1 hD with rfl | hD
        · match D, hlen, hlC, htriv with
          | [u], _, hlC, htriv =>
            rw [List.mem_singleton] at hlC
            subst hlC
            refine ⟨l, rfl, htriv.resolve_right fun e => neg_ne l (by simpa using e)⟩
        · exact h.small e D hD hlen
    | some r =>
      rw [hl] at hspec
      obtain ⟨lits, k⟩ := r
      obtain ⟨hperm, marks, hinv⟩ := hspec
      have hmem : ∀ l, l ∈ lits ↔ l ∈ C := fun l => hperm.mem_iff.trans (hmC l)
      have hall := hinv.all
      have hfalse : ∀ x, c.values x < 0 → neg x ∈ c.trail := fun x hx => by
        rw [← h.wf.value_neg]; rcases h.wf.dom x with h' | h' | h' <;> omega
      simp only
      by_cases e0 : k = 0
      · rw [if_pos e0]
        have hconf : UPConflict (ofList (C :: S)) none' :=
          ⟨C, hCmem, fun m hm => hmono.trail _ (hfalse m
            (hinv.zero e0 m ((hall m).2 ((hmem m).2 hm))))⟩
        refine ⟨_, rfl, ⟨{ h.wf with }, { h.idx with }, ⟨hmono.lines, hmono.trail⟩, fun _ => hconf,
          fun _ e => (by cases e), fun e => (by cases e)⟩, rfl, fun σ hm hsat => ?_⟩
        obtain ⟨l, hlC, hlt⟩ := hsat
        have := hm.trail _ (hfalse l (hinv.zero e0 l ((hall l).2 ((hmem l).2 hlC))))
        exact absurd hlt ((litTrue_neg σ l).1 this)
      · rw [if_neg e0]
        have hv0 := hinv.first (by omega)
        have hlen := hinv.ki
        have h0m : lits.getD 0 0 ∈ lits := List.mem_of_getElem? (of_getD (by omega))
        have h0C := (hmem _).1 h0m
        by_cases e1 : k = 1
        · rw [if_pos e1]
          have hone := hinv.one e1
          generalize lits.getD 0 0 = u at *
          have hup : UP (ofList (C :: S)) none' u :=
            .unit hCmem h0C fun m hm hne => hmono.trail _ (hfalse m
              ((hone m ((hall m).2 ((hmem m).2 hm))).resolve_left hne))
          have hsub : ∀ x ∈ c.trail, x ∈ (c.assign u).trail := fun x hx =>
            List.mem_append_left _ hx
          have hu : u ∈ (c.assign u).trail := List.mem_append_right _ (by simp)
          refine ⟨_, rfl, ⟨h.wf.assign hv0 (hb u h0C), h.idx.frame (frame_assign c u),
            ⟨hmono.lines, fun x hx => ?_⟩, hcmono, fun n e D h1 h2 h3 h4 => ?_,
            fun e D hD hlen => ?_⟩, rfl, fun σ hm hsat => ⟨hm.inc, hm.lines, fun x hx => ?_⟩⟩
          · rcases List.mem_append.1 hx with hx | hx
            · exact hmono.trail x hx
            · rw [List.mem_singleton.1 hx]; exact hup
          · rw [hcnt, if_neg]
            · exact h.count n e D h1 h2 h3 fun x hx hm => h4 x hx (hsub x hm)
            · intro hsame
              exact h4 u (((sameLits_iff.1 hsame) u).2 h0C) hu
          · rcases List.mem_cons.1 hD with rfl | hD
            · match D, hlen, h0C with
              | [v], _, h0C =>
                rw [List.mem_singleton] at h0C
                subst h0C
                exact ⟨u, rfl, hu⟩
            · obtain ⟨v, e, hv⟩ := h.small e D hD hlen
              exact ⟨v, e, hsub v hv⟩
          · rcases List.mem_append.1 hx with hx | hx
            · exact hm.trail x hx
            · rw [List.mem_singleton.1 hx]
              obtain ⟨l, hlC, hlt⟩ := hsat
              rcases hone l ((hall l).2 ((hmem l).2 hlC)) with e | e
              · exact e ▸ hlt
              · exact absurd hlt ((litTrue_neg σ l).1 (hm.trail _ (hfalse l e)))
        · rw [if_neg e1]
          obtain ⟨hv1, hne⟩ := hinv.second (by omega)
          obtain ⟨w, x, ins⟩ := insert_ok (nd := nd) h.wf h.idx (lits := lits)
            (hash := hashLine nonces s) (by omega) hne (fun l hl => hb l ((hmem l).1 hl))
            (fun t ht hto => by
              rw [sorted_unique (ht.trans hperm) hto ho])
            (fun e => (hperm.trans hp).nodup_iff.2 (hnd e))
          refine ⟨_, rfl, ⟨w, x, ⟨fun i hli => ?_, fun y hy => hmono.trail y (ins.trail ▸ hy)⟩,
            fun e => hcmono (ins.inconsistent ▸ e), fun n e D h1 h2 h3 h4 => ?_,
            fun e D hD hlen' => ?_⟩, ins.vars, fun σ hm hsat => ⟨ins.inconsistent ▸ hm.inc,
              fun i hli => ?_, fun y hy => hm.trail y (ins.trail ▸ hy)⟩⟩
          · rw [ins.line]
            rcases (ins.live i).1 hli with hli | hli
            · rw [if_neg]
              · exact hmono.lines i hli
              · intro e; exact absurd (h.idx.lt hli) (by omega)
            · rw [if_pos hli]
              exact ⟨C, hCmem, fun l => (hmem l).symm⟩
          · rw [hcnt, liveCount_insert ins, sameLits_congr (fun l => hmem l)]
            have := h.count n (ins.inconsistent ▸ e) D h1 h2 h3 (by rw [← ins.trail]; exact h4)
            omega
          · rcases List.mem_cons.1 hD with rfl | hD
            · have := (hperm.trans hp).length_eq
              omega
            · rw [ins.trail]; exact h.small (ins.inconsistent ▸ e) D hD hlen'
          · rw [ins.line]
            rcases (ins.live i).1 hli with hli | hli
            · rw [if_neg]
              · exact hm.lines i hli
              · intro e; exact absurd (h.idx.lt hli) (by omega)
            · rw [if_pos hli]
              exact hsat.mono fun l hl => (hmem l).2 hl

/-! ### Removing a clause -/

theorem count_delete_other {C D : List Nat} (h : ¬ SameLits D C) (db : List (List Nat)) :
    (deleteClause db C).countP (sameLits D) = db.countP (sameLits D) := by
  have h1 := count_delete C D db
  have h2 : (deleteClause db C).countP (sameLits D) ≤ db.countP (sameLits D) :=
    (List.eraseP_sublist).countP_le
  rw [if_neg (fun e => h (sameLits_iff.1 e))] at h1
  omega

theorem count_delete_same {C D : List Nat} (h : SameLits D C) : ∀ (db : List (List Nat)),
    (deleteClause db C).countP (sameLits D) = db.countP (sameLits D) - 1
  | [] => by simp [deleteClause]
  | d :: db => by
    have ih := count_delete_same h db
    unfold deleteClause at ih ⊢
    rw [List.eraseP_cons, List.countP_cons]
    by_cases hd : sameLits C d = true
    · rw [hd, cond_true, if_pos (sameLits_iff.2 (h.trans (sameLits_iff.1 hd)))]
      omega
    · have hd' : ¬ sameLits D d = true := fun e =>
        hd (sameLits_iff.2 (h.symm.trans (sameLits_iff.1 e)))
      rw [Bool.not_eq_true] at hd
      rw [hd, cond_false, List.countP_cons, if_neg hd', ih]
      omega

theorem liveCount_drop {nonces : Nat → Nat} {nd : Prop} {c : Checker} {i : Nat}
    (hx : Idx nonces nd c) (hi : c.Live i)
    (hlive : ∀ j, (c.drop i).Live j ↔ c.Live j ∧ j ≠ i) (D : List Nat) :
    c.liveCount D = (c.drop i).liveCount D + if sameLits D (c.line i).lits then 1 else 0 := by
  unfold Checker.liveCount
  rw [show (c.drop i).lines.length = c.lines.length from rfl]
  have hlt := hx.lt hi
  have key : ∀ (L : List Nat), L.Nodup →
      (L.countP fun j => decide (j ∈ c.table (reduceHash (c.line j).hash c.hashed)) &&
        sameLits D (c.line j).lits) =
      (L.countP fun j => decide (j ∈ (c.drop i).table (reduceHash ((c.drop i).line j).hash
        (c.drop i).hashed)) && sameLits D ((c.drop i).line j).lits) +
        if i ∈ L ∧ sameLits D (c.line i).lits = true then 1 else 0 := by
    intro L
    induction L with
    | nil => intro _; simp
    | cons j L ih =>
      intro hL
      obtain ⟨hj, hL⟩ := List.nodup_cons.1 hL
      have ih := ih hL
      rw [List.countP_cons, List.countP_cons]
      have hl := hlive j
      unfold Checker.Live at hl
      by_cases e : j = i
      · subst e
        rw [if_neg (fun h => hj h.1)] at ih
        have hj1 : j ∈ c.table (reduceHash (c.line j).hash c.hashed) := hi
        have hj2 : ¬ j ∈ (c.drop j).table (reduceHash ((c.drop j).line j).hash (c.drop j).hashed) :=
          fun h => (hl.1 h).2 rfl
        by_cases e2 : sameLits D (c.line j).lits = true
        · rw [if_pos (c := j ∈ j :: L ∧ _) ⟨List.mem_cons_self .., e2⟩, if_pos (by simp [hj1, e2]),
            if_neg (by simp [hj2])]
          omega
        · rw [if_neg (c := j ∈ j :: L ∧ _) (by simp [e2]), if_neg (by simp [e2]),
            if_neg (by simp [hj2])]
          omega
      · have h1 : (decide (j ∈ c.table (reduceHash (c.line j).hash c.hashed)) &&
            sameLits D (c.line j).lits) =
            (decide (j ∈ (c.drop i).table (reduceHash ((c.drop i).line j).hash (c.drop i).hashed)) &&
              sameLits D ((c.drop i).line j).lits) := by
          rw [show (c.drop i).line j = c.line j from rfl] at hl ⊢
          congr 1
          rw [decide_eq_decide, hl]
          simp [e]
        rw [h1]
        have h2 : (i ∈ j :: L ∧ sameLits D (c.line i).lits = true) ↔
            (i ∈ L ∧ sameLits D (c.line i).lits = true) := by
          simp [Ne.symm e]
        simp only [h2]
        omega
  have := key (List.range c.lines.length) List.nodup_range
  simpa [hlt] using this

/-- The effect of removing a clause. -/
inductive Removed (nd : Prop) (db : List (List Nat)) (C : List Nat) (c c' : Checker) : Prop
  | inconsistent : c'.inconsistent = true → Removed nd db C c c'
  | satisfied {u : Nat} : u ∈ C → u ∈ c'.trail → (∀ j, c'.Live j ↔ c.Live j) → Removed nd db C c c'
  | trivial {u : Nat} : u ∈ C → neg u ∈ C → (∀ j, c'.Live j ↔ c.Live j) → Removed nd db C c c'
  | found {i : Nat} : (nd → ∃ d ∈ db, SameLits C d) → c.Live i → (c.line i).lits.length = C.length →
      (∀ l ∈ (c.line i).lits, l ∈ C) → (∀ j, c'.Live j ↔ c.Live j ∧ j ≠ i) → Removed nd db C c c'

theorem remove_ok {nonces : Nat → Nat} {nd : Prop} {S db : List (List Nat)} {c : Checker}
    (h : Inv nonces nd S db c) (C : List Nat) (hnd : nd → C.Nodup) :
    (c.removeIfNotRedundant nonces C = .abort ∧ (nd → ¬ ∃ d ∈ db, SameLits C d ∧ d.Nodup)) ∨
    ∃ c', c.removeIfNotRedundant nonces C = .ok c' ∧ Inv nonces nd S (deleteClause db C) c' ∧
      c'.vars = c.vars ∧ (∀ σ, Model σ c → Model σ c') ∧ Removed nd db C c c' ∧
      (∀ j, (c'.line j).lits.Perm (c.line j).lits) := by
  unfold Checker.removeIfNotRedundant Checker.redundant
  obtain ⟨c1, res, he, w1, p1⟩ := propagate_ok h.wf
  obtain ⟨u1, k1⟩ := p1.up _ _ h.up
  have i1 := h.step w1 p1.frame u1 p1.extends'
  have hdel : (nd → c1.inconsistent = true ∨ C.length < 2 ∨ (∃ u ∈ C, u ∈ c1.trail) ∨
      ∃ u ∈ C, neg u ∈ C) → Inv nonces nd S (deleteClause db C) c1 := fun hor => { i1 with
    count := fun n e D h1 h2 h3 h4 => by
      rw [count_delete_other]
      · exact i1.count n e D h1 h2 h3 h4
      · intro hs
        rcases hor n with hc | hc | ⟨u, hu, ht⟩ | ⟨u, hu, ht⟩
        · rw [hc] at e; cases e
        · have := (perm_of_same h1 (hnd n) hs).length_eq
          omega
        · exact h4 u ((hs u).2 hu) ht
        · exact h3 u ((hs u).2 hu) ((hs _).2 ht)
    small := fun e D hD => i1.small e D (mem_deleteClause hD) }
  rw [he]
  cases res with
  | false =>
    right
    refine ⟨_, rfl, ⟨{ i1.wf with }, { i1.idx with }, ⟨u1.lines, u1.trail⟩, fun _ => k1 rfl,
      fun _ e => (by cases e), fun e => (by cases e)⟩, p1.frame.vars,
      fun σ hm => absurd (hm.step p1).2 (by simp), .inconsistent rfl, p1.frame.perm⟩
  | true =>
    simp only
    have hmod : ∀ σ, Model σ c → Model σ c1 := fun σ hm => (hm.step p1).1
    by_cases hi : c1.inconsistent = true
    · rw [if_pos hi]
      right
      exact ⟨c1, rfl, hdel fun _ => .inl hi, p1.frame.vars, hmod, .inconsistent hi, p1.frame.perm⟩
    · rw [if_neg hi]
      rw [Bool.not_eq_true] at hi
      match C, hnd, hdel with
      | [], hnd, hdel =>
        left
        refine ⟨rfl, fun _ ⟨d, hd, hs, _⟩ => ?_⟩
        have : d = [] := sameLits_nil hs
        subst this
        obtain ⟨u, e, _⟩ := i1.small hi [] hd (by simp)
        cases e
      | [u], hnd, hdel =>
        simp only
        by_cases hv : c1.values u ≤ 0
        · rw [if_pos hv]
          left
          refine ⟨rfl, fun _ ⟨d, hd, hs, hdn⟩ => ?_⟩
          have hperm := perm_of_same (by simp) hdn hs
          obtain ⟨v, e, hm⟩ := i1.small hi d hd (by rw [← hperm.length_eq]; simp)
          subst e
          have : u = v := by simpa using (hs u).1 (by simp)
          subst this
          have := (w1.trail u).1 hm
          omega
        · rw [if_neg hv]
          right
          refine ⟨c1, rfl, hdel fun _ => .inr (.inl (by simp)), p1.frame.vars, hmod, .satisfied (u := u) (by simp) ?_
            (fun j => p1.frame.live j), p1.frame.perm⟩
          rw [w1.trail]; rcases w1.dom u with h' | h' | h' <;> omega
      | a :: b :: C', hnd, hdel =>
        generalize hC : a :: b :: C' = C at hdel hnd
        have hlen : 2 ≤ C.length := by rw [← hC]; simp
        subst hC
        simp only
        generalize a :: b :: C' = C at *
        by_cases hst : satisfiedOrTrivial c1.values C [] = true
        · rw [if_pos hst]
          right
          obtain ⟨l, hl, hx⟩ := satisfiedOrTrivial_spec hst
          rcases hx with hx | hx | hx
          · have ht : l ∈ c1.trail := by
              rw [w1.trail]; rcases w1.dom l with h' | h' | h' <;> omega
            exact ⟨c1, rfl, hdel fun _ => .inr (.inr (.inl ⟨l, hl, ht⟩)), p1.frame.vars, hmod,
              .satisfied (u := l) hl ht (fun j => p1.frame.live j), p1.frame.perm⟩
          · exact ⟨c1, rfl, hdel fun _ => .inr (.inr (.inr ⟨l, hl, hx⟩)), p1.frame.vars, hmod,
              .trivial hl hx (fun j => p1.frame.live j), p1.frame.perm⟩
          · cases hx
        · rw [if_neg hst]
          rw [Bool.not_eq_true] at hst
          obtain ⟨hv, ht⟩ := satisfiedOrTrivial_false hst (by simp) (by simp)
          have hnt : ∀ x ∈ C, x ∉ c1.trail := fun x hx hm => by
            have := (w1.trail x).1 hm
            have := hv x hx
            omega
          have htaut : ∀ x ∈ C, neg x ∉ C := fun x hx => (ht x (.inl hx)).1
          simp only
          rcases findLine_ok i1.idx C with ⟨hf, hno⟩ | ⟨i, hf, hl, hlen', hsub⟩
          · left
            refine ⟨by unfold Checker.removeLine; rw [hf], fun n ⟨d, hd, hs, _⟩ => ?_⟩
            have hcount := i1.count n hi C (hnd n) hlen htaut hnt
            have hpos : 0 < db.countP (sameLits C) :=
              List.countP_pos_iff.2 ⟨d, hd, sameLits_iff.2 hs⟩
            obtain ⟨i, hl, hsl⟩ := liveCount_pos (hcount ▸ hpos)
            exact hno i hl (perm_of_same (i1.idx.lnodup n i hl) (hnd n) hsl.symm)
          · right
            obtain ⟨w, x, hlive⟩ := drop_ok i1.wf i1.idx hl
            refine ⟨c1.drop i, removeLine_eq hf, ⟨w, x, ⟨fun j hj => i1.up.lines j ((hlive j).1 hj).1,
              i1.up.trail⟩, i1.inc, fun n e D h1 h2 h3 h4 => ?_,
              fun e D hD => i1.small e D (mem_deleteClause hD)⟩, p1.frame.vars,
              fun σ hm => ⟨(hmod σ hm).inc, fun j hj => (hmod σ hm).lines j ((hlive j).1 hj).1,
                (hmod σ hm).trail⟩, .found (fun n => ?_) ((p1.frame.live i).1 hl) ?_ ?_ (fun j => ?_), p1.frame.perm⟩
            · have hc := i1.count n e D h1 h2 h3 h4
              have hd := liveCount_drop i1.idx hl hlive D
              have hsame : SameLits (c1.line i).lits C :=
                same_of_subset (i1.idx.lnodup n i hl) hsub hlen'
              rw [sameLits_congr hsame] at hd
              by_cases e : sameLits D C = true
              · rw [if_pos e] at hd
                have := count_delete_same (sameLits_iff.1 e) db
                omega
              · rw [if_neg e] at hd
                rw [count_delete_other (fun h => e (sameLits_iff.2 h))]
                omega
            · have hc := i1.count n hi C (hnd n) hlen htaut hnt
              have hsame : SameLits C (c1.line i).lits :=
                (same_of_subset (i1.idx.lnodup n i hl) hsub hlen').symm
              have hpos : 0 < c1.liveCount C := by
                unfold Checker.liveCount
                refine List.countP_pos_iff.2 ⟨i, List.mem_range.2 (i1.idx.lt hl), ?_⟩
                rw [Bool.and_eq_true, decide_eq_true_eq]
                exact ⟨hl, sameLits_iff.2 hsame⟩
              rw [← hc] at hpos
              obtain ⟨d, hd, hs⟩ := List.countP_pos_iff.1 hpos
              exact ⟨d, hd, sameLits_iff.1 hs⟩
            · rw [← (p1.frame.perm i).length_eq]; exact hlen'
            · exact fun l hl => hsub l ((p1.frame.perm i).mem_iff.2 hl)
            · rw [hlive, p1.frame.live]

end Verif.Check
