import Verif.Proofs.Drat
import Verif.Spec.External

/-! Facts about accepted proofs: adding original clauses, renaming, counting. -/

namespace Verif.Spec

theorem sameLits_nil {d : List Nat} (h : SameLits [] d) : d = [] := by
  cases d with
  | nil => rfl
  | cons a l => exact absurd ((h a).2 (by simp)) (by simp)

theorem mem_of_count {db0 db : List (List Nat)} {n : List Nat → Nat}
    (hc : ∀ X, db0.countP (sameLits X) + n X ≤ db.countP (sameLits X)) {X : List Nat}
    (h : ∃ d ∈ db0, SameLits X d) : ∃ d ∈ db, SameLits X d := by
  obtain ⟨d, hd, hs⟩ := h
  have h1 : 0 < db0.countP (sameLits X) := List.countP_pos_iff.2 ⟨d, hd, sameLits_iff.2 hs⟩
  have h2 : 0 < db.countP (sameLits X) := by have := hc X; omega
  obtain ⟨d', hd', hs'⟩ := List.countP_pos_iff.1 h2
  exact ⟨d', hd', sameLits_iff.1 hs'⟩

theorem nil_of_count {db0 db : List (List Nat)} {n : List Nat → Nat}
    (hc : ∀ X, db0.countP (sameLits X) + n X ≤ db.countP (sameLits X)) (h : [] ∈ db0) :
    [] ∈ db := by
  obtain ⟨d, hd, hs⟩ := mem_of_count hc ⟨[], h, .refl _⟩
  rwa [sameLits_nil hs] at hd

/-- Deleting one copy of `C` lowers the count of clauses with these literals by at
most one and leaves the others. -/
theorem count_delete (C X : List Nat) : ∀ db : List (List Nat),
    db.countP (sameLits X) ≤
      (deleteClause db C).countP (sameLits X) + (if sameLits X C then 1 else 0)
  | [] => by simp [deleteClause]
  | d :: db => by
    have ih := count_delete C X db
    unfold deleteClause at ih ⊢
    rw [List.eraseP_cons]
    by_cases hd : sameLits C d = true
    · rw [hd, cond_true, List.countP_cons]
      by_cases hx : sameLits X d = true
      · have : sameLits X C = true :=
          sameLits_iff.2 ((sameLits_iff.1 hx).trans (sameLits_iff.1 hd).symm)
        rw [if_pos hx, if_pos this]; exact Nat.le_refl _
      · rw [if_neg hx]; omega
    · rw [Bool.not_eq_true] at hd
      rw [hd, cond_false, List.countP_cons, List.countP_cons]
      omega

theorem deleteClause_append {db : List (List Nat)} {c : List Nat} (h : ∃ d ∈ db, SameLits c d)
    (e : List (List Nat)) : deleteClause (db ++ e) c = deleteClause db c ++ e := by
  obtain ⟨d, hd, hs⟩ := h
  exact List.eraseP_append_left (sameLits_iff.2 hs) e hd

theorem RupReplay.replay {orig : List (List Nat)} {lines : List Line} {db : List (List Nat)}
    (h : RupReplay orig lines db) : Replay orig lines db := by
  induction h with
  | nil => exact .nil
  | add _ hr ih => exact .add ih (.inl hr)
  | delete _ _ ih => exact .delete ih

/-- More original clauses do no harm. -/
theorem RupReplay.extend {orig : List (List Nat)} {lines : List Line} {db : List (List Nat)}
    (h : RupReplay orig lines db) (e : List (List Nat)) :
    RupReplay (orig ++ e) lines (db ++ e) := by
  induction h with
  | nil => exact .nil
  | add _ hr ih =>
    exact .add ih (hr.mono_sub fun c hc => List.mem_append.2 (.inl hc))
  | delete _ hd ih =>
    rw [← deleteClause_append hd]
    obtain ⟨d, hd, hs⟩ := hd
    exact .delete ih ⟨d, List.mem_append.2 (.inl hd), hs⟩

/-- A unit clause that unit propagation derives anyhow can be left out. -/
theorem UP.cut {F F' : Formula} {u : Nat} (hF : ∀ c, F' c → F c ∨ c = [u])
    (hu : UP F (fun _ => False) u) {A : Nat → Prop} {l : Nat} (h : UP F' A l) : UP F A l := by
  induction h with
  | assumed h => exact .assumed h
  | @unit c l hc hl _ ih =>
    rcases hF c hc with hc | rfl
    · exact .unit hc hl ih
    · simp at hl; subst hl
      exact hu.mono (fun c hc => ⟨c, hc, .refl c⟩) fun _ h => h.elim

theorem RUP.cut {F F' : Formula} {u : Nat} (hF : ∀ c, F' c → F c ∨ c = [u])
    (hu : UP F (fun _ => False) u) {c : List Nat} (h : RUP F' c) : RUP F c := by
  rcases h with ⟨d, hd, h⟩ | h
  · rcases hF d hd with hd | rfl
    · exact .inl ⟨d, hd, fun m hm => UP.cut hF hu (h m hm)⟩
    · by_cases hn : neg u ∈ c
      · by_cases hp : u ∈ c
        · exact .inr ⟨u, hp, hn⟩
        · have h1 := UP.cut hF hu (h u (by simp))
          exact .inl (h1.conflict (by
            rw [neg_neg]
            exact .assumed hn) (by rw [neg_neg]; exact hp))
      · have h1 := UP.cut hF hu (h u (by simp))
        have h2 : UP F (fun l => neg l ∈ c) u :=
          hu.mono (fun c hc => ⟨c, hc, .refl c⟩) fun _ h => h.elim
        exact .inl (h2.conflict h1 hn)
  · exact .inr h

/-- Literals of a line. -/
def Line.lits : Line → List Nat
  | .add c => c
  | .delete c => c

/-- Renaming of literals in a line. -/
def Line.map (f : Nat → Nat) : Line → Line
  | .add c => .add (c.map f)
  | .delete c => .delete (c.map f)

/-- A renaming of the literals of the first `n` variables. -/
structure Renaming (n : Nat) (f : Nat → Nat) : Prop where
  neg : ∀ l, l / 2 < n → f (neg l) = Spec.neg (f l)
  inj : ∀ l m, l / 2 < n → m / 2 < n → f l = f m → l = m

theorem UP.map {n : Nat} {f : Nat → Nat} (hf : Renaming n f) {F F' : Formula}
    (hF : ∀ c, F c → F' (c.map f) ∧ ∀ l ∈ c, l / 2 < n) {A A' : Nat → Prop}
    (hA : ∀ l, A l → A' (f l)) {l : Nat} (h : UP F A l) : UP F' A' (f l) := by
  induction h with
  | assumed h => exact .assumed (hA _ h)
  | @unit c l hc hl _ ih =>
    obtain ⟨h1, h2⟩ := hF c hc
    refine .unit h1 (List.mem_map_of_mem hl) fun m hm hne => ?_
    obtain ⟨m, hm', rfl⟩ := List.mem_map.1 hm
    have := ih m hm' fun e => hne (by rw [e])
    rwa [hf.neg m (h2 m hm')] at this

theorem RUP.map {n : Nat} {f : Nat → Nat} (hf : Renaming n f) {F F' : Formula}
    (hF : ∀ c, F c → F' (c.map f) ∧ ∀ l ∈ c, l / 2 < n) {c : List Nat}
    (hc : ∀ l ∈ c, l / 2 < n) (h : RUP F c) : RUP F' (c.map f) := by
  have hA : ∀ l, Spec.neg l ∈ c → Spec.neg (f l) ∈ c.map f := by
    intro l hl
    have := hc _ hl
    rw [neg_div] at this
    rw [← hf.neg l this]
    exact List.mem_map_of_mem hl
  rcases h with ⟨d, hd, h⟩ | ⟨l, hl, hn⟩
  · left
    obtain ⟨h1, h2⟩ := hF d hd
    refine ⟨_, h1, fun m hm => ?_⟩
    obtain ⟨m, hm', rfl⟩ := List.mem_map.1 hm
    rw [← hf.neg m (h2 m hm')]
    exact (h m hm').map hf hF hA
  · exact .inr ⟨f l, List.mem_map_of_mem hl, hA l hn⟩

theorem SameLits.map {n : Nat} {f : Nat → Nat} (hf : Renaming n f) {c d : List Nat}
    (hc : ∀ l ∈ c, l / 2 < n) (hd : ∀ l ∈ d, l / 2 < n) :
    SameLits (c.map f) (d.map f) ↔ SameLits c d := by
  constructor
  · intro h l
    constructor
    · intro hl
      obtain ⟨m, hm, e⟩ := List.mem_map.1 ((h _).1 (List.mem_map_of_mem hl))
      rwa [← hf.inj _ _ (hd m hm) (hc l hl) e]
    · intro hl
      obtain ⟨m, hm, e⟩ := List.mem_map.1 ((h _).2 (List.mem_map_of_mem hl))
      rwa [← hf.inj _ _ (hc m hm) (hd l hl) e]
  · intro h l
    simp only [List.mem_map]
    constructor
    · rintro ⟨m, hm, e⟩; exact ⟨m, (h m).1 hm, e⟩
    · rintro ⟨m, hm, e⟩; exact ⟨m, (h m).2 hm, e⟩

theorem deleteClause_map {n : Nat} {f : Nat → Nat} (hf : Renaming n f) {c : List Nat}
    (hc : ∀ l ∈ c, l / 2 < n) : ∀ {db : List (List Nat)}, (∀ d ∈ db, ∀ l ∈ d, l / 2 < n) →
    deleteClause (db.map (List.map f)) (c.map f) = (deleteClause db c).map (List.map f)
  | [], _ => rfl
  | d :: db, h => by
    have ih := deleteClause_map hf hc (db := db) fun d hd => h d (by simp [hd])
    unfold deleteClause at ih ⊢
    rw [List.map_cons, List.eraseP_cons, List.eraseP_cons]
    have hs := SameLits.map hf hc (h d (by simp))
    have e : sameLits (c.map f) (d.map f) = sameLits c d := by
      rw [Bool.eq_iff_iff, sameLits_iff, sameLits_iff]; exact hs
    rw [e]
    cases sameLits c d with
    | true => rfl
    | false => rw [cond_false, cond_false, List.map_cons, ih]

theorem RupReplay.bounded {n : Nat} {orig : List (List Nat)} {lines : List Line}
    {db : List (List Nat)} (h : RupReplay orig lines db)
    (ho : ∀ c ∈ orig, ∀ l ∈ c, l / 2 < n) (hl : ∀ x ∈ lines, ∀ l ∈ x.lits, l / 2 < n) :
    ∀ c ∈ db, ∀ l ∈ c, l / 2 < n := by
  induction h with
  | nil => exact ho
  | @add lines db c h hr ih =>
    intro d hd
    rcases List.mem_cons.1 hd with rfl | hd
    · exact hl (.add d) (by simp)
    · exact ih (fun x hx => hl x (by simp [hx])) d hd
  | @delete lines db c h hr ih =>
    intro d hd
    exact ih (fun x hx => hl x (by simp [hx])) d (mem_deleteClause hd)

theorem RupReplay.map {n : Nat} {f : Nat → Nat} (hf : Renaming n f)
    {orig : List (List Nat)} {lines : List Line} {db : List (List Nat)}
    (h : RupReplay orig lines db) (ho : ∀ c ∈ orig, ∀ l ∈ c, l / 2 < n)
    (hl : ∀ x ∈ lines, ∀ l ∈ x.lits, l / 2 < n) :
    RupReplay (orig.map (List.map f)) (lines.map (Line.map f)) (db.map (List.map f)) := by
  induction h with
  | nil => exact .nil
  | @add lines db c h hr ih =>
    have hl' : ∀ x ∈ lines, ∀ l ∈ x.lits, l / 2 < n := fun x hx => hl x (by simp [hx])
    rw [List.map_append]
    refine .add (ih hl') (hr.map hf (fun d hd => ⟨List.mem_map_of_mem hd, ?_⟩) ?_)
    · exact h.bounded ho hl' d hd
    · exact hl (.add c) (by simp)
  | @delete lines db c h hr ih =>
    have hl' : ∀ x ∈ lines, ∀ l ∈ x.lits, l / 2 < n := fun x hx => hl x (by simp [hx])
    have hc : ∀ l ∈ c, l / 2 < n := hl (.delete c) (by simp)
    rw [List.map_append, ← deleteClause_map hf hc (h.bounded ho hl')]
    refine .delete (ih hl') ?_
    obtain ⟨d, hd, hs⟩ := hr
    exact ⟨d.map f, List.mem_map_of_mem hd,
      (SameLits.map hf hc (h.bounded ho hl' d hd)).2 hs⟩

theorem scan_snoc (es : List Int) (e : Int) :
    scan (es ++ [e]) = if e = 0 then (clausesOf es ++ [pendingOf es], [])
      else (clausesOf es, pendingOf es ++ [e]) := by
  unfold clausesOf pendingOf scan
  rw [List.foldl_append]; rfl

theorem clausesOf_zero (es : List Int) : clausesOf (es ++ [0]) = clausesOf es ++ [pendingOf es] := by
  rw [clausesOf, scan_snoc, if_pos rfl]

theorem pendingOf_zero (es : List Int) : pendingOf (es ++ [0]) = [] := by
  rw [pendingOf, scan_snoc, if_pos rfl]

theorem clausesOf_lit (es : List Int) {e : Int} (h : e ≠ 0) :
    clausesOf (es ++ [e]) = clausesOf es := by
  rw [clausesOf, scan_snoc, if_neg h]

theorem pendingOf_lit (es : List Int) {e : Int} (h : e ≠ 0) :
    pendingOf (es ++ [e]) = pendingOf es ++ [e] := by
  rw [pendingOf, scan_snoc, if_neg h]

end Verif.Spec
