import Verif.Proofs.External

/-!
# Derivations by unit propagation

`Imp F A l`: unit propagation from the literals `A` derives `l` or fails.  `UC F C`: unit propagation behaves as if `C`
were a clause of the formula.
-/

namespace Verif.Congruence

open Verif.Spec

/-- Unit propagation from `A` fails. -/
def Bot (F : Formula) (A : List Nat) : Prop := UPConflict F (· ∈ A) ∨ ∃ l ∈ A, neg l ∈ A

/-- Unit propagation from `A` derives `l` or fails. -/
def Imp (F : Formula) (A : List Nat) (l : Nat) : Prop := UP F (· ∈ A) l ∨ Bot F A

theorem rup_iff {F : Formula} {c : List Nat} : RUP F c ↔ Bot F (c.map neg) := by
  have e : (fun l => neg l ∈ c) = (· ∈ c.map neg) := by
    funext l
    apply propext
    constructor
    · intro h; exact List.mem_map.2 ⟨neg l, h, neg_neg l⟩
    · intro h
      obtain ⟨m, hm, rfl⟩ := List.mem_map.1 h
      show neg (neg m) ∈ c
      rw [neg_neg]; exact hm
  unfold RUP Bot
  rw [e]
  constructor
  · rintro (h | ⟨l, h1, h2⟩)
    · exact Or.inl h
    · exact Or.inr ⟨neg l, List.mem_map_of_mem h1, List.mem_map_of_mem h2⟩
  · rintro (h | ⟨l, h1, h2⟩)
    · exact Or.inl h
    · obtain ⟨m, hm, rfl⟩ := List.mem_map.1 h1
      obtain ⟨k, hk, h3⟩ := List.mem_map.1 h2
      rw [neg_neg] at h3
      exact Or.inr ⟨k, hk, by rw [h3]; exact hm⟩

variable {F G : Formula} {A B : List Nat} {l : Nat}

theorem Imp.mem (h : l ∈ A) : Imp F A l := Or.inl (.assumed h)

theorem Bot.imp (h : Bot F A) : Imp F A l := Or.inr h

theorem Imp.clause {C : List Nat} (h : F C) (hl : l ∈ C) (hm : ∀ m ∈ C, m ≠ l → Imp F A (neg m)) : Imp F A l := by
  by_cases hb : Bot F A
  · exact Or.inr hb
  · exact Or.inl (.unit h hl fun m h1 h2 => (hm m h1 h2).resolve_right hb)

theorem Bot.clause {C : List Nat} (h : F C) (hm : ∀ m ∈ C, Imp F A (neg m)) : Bot F A := by
  by_cases hb : Bot F A
  · exact hb
  · exact Or.inl ⟨C, h, fun m h1 => (hm m h1).resolve_right hb⟩

theorem Bot.contra (h1 : Imp F A l) (h2 : Imp F A (neg l)) : Bot F A := by
  rcases h1 with h1 | h1
  · rcases h2 with h2 | h2
    · have key : ∀ {k c}, F c → k ∈ c → (∀ m ∈ c, m ≠ k → UP F (· ∈ A) (neg m)) → UP F (· ∈ A) (neg k) → Bot F A := by
        intro k c hc hk hm hn
        refine Or.inl ⟨c, hc, fun m h => ?_⟩
        by_cases e : m = k
        · rw [e]; exact hn
        · exact hm m h e
      cases h1 with
      | assumed h1 =>
        cases h2 with
        | assumed h2 => exact Or.inr ⟨l, h1, h2⟩
        | unit hc hk hm => exact key hc hk hm (by rw [neg_neg]; exact .assumed h1)
      | unit hc hk hm => exact key hc hk hm h2
    · exact h2
  · exact h1

theorem Imp.cut_up (h : UP F (· ∈ B) l) (hA : ∀ b ∈ B, Imp F A b) : Imp F A l := by
  induction h with
  | assumed h => exact hA _ h
  | unit hc hl _ ih => exact Imp.clause hc hl ih

theorem Bot.cut (h : Bot F B) (hA : ∀ b ∈ B, Imp F A b) : Bot F A := by
  rcases h with ⟨c, hc, hm⟩ | ⟨l, h1, h2⟩
  · exact Bot.clause hc fun m h => Imp.cut_up (hm m h) hA
  · exact Bot.contra (hA _ h1) (hA _ h2)

theorem Imp.cut (h : Imp F B l) (hA : ∀ b ∈ B, Imp F A b) : Imp F A l := by
  rcases h with h | h
  · exact Imp.cut_up h hA
  · exact (h.cut hA).imp

theorem Imp.weaken (h : Imp F B l) (hA : ∀ b ∈ B, b ∈ A) : Imp F A l := h.cut fun b hb => Imp.mem (hA b hb)

theorem Bot.weaken (h : Bot F B) (hA : ∀ b ∈ B, b ∈ A) : Bot F A := h.cut fun b hb => Imp.mem (hA b hb)

/-- Clauses are kept or satisfied by a unit. -/
def Le (F G : Formula) : Prop := ∀ c, F c → G c ∨ ∃ l ∈ c, G [l]

theorem Le.refl (F : Formula) : Le F F := fun _ h => Or.inl h

theorem Le.trans {H : Formula} (h1 : Le F G) (h2 : Le G H) : Le F H := by
  intro c hc
  rcases h1 c hc with h | ⟨l, hl, h⟩
  · exact h2 c h
  · rcases h2 _ h with h | ⟨m, hm, h⟩
    · exact Or.inr ⟨l, hl, h⟩
    · rw [List.mem_singleton.1 hm] at h
      exact Or.inr ⟨l, hl, h⟩

theorem Le.of_sub (h : ∀ c, F c → G c) : Le F G := fun c hc => Or.inl (h c hc)

theorem Imp.unit (h : F [l]) : Imp F A l :=
  Imp.clause h (List.mem_singleton_self l) fun m hm hne => absurd (List.mem_singleton.1 hm) hne

theorem Imp.le_up (h : UP F (· ∈ A) l) (hF : Le F G) : Imp G A l := by
  induction h with
  | assumed h => exact Imp.mem h
  | @unit c l hc hl hm ih =>
    rcases hF c hc with h | ⟨o, ho, h⟩
    · exact Imp.clause h hl ih
    · by_cases e : o = l
      · rw [← e]; exact Imp.unit h
      · exact (Bot.contra (Imp.unit h) (ih o ho e)).imp

theorem Bot.le (h : Bot F A) (hF : Le F G) : Bot G A := by
  rcases h with ⟨c, hc, hm⟩ | h
  · rcases hF c hc with h | ⟨o, ho, h⟩
    · exact Bot.clause h fun m h1 => Imp.le_up (hm m h1) hF
    · exact Bot.contra (Imp.unit h) (Imp.le_up (hm o ho) hF)
  · exact Or.inr h

theorem Imp.le (h : Imp F A l) (hF : Le F G) : Imp G A l := by
  rcases h with h | h
  · exact Imp.le_up h hF
  · exact (h.le hF).imp

/-! ## Soundness -/

theorem Bot.sound (h : Bot F A) {σ : Assignment} (hF : SatFormula σ F) (hA : ∀ a ∈ A, litTrue σ a) : False := by
  rcases h with h | ⟨l, h1, h2⟩
  · exact h.sound hA hF
  · exact (litTrue_neg _ _).1 (hA _ h2) (hA _ h1)

theorem Imp.sound (h : Imp F A l) {σ : Assignment} (hF : SatFormula σ F) (hA : ∀ a ∈ A, litTrue σ a) : litTrue σ l := by
  rcases h with h | h
  · exact h.sound hF hA
  · exact (h.sound hF hA).elim

theorem Le.sat (h : Le F G) {σ : Assignment} (hG : SatFormula σ G) : SatFormula σ F := by
  intro c hc
  rcases h c hc with h | ⟨l, hl, h⟩
  · exact hG c h
  · obtain ⟨m, hm, ht⟩ := hG _ h
    rw [List.mem_singleton.1 hm] at ht
    exact ⟨l, hl, ht⟩

/-! ## Derived clauses -/

/-- Unit propagation behaves as if `C` were a clause. -/
def UC (F : Formula) (C : List Nat) : Prop := ∀ C1 l C2, C = C1 ++ l :: C2 → Imp F ((C1 ++ C2).map neg) l

theorem UC.of_clause {C : List Nat} (h : F C) : UC F C := by
  rintro C1 l C2 rfl
  refine Imp.clause h (by simp) fun m hm hne => Imp.mem ?_
  have : m ∈ C1 ++ C2 := by simp at hm ⊢; rcases hm with h | h | h <;> simp_all
  exact List.mem_map_of_mem this

theorem UC.le {C : List Nat} (h : UC F C) (hF : Le F G) : UC G C := fun C1 l C2 e => (h C1 l C2 e).le hF

theorem UC.at {C : List Nat} (h : UC F C) (hl : l ∈ C) (hA : ∀ m ∈ C.erase l, Imp F A (neg m)) : Imp F A l := by
  obtain ⟨C1, C2, h1, e1, e2⟩ := List.exists_erase_eq hl
  refine (h C1 l C2 e1).cut fun b hb => ?_
  obtain ⟨m, hm, rfl⟩ := List.mem_map.1 hb
  exact hA m (by rw [e2]; exact hm)

theorem UC.perm {C D : List Nat} (h : UC F C) (hp : C.Perm D) : UC F D := by
  rintro D1 l D2 rfl
  have hl : l ∈ C := hp.mem_iff.2 (by simp)
  refine UC.at h hl fun m hm => Imp.mem ?_
  have hp2 : (C.erase l).Perm (D1 ++ D2) := by
    have h1 := hp.erase l
    have h2 : (D1 ++ l :: D2).Perm (l :: (D1 ++ D2)) := List.perm_middle
    have h3 := h2.erase l
    rw [List.erase_cons_head] at h3
    exact h1.trans h3
  exact List.mem_map_of_mem (hp2.mem_iff.1 hm)

theorem UC.bot {C : List Nat} (h : UC F C) (hC : C ≠ []) (hA : ∀ m ∈ C, Imp F A (neg m)) : Bot F A := by
  cases C with
  | nil => exact absurd rfl hC
  | cons l C =>
    refine Bot.contra (l := l) ((h [] l C rfl).cut fun b hb => ?_) (hA l (by simp))
    obtain ⟨m, hm, rfl⟩ := List.mem_map.1 hb
    exact hA m (by simp at hm; simp [hm])

/-- Literals replaced by equivalent ones. -/
theorem UC.rename {C : List Nat} (h : UC F C) {f : Nat → Nat} (h1 : ∀ l ∈ C, Imp F [l] (f l))
    (h2 : ∀ l ∈ C, Imp F [neg (f l)] (neg l)) : UC F (C.map f) := by
  intro D1 k D2 e
  obtain ⟨C1, C', rfl, e1, e2⟩ := List.map_eq_append_iff.1 e
  obtain ⟨l, C2, rfl, e3, e4⟩ := List.map_eq_cons_iff.1 e2
  subst e1 e3 e4
  refine (h1 l (by simp)).cut fun b hb => ?_
  rw [List.mem_singleton.1 hb]
  refine (h C1 l C2 rfl).cut fun b hb => ?_
  obtain ⟨m, hm, rfl⟩ := List.mem_map.1 hb
  refine (h2 m (by simp at hm ⊢; rcases hm with h | h <;> simp [h])).weaken fun b hb => ?_
  rw [List.mem_singleton.1 hb]
  rw [← List.map_append]
  exact List.mem_map_of_mem (List.mem_map_of_mem hm)

/-- A false literal is dropped. -/
theorem UC.drop {C : List Nat} {x : Nat} (h : UC F (x :: C)) (hx : Imp F [] (neg x)) : UC F C := by
  rintro C1 l C2 rfl
  refine (h (x :: C1) l C2 rfl).cut fun b hb => ?_
  simp only [List.cons_append, List.map_cons, List.mem_cons] at hb
  rcases hb with rfl | hb
  · exact hx.weaken (by simp)
  · exact Imp.mem hb

/-- Tautologies. -/
theorem UC.taut {C : List Nat} (hl : l ∈ C) (hn : neg l ∈ C) : UC F C := by
  rintro C1 k C2 rfl
  have key : ∀ m, m ∈ C1 ++ k :: C2 → m = k ∨ neg m ∈ (C1 ++ C2).map neg := by
    intro m hm
    by_cases e : m = k
    · exact Or.inl e
    · refine Or.inr (List.mem_map_of_mem ?_)
      simp at hm ⊢
      rcases hm with h | h | h
      · exact Or.inl h
      · exact absurd h e
      · exact Or.inr h
  rcases key l hl with rfl | h1
  · rcases key _ hn with h2 | h2
    · exact absurd h2 (neg_ne l)
    · rw [neg_neg] at h2; exact Imp.mem h2
  · rcases key _ hn with rfl | h2
    · exact Imp.mem h1
    · exact Or.inr (Or.inr ⟨neg l, h1, h2⟩)

/-- One literal replaced by an equivalent one. -/
theorem UC.rename1 {C : List Nat} {x y : Nat} (h : UC F (x :: C)) (h1 : Imp F [x] y) (h2 : Imp F [neg y] (neg x)) :
    UC F (y :: C) := by
  intro D1 k D2 e
  cases D1 with
  | nil =>
    simp only [List.nil_append, List.cons.injEq] at e
    obtain ⟨rfl, rfl⟩ := e
    refine h1.cut fun b hb => ?_
    rw [List.mem_singleton.1 hb]
    exact h [] x C rfl
  | cons d D1 =>
    simp only [List.cons_append, List.cons.injEq] at e
    obtain ⟨rfl, rfl⟩ := e
    refine (h (x :: D1) k D2 rfl).cut fun b hb => ?_
    simp only [List.cons_append, List.map_cons, List.mem_cons] at hb
    rcases hb with rfl | hb
    · exact h2.weaken (by simp)
    · exact Imp.mem (by simp at hb ⊢; exact Or.inr hb)

/-- Both polarities. -/
theorem UC.resolve {C D1 D2 : List Nat} {x : Nat} (h1 : UC F (x :: D1)) (h2 : UC F (neg x :: D2))
    (hd1 : ∀ m ∈ D1, m ∈ C) (hd2 : ∀ m ∈ D2, m ∈ C) : Bot F (C.map neg) := by
  refine Bot.contra (l := x) ?_ ?_
  · refine (h1 [] x D1 rfl).weaken fun b hb => ?_
    obtain ⟨m, hm, rfl⟩ := List.mem_map.1 hb
    exact List.mem_map_of_mem (hd1 m hm)
  · refine (h2 [] _ D2 rfl).weaken fun b hb => ?_
    obtain ⟨m, hm, rfl⟩ := List.mem_map.1 hb
    exact List.mem_map_of_mem (hd2 m hm)

/-- Unit propagation behaves as if the clauses of `F` were clauses of `G`. -/
def Sub (F G : Formula) : Prop := ∀ c, F c →
  (∀ l ∈ c, Imp G ((c.filter (· ≠ l)).map neg) l) ∧ (c = [] → Bot G [])

theorem Imp.sub_up (h : UP F (· ∈ A) l) (hF : Sub F G) : Imp G A l := by
  induction h with
  | assumed h => exact Imp.mem h
  | @unit c l hc hl hm ih =>
    refine ((hF c hc).1 l hl).cut fun b hb => ?_
    obtain ⟨m, hm, rfl⟩ := List.mem_map.1 hb
    rw [List.mem_filter] at hm
    exact ih m hm.1 (by simpa using hm.2)

theorem Bot.sub (h : Bot F A) (hF : Sub F G) : Bot G A := by
  rcases h with ⟨c, hc, hm⟩ | h
  · cases c with
    | nil => exact ((hF _ hc).2 rfl).weaken (by simp)
    | cons l c =>
      refine Bot.contra (l := l) (((hF _ hc).1 l (by simp)).cut fun b hb => ?_) (Imp.sub_up (hm l (by simp)) hF)
      obtain ⟨m, h1, rfl⟩ := List.mem_map.1 hb
      rw [List.mem_filter] at h1
      exact Imp.sub_up (hm m h1.1) hF
  · exact Or.inr h

theorem Imp.sub (h : Imp F A l) (hF : Sub F G) : Imp G A l := by
  rcases h with h | h
  · exact Imp.sub_up h hF
  · exact (h.sub hF).imp

theorem UC.sub {C : List Nat} (h : UC F C) (hF : Sub F G) : UC G C := fun C1 l C2 e => (h C1 l C2 e).sub hF

theorem Sub.of_le (h : Le F G) : Sub F G := by
  intro c hc
  rcases h c hc with h | ⟨o, ho, h⟩
  · refine ⟨fun l hl => Imp.clause h hl fun m hm hne => Imp.mem (List.mem_map_of_mem ?_), fun e => ?_⟩
    · rw [List.mem_filter]; exact ⟨hm, by simpa using hne⟩
    · exact Bot.clause h (by rw [e]; simp)
  · refine ⟨fun l hl => ?_, fun e => by rw [e] at ho; cases ho⟩
    by_cases e : o = l
    · rw [← e]; exact Imp.unit h
    · refine (Bot.contra (l := o) (Imp.unit h) (Imp.mem (List.mem_map_of_mem ?_))).imp
      rw [List.mem_filter]; exact ⟨ho, by simpa using e⟩

theorem Sub.refl (F : Formula) : Sub F F := Sub.of_le (Le.refl F)

theorem Sub.trans {H : Formula} (h1 : Sub F G) (h2 : Sub G H) : Sub F H := fun c hc =>
  ⟨fun l hl => ((h1 c hc).1 l hl).sub h2, fun e => ((h1 c hc).2 e).sub h2⟩

/-- A formula with one more clause. -/
def Plus (F : Formula) (c : List Nat) : Formula := fun d => F d ∨ d = c

/-- Each clause can be derived with the help of the ones before. -/
def Steps (F : Formula) : List (List Nat) → Prop
  | [] => True
  | c :: cs => Bot F (c.map neg) ∧ Steps (Plus F c) cs

theorem Sub.plus (h : Sub F G) (c : List Nat) : Sub (Plus F c) (Plus G c) := by
  have h' : Sub G (Plus G c) := .of_le (.of_sub fun _ h => Or.inl h)
  rintro d (hd | rfl)
  · exact ⟨fun l hl => ((h d hd).1 l hl).sub h', fun e => ((h d hd).2 e).sub h'⟩
  · exact Sub.refl (Plus G d) d (Or.inr rfl)

theorem Steps.sub : ∀ {cs : List (List Nat)} {F G : Formula}, Steps F cs → Sub F G → Steps G cs
  | [], _, _, _, _ => trivial
  | c :: _, _, _, h, hs => ⟨h.1.sub hs, h.2.sub (hs.plus c)⟩

/-- A formula with more clauses. -/
def Pluses (F : Formula) : List (List Nat) → Formula
  | [] => F
  | c :: cs => Pluses (Plus F c) cs

theorem pluses_iff : ∀ {cs : List (List Nat)} {F : Formula} {d : List Nat}, Pluses F cs d ↔ F d ∨ d ∈ cs
  | [], F, d => by simp [Pluses]
  | c :: cs, F, d => by
    unfold Pluses
    rw [pluses_iff]
    unfold Plus
    simp [or_assoc]

theorem Steps.append : ∀ {cs ds : List (List Nat)} {F : Formula}, Steps F cs → Steps (Pluses F cs) ds → Steps F (cs ++ ds)
  | [], _, _, _, h => h
  | _ :: _, _, _, h1, h2 => ⟨h1.1, Steps.append h1.2 h2⟩

theorem Steps.of_all : ∀ {cs : List (List Nat)} {F : Formula}, (∀ c ∈ cs, Bot F (c.map neg)) → Steps F cs
  | [], _, _ => trivial
  | c :: cs, F, h => ⟨h c (by simp), Steps.of_all fun d hd =>
      (h d (by simp [hd])).sub (Sub.of_le (Le.of_sub fun _ h => Or.inl h))⟩

end Verif.Congruence
