import Verif.Model.Check
import Verif.Proofs.Cnf
import Verif.Proofs.Drat
import Verif.Proofs.Core.Propagate

/-! Invariants of the proof checker and unit propagation. -/

namespace Verif.Check

open Verif.Spec

@[simp] theorem put_same {β : Type} (f : Nat → β) (i : Nat) (b : β) : put f i b i = b := by
  simp [put]

theorem put_other {β : Type} (f : Nat → β) {i j : Nat} (b : β) (h : j ≠ i) :
    put f i b j = f j := by simp [put, h]

/-- The line with number `i` is in the hash table. -/
def Checker.Live (c : Checker) (i : Nat) : Prop :=
  i ∈ c.table (reduceHash (c.line i).hash c.hashed)

def Checker.first (c : Checker) (i : Nat) : Nat := (c.line i).lits.getD 0 0
def Checker.second (c : Checker) (i : Nat) : Nat := (c.line i).lits.getD 1 0

/-- Assignment and watches are consistent, where the lines `rest` still have to be visited
by the loop which rebuilds the list of lines watched by `n`. -/
structure WfR (n : Nat) (rest : List Nat) (c : Checker) : Prop where
  dom : ∀ x, c.values x = 1 ∨ c.values x = 0 ∨ c.values x = -1
  anti : ∀ x, c.values (neg x) = - c.values x
  trail : ∀ x, x ∈ c.trail ↔ c.values x = 1
  nodup : c.trail.Nodup
  bound : ∀ x ∈ c.trail, x / 2 < c.vars
  prop : c.propagated ≤ c.trail.length
  idx : ∀ i, c.Live i → i < c.lines.length
  size : ∀ i, c.Live i → 2 ≤ (c.line i).lits.length
  ne : ∀ i, c.Live i → c.first i ≠ c.second i
  lbound : ∀ i, c.Live i → ∀ l ∈ (c.line i).lits, l / 2 < c.vars
  watch : ∀ i w, (i ∈ c.watches w ∨ (w = n ∧ i ∈ rest)) ↔
    (c.Live i ∧ (w = c.first i ∨ w = c.second i))
  wnodup : ∀ w, (c.watches w).Nodup
  rnodup : rest.Nodup
  rdisj : ∀ i ∈ rest, i ∉ c.watches n

abbrev Wf (c : Checker) : Prop := WfR 0 [] c

theorem WfR.change {n m : Nat} {c : Checker} (h : WfR n [] c) : WfR m [] c :=
  { h with
    watch := fun i w => by simpa using h.watch i w
    rnodup := List.nodup_nil
    rdisj := fun i hi => by cases hi }

/-- Literals and lines follow by unit propagation. -/
structure Up (F : Formula) (A : Nat → Prop) (c : Checker) : Prop where
  lines : ∀ i, c.Live i → ∃ d, F d ∧ SameLits d (c.line i).lits
  trail : ∀ x ∈ c.trail, UP F A x

/-- Nothing but watches, assignment and the order of literals has changed. -/
structure Frame (c c' : Checker) : Prop where
  inconsistent : c'.inconsistent = c.inconsistent
  vars : c'.vars = c.vars
  hashed : c'.hashed = c.hashed
  buckets : c'.buckets = c.buckets
  table : c'.table = c.table
  used : c'.used = c.used
  large : c'.large = c.large
  length : c'.lines.length = c.lines.length
  hash : ∀ i, (c'.line i).hash = (c.line i).hash
  perm : ∀ i, (c'.line i).lits.Perm (c.line i).lits

theorem Frame.refl (c : Checker) : Frame c c :=
  ⟨rfl, rfl, rfl, rfl, rfl, rfl, rfl, rfl, fun _ => rfl, fun _ => .refl _⟩

theorem Frame.trans {a b c : Checker} (h : Frame a b) (g : Frame b c) : Frame a c :=
  ⟨g.inconsistent.trans h.inconsistent, g.vars.trans h.vars, g.hashed.trans h.hashed,
    g.buckets.trans h.buckets, g.table.trans h.table, g.used.trans h.used,
    g.large.trans h.large, g.length.trans h.length, fun i => (g.hash i).trans (h.hash i),
    fun i => (g.perm i).trans (h.perm i)⟩

theorem Frame.live {c c' : Checker} (h : Frame c c') (i : Nat) : c'.Live i ↔ c.Live i := by
  unfold Checker.Live; rw [h.table, h.hash, h.hashed]

theorem WfR.value_neg {n : Nat} {rest : List Nat} {c : Checker} (h : WfR n rest c) (x : Nat) :
    c.values x = -1 ↔ neg x ∈ c.trail := by
  rw [h.trail, h.anti]; omega

theorem findReplacement_some {values : Nat → Int} {other notLit : Nat} :
    ∀ {ls : List Nat} {r k p : Nat}, findReplacement values other notLit ls r = some (k, p) →
      ∃ pre post, ls = pre ++ p :: post ∧ k = r + pre.length ∧ p ≠ other ∧ p ≠ notLit ∧
        0 ≤ values p := by
  intro ls
  induction ls with
  | nil => intro r k p h; simp [findReplacement] at h
  | cons l ls ih =>
    intro r k p h
    unfold findReplacement at h
    have next : findReplacement values other notLit ls (r + 1) = some (k, p) →
      ∃ pre post, l :: ls = pre ++ p :: post ∧ k = r + pre.length ∧ p ≠ other ∧ p ≠ notLit ∧
        0 ≤ values p := fun h => by
      obtain ⟨pre, post, e, ek, h'⟩ := ih h
      exact ⟨l :: pre, post, by rw [e]; rfl, by rw [ek]; simp; omega, h'⟩
    split at h
    · exact next h
    · split at h
      · exact next h
      · split at h
        · injection h with h
          injection h with h1 h2
          subst h1; subst h2
          exact ⟨[], ls, rfl, by simp, by assumption, by assumption, by assumption⟩
        · exact next h

theorem findReplacement_none {values : Nat → Int} {other notLit : Nat} :
    ∀ {ls : List Nat} {r : Nat}, findReplacement values other notLit ls r = none →
      ∀ l ∈ ls, l = other ∨ l = notLit ∨ values l < 0 := by
  intro ls
  induction ls with
  | nil => intro r _ l hl; cases hl
  | cons x ls ih =>
    intro r h l hl
    unfold findReplacement at h
    split at h
    · rcases List.mem_cons.1 hl with rfl | hl
      · left; assumption
      · exact ih h l hl
    · split at h
      · rcases List.mem_cons.1 hl with rfl | hl
        · right; left; assumption
        · exact ih h l hl
      · split at h
        · cases h
        · rcases List.mem_cons.1 hl with rfl | hl
          · right; right; omega
          · exact ih h l hl

theorem Checker.line_setLits {c : Checker} {i : Nat} (hi : i < c.lines.length) (lits : List Nat)
    (j : Nat) : (c.setLits i lits).line j =
      if j = i then ⟨lits, (c.line i).hash⟩ else c.line j := by
  unfold Checker.setLits Checker.line
  simp only [List.getD_eq_getElem?_getD, List.getElem?_set]
  by_cases e : j = i
  · subst e; simp [hi]
  · simp [e, Ne.symm e]

/-- A line is watched in another order and by other literals. -/
theorem frame_setLits {c : Checker} {i : Nat} (hi : i < c.lines.length) {lits : List Nat}
    (hp : lits.Perm (c.line i).lits) : Frame c (c.setLits i lits) := by
  refine ⟨rfl, rfl, rfl, rfl, rfl, rfl, rfl, ?_, ?_, ?_⟩
  · simp [Checker.setLits]
  · intro j; rw [Checker.line_setLits hi]; split
    · next e => rw [e]
    · rfl
  · intro j; rw [Checker.line_setLits hi]; split
    · next e => rw [e]; exact hp
    · exact .refl _

theorem mem_put_append {f : Nat → List Nat} {w l i j : Nat} :
    j ∈ put f l (f l ++ [i]) w ↔ j ∈ f w ∨ (w = l ∧ j = i) := by
  unfold put
  split
  · next e => subst e; simp
  · next e => simp [e]

theorem nodup_put_append {f : Nat → List Nat} (h : ∀ w, (f w).Nodup) {l i : Nat} (hi : i ∉ f l)
    (w : Nat) : (put f l (f l ++ [i]) w).Nodup := by
  unfold put
  split
  · refine List.nodup_append.2 ⟨h l, by simp, fun a ha b hb e => ?_⟩
    simp only [List.mem_singleton] at hb
    exact hi (hb ▸ e ▸ ha)
  · exact h w

/-- The next line is kept. -/
theorem WfR.keep {n i : Nat} {rest : List Nat} {c : Checker} (h : WfR n (i :: rest) c) :
    WfR n rest (c.watch i n) := by
  have hi : i ∉ c.watches n := h.rdisj i (List.mem_cons_self ..)
  have hr := List.nodup_cons.1 h.rnodup
  exact { h with
    watch := fun j w => by
      rw [← show _ ↔ ((c.watch i n).Live j ∧ (w = (c.watch i n).first j ∨ w = (c.watch i n).second j)) from h.watch j w]
      show j ∈ put c.watches n (c.watches n ++ [i]) w ∨ _ ↔ _
      rw [mem_put_append, List.mem_cons]
      constructor
      · rintro ((h | ⟨a, b⟩) | ⟨a, b⟩)
        · exact .inl h
        · exact .inr ⟨a, .inl b⟩
        · exact .inr ⟨a, .inr b⟩
      · rintro (h | ⟨a, (b | b)⟩)
        · exact .inl (.inl h)
        · exact .inl (.inr ⟨a, b⟩)
        · exact .inr ⟨a, b⟩
    wnodup := fun w => nodup_put_append h.wnodup hi w
    rnodup := hr.2
    rdisj := fun j hj hm => by
      have hm : j ∈ put c.watches n (c.watches n ++ [i]) n := hm
      rw [mem_put_append] at hm
      rcases hm with hm | ⟨_, rfl⟩
      · exact h.rdisj j (List.mem_cons_of_mem _ hj) hm
      · exact hr.1 hj }

/-- The next line moves to another list. -/
theorem WfR.move {n i p other r : Nat} {rest : List Nat} {c : Checker} (h : WfR n (i :: rest) c)
    {pre post : List Nat} (hl : (c.line i).lits.drop 2 = pre ++ p :: post) (hr : r = 2 + pre.length)
    (ho : other = n ^^^ c.first i ^^^ c.second i) (hpo : p ≠ other) (hpn : p ≠ n)
    (hfs : ∀ lits, lits = (((c.line i).lits.set 0 other).set 1 p).set r n →
      lits.Perm (c.line i).lits) :
    WfR n rest ((c.setLits i ((((c.line i).lits.set 0 other).set 1 p).set r n)).watch i p) := by
  obtain ⟨hlive, hwn⟩ := (h.watch i n).1 (.inr ⟨rfl, List.mem_cons_self ..⟩)
  have hilt := h.idx i hlive
  have hperm := hfs _ rfl
  have hframe := frame_setLits (c := c) hilt hperm
  have hsz := h.size i hlive
  have hnd := List.nodup_cons.1 h.rnodup
  have hne := h.ne i hlive
  have hother : (c.first i = n ∧ other = c.second i) ∨ (c.second i = n ∧ other = c.first i) := by
    rcases hwn with e | e
    · left; refine ⟨e.symm, ?_⟩; rw [ho, ← e, Nat.xor_self, Nat.zero_xor]
    · right; refine ⟨e.symm, ?_⟩; rw [ho, ← e]; exact Core.xor_cancel n (c.first i)
  have hlen : 2 < (c.line i).lits.length := by
    have := congrArg List.length hl
    simp at this; omega
  generalize hc' : (c.setLits i ((((c.line i).lits.set 0 other).set 1 p).set r n)) = c' at *
  have hline : ∀ j, c'.line j = if j = i then
      ⟨(((c.line i).lits.set 0 other).set 1 p).set r n, (c.line i).hash⟩ else c.line j := fun j => by
    rw [← hc']; exact Checker.line_setLits hilt _ j
  have hf1 : ∀ j, c'.first j = if j = i then other else c.first j := fun j => by
    unfold Checker.first; rw [hline]; split
    · simp [List.getD_eq_getElem?_getD, show r ≠ 0 by omega, show 0 < (c.line i).lits.length by omega]
    · rfl
  have hs1 : ∀ j, c'.second j = if j = i then p else c.second j := fun j => by
    unfold Checker.second; rw [hline]; split
    · simp [List.getD_eq_getElem?_getD, show r ≠ 1 by omega, show 1 < (c.line i).lits.length by omega]
    · rfl
  have hw : c'.watches = c.watches := by rw [← hc']; rfl
  have hv : c'.values = c.values := by rw [← hc']; rfl
  have ht : c'.trail = c.trail := by rw [← hc']; rfl
  have hpr : c'.propagated = c.propagated := by rw [← hc']; rfl
  have hwl : ∀ j, (c'.watch i p).Live j ↔ c.Live j := fun j => hframe.live j
  have hip : i ∉ c.watches p := fun hm => by
    rcases (h.watch i p).1 (.inl hm) with ⟨_, e | e⟩
    · rcases hother with ⟨a, b⟩ | ⟨a, b⟩
      · exact hpn (e.trans a)
      · exact hpo (e.trans b.symm)
    · rcases hother with ⟨a, b⟩ | ⟨a, b⟩
      · exact hpo (e.trans b.symm)
      · exact hpn (e.trans a)
  refine {
    dom := fun x => by
      show c'.values x = 1 ∨ c'.values x = 0 ∨ c'.values x = -1; rw [hv]; exact h.dom x
    anti := fun x => by show c'.values _ = - c'.values x; rw [hv]; exact h.anti x
    trail := fun x => by show x ∈ c'.trail ↔ c'.values x = 1; rw [hv, ht]; exact h.trail x
    nodup := by show c'.trail.Nodup; rw [ht]; exact h.nodup
    bound := fun x hx => by
      show x / 2 < c'.vars
      rw [hframe.vars]; exact h.bound x (by rw [← ht]; exact hx)
    prop := by show c'.propagated ≤ c'.trail.length; rw [ht, hpr]; exact h.prop
    idx := fun j hj => by
      show j < c'.lines.length
      rw [hframe.length]; exact h.idx j ((hwl j).1 hj)
    size := fun j hj => by
      show 2 ≤ (c'.line j).lits.length
      rw [(hframe.perm j).length_eq]; exact h.size j ((hwl j).1 hj)
    ne := fun j hj => by
      show c'.first j ≠ c'.second j
      rw [hf1, hs1]; split
      · exact fun e => hpo e.symm
      · exact h.ne j ((hwl j).1 hj)
    lbound := fun j hj l hl => by
      show l / 2 < c'.vars
      rw [hframe.vars]; exact h.lbound j ((hwl j).1 hj) l ((hframe.perm j).mem_iff.1 hl)
    watch := fun j w => by
      rw [hwl]
      show j ∈ put c'.watches p (c'.watches p ++ [i]) w ∨ _ ↔ _ ∧ (w = c'.first j ∨ w = c'.second j)
      rw [mem_put_append, hw, hf1, hs1]
      by_cases e : j = i
      · subst e
        simp only [if_true]
        constructor
        · rintro ((hm | ⟨a, _⟩) | ⟨_, hm⟩)
          · refine ⟨hlive, .inl ?_⟩
            obtain ⟨_, hx⟩ := (h.watch j w).1 (.inl hm)
            have hwn' : w ≠ n := fun e => h.rdisj j (List.mem_cons_self ..) (e ▸ hm)
            rcases hother with ⟨a, b⟩ | ⟨a, b⟩
            · rcases hx with hx | hx
              · exact absurd (hx.trans a) hwn'
              · exact hx.trans b.symm
            · rcases hx with hx | hx
              · exact hx.trans b.symm
              · exact absurd (hx.trans a) hwn'
          · exact ⟨hlive, .inr a⟩
          · exact absurd hm hnd.1
        · rintro ⟨_, e | e⟩
          · left; left
            have hx : w = c.first j ∨ w = c.second j := by
              rcases hother with ⟨_, b⟩ | ⟨_, b⟩
              · exact .inr (e.trans b)
              · exact .inl (e.trans b)
            rcases (h.watch j w).2 ⟨hlive, hx⟩ with hm | ⟨hwn', _⟩
            · exact hm
            · exfalso
              rcases hother with ⟨a, b⟩ | ⟨a, b⟩
              · exact hne (by rw [a, ← b, ← e, hwn'])
              · exact hne (by rw [a, ← b, ← e, hwn'])
          · exact .inl (.inr ⟨e, trivial⟩)
      · simp only [e, if_false, and_false, or_false]
        rw [← h.watch j w, List.mem_cons]
        simp [e]
    wnodup := fun w => by
      show (put c'.watches p (c'.watches p ++ [i]) w).Nodup
      rw [hw]; exact nodup_put_append h.wnodup hip w
    rnodup := hnd.2
    rdisj := fun j hj hm => by
      have hm : j ∈ put c'.watches p (c'.watches p ++ [i]) n := hm
      rw [mem_put_append, hw] at hm
      rcases hm with hm | ⟨e, _⟩
      · exact h.rdisj j (List.mem_cons_of_mem _ hj) hm
      · exact hpn e.symm }

theorem Checker.values_assign (c : Checker) (l x : Nat) :
    (c.assign l).values x = if x = neg l then -1 else if x = l then 1 else c.values x := rfl

/-- Assigning a literal. -/
theorem WfR.assign {n l : Nat} {rest : List Nat} {c : Checker} (h : WfR n rest c)
    (hv : c.values l = 0) (hb : l / 2 < c.vars) : WfR n rest (c.assign l) := by
  have hne := neg_ne l
  exact { h with
    dom := fun x => by
      rw [Checker.values_assign]; split
      · right; right; rfl
      · split
        · left; rfl
        · exact h.dom x
    anti := fun x => by
      simp only [Checker.values_assign]
      by_cases e1 : x = l
      · subst e1; simp [ne_neg x]
      · by_cases e2 : x = neg l
        · subst e2; simp [Spec.neg_neg]; intro e; exact absurd e.symm (neg_ne l)
        · have e3 : ¬ neg x = l := fun e => e2 (by rw [← e, Spec.neg_neg])
          have e4 : ¬ neg x = neg l := fun e => e1 (neg_inj e)
          simp [e1, e2, e3, h.anti]
    trail := fun x => by
      show x ∈ c.trail ++ [l] ↔ _
      rw [Checker.values_assign, List.mem_append, List.mem_singleton, h.trail]
      by_cases e1 : x = l
      · subst e1; simp [ne_neg x]
      · by_cases e2 : x = neg l
        · subst e2
          have := h.anti l
          simp [hne]; omega
        · simp [e1, e2]
    nodup := by
      show (c.trail ++ [l]).Nodup
      refine List.nodup_append.2 ⟨h.nodup, by simp, fun a ha b hb e => ?_⟩
      simp only [List.mem_singleton] at hb
      have := (h.trail a).1 ha
      rw [e, hb, hv] at this
      cases this
    bound := fun x hx => by
      have hx : x ∈ c.trail ++ [l] := hx
      rcases List.mem_append.1 hx with hx | hx
      · exact h.bound x hx
      · rw [List.mem_singleton.1 hx]; exact hb
    prop := by
      show c.propagated ≤ (c.trail ++ [l]).length
      have := h.prop
      simp; omega }

/-- What propagation does. -/
structure Propagated (c c' : Checker) (res : Bool) : Prop where
  frame : Frame c c'
  extends' : ∃ e, c'.trail = c.trail ++ e
  up : ∀ F A, Up F A c → Up F A c' ∧ (res = false → UPConflict F A)

theorem Up.conv {F : Formula} {A : Nat → Prop} {c c' : Checker} (h : Up F A c)
    (hf : Frame c c') (ht : c'.trail = c.trail) : Up F A c' :=
  ⟨fun i hi => by
      obtain ⟨d, hd, hs⟩ := h.lines i ((hf.live i).1 hi)
      exact ⟨d, hd, hs.trans fun l => (hf.perm i).mem_iff.symm⟩,
    fun x hx => h.trail x (ht ▸ hx)⟩

theorem Propagated.refl (c : Checker) : Propagated c c true :=
  ⟨.refl c, ⟨[], by simp⟩, fun _ _ h => ⟨h, by simp⟩⟩

theorem Propagated.comp {a b c : Checker} {res : Bool} (h : Propagated a b true)
    (g : Propagated b c res) : Propagated a c res := by
  refine ⟨h.frame.trans g.frame, ?_, fun F A hu => g.up F A (h.up F A hu).1⟩
  obtain ⟨e, he⟩ := h.extends'
  obtain ⟨e', he'⟩ := g.extends'
  exact ⟨e ++ e', by rw [he', he, List.append_assoc]⟩

theorem Propagated.of_frame {a b : Checker} (h : Frame a b) (ht : b.trail = a.trail) :
    Propagated a b true :=
  ⟨h, ⟨[], by simp [ht]⟩, fun _ _ hu => ⟨hu.conv h ht, by simp⟩⟩

theorem frame_watch (c : Checker) (i l : Nat) : Frame c (c.watch i l) :=
  ⟨rfl, rfl, rfl, rfl, rfl, rfl, rfl, rfl, fun _ => rfl, fun _ => .refl _⟩

theorem frame_assign (c : Checker) (l : Nat) : Frame c (c.assign l) :=
  ⟨rfl, rfl, rfl, rfl, rfl, rfl, rfl, rfl, fun _ => rfl, fun _ => .refl _⟩

theorem lits_split {c : Checker} {i : Nat} (h : 2 ≤ (c.line i).lits.length) :
    (c.line i).lits = c.first i :: c.second i :: (c.line i).lits.drop 2 := by
  unfold Checker.first Checker.second
  match hl : (c.line i).lits, h with
  | a :: b :: ls, _ => simp
  | [], h => simp at h
  | [a], h => simp at h

theorem watchLoop_ok {n : Nat} : ∀ {rest : List Nat} {c c' : Checker} {res : Bool},
    WfR n rest c → c.values n = -1 → watchLoop n rest c = (c', res) →
    WfR n [] c' ∧ Propagated c c' res ∧ c'.propagated = c.propagated := by
  intro rest
  induction rest with
  | nil =>
    intro c c' res h hn he
    simp only [watchLoop, Prod.mk.injEq] at he
    obtain ⟨rfl, rfl⟩ := he
    exact ⟨h, .refl c, rfl⟩
  | cons i rest ih =>
    intro c c' res h hn he
    obtain ⟨hlive, hwn⟩ := (h.watch i n).1 (.inr ⟨rfl, List.mem_cons_self ..⟩)
    have hilt := h.idx i hlive
    have hsz := h.size i hlive
    have hsplit := lits_split hsz
    generalize ho : n ^^^ c.first i ^^^ c.second i = other at *
    have hother : (c.first i = n ∧ other = c.second i) ∨ (c.second i = n ∧ other = c.first i) := by
      rcases hwn with e | e
      · left; refine ⟨e.symm, ?_⟩; rw [← ho, ← e, Nat.xor_self, Nat.zero_xor]
      · right; refine ⟨e.symm, ?_⟩; rw [← ho, ← e]; exact Core.xor_cancel n (c.first i)
    have hom : other ∈ (c.line i).lits := by
      rw [hsplit]; rcases hother with ⟨_, b⟩ | ⟨_, b⟩ <;> simp [b]
    unfold watchLoop at he
    simp only at he
    rw [show n ^^^ (c.line i).lits.getD 0 0 ^^^ (c.line i).lits.getD 1 0 = other from ho] at he
    by_cases h1 : 0 < c.values other
    · rw [if_pos h1] at he
      obtain ⟨a, b, d⟩ := ih h.keep hn he
      exact ⟨a, (Propagated.of_frame (frame_watch c i n) rfl).comp b, d⟩
    · rw [if_neg h1] at he
      split at he
      · next r p hf =>
        obtain ⟨pre, post, e, ek, hpo, hpn, _⟩ := findReplacement_some hf
        have hperm : ∀ lits, lits = (((c.line i).lits.set 0 other).set 1 p).set r n →
            lits.Perm (c.line i).lits := fun lits hl => by
          rw [hl, hsplit, e, ek]
          rw [show 2 + pre.length = pre.length + 1 + 1 by omega]
          simp only [List.set_cons_zero, List.set_cons_succ]
          rw [List.set_append_right _ _ (Nat.le_refl _)]
          simp only [Nat.sub_self, List.set_cons_zero]
          have hP : ∀ x y z : Nat, (x :: y :: (pre ++ z :: post)).Perm (x :: y :: z :: (pre ++ post)) :=
            fun x y z => .cons _ (.cons _ List.perm_middle)
          refine (hP _ _ _).trans (.trans ?_ (hP _ _ _).symm)
          rcases hother with ⟨a, b⟩ | ⟨a, b⟩
          · rw [a, b]
            exact ((List.Perm.swap _ _ _).cons _).trans ((List.Perm.swap _ _ _).trans ((List.Perm.refl _)))
          · rw [a, b]
            exact (List.Perm.swap _ _ _).cons _
        have hmove := h.move e ek ho.symm hpo hpn hperm
        obtain ⟨a, b, d⟩ := ih hmove hn he
        refine ⟨a, (Propagated.of_frame ((frame_setLits hilt (hperm _ rfl)).trans
          (frame_watch _ i p)) rfl).comp b, d⟩
      · next hf =>
        have hnone := findReplacement_none hf
        have hfalse : ∀ l ∈ (c.line i).lits, l = other ∨ c.values l = -1 := fun l hl => by
          rw [hsplit] at hl
          simp only [List.mem_cons] at hl
          rcases hl with hl | hl | hl
          · rcases hother with ⟨a, b⟩ | ⟨a, b⟩
            · right; rw [hl, a]; exact hn
            · left; rw [hl, b]
          · rcases hother with ⟨a, b⟩ | ⟨a, b⟩
            · left; rw [hl, b]
            · right; rw [hl, a]; exact hn
          · rcases hnone l hl with e | e | e
            · exact .inl e
            · right; rw [e]; exact hn
            · right; rcases h.dom l with h' | h' | h' <;> omega
        by_cases h2 : c.values other < 0
        · rw [if_pos h2] at he
          simp only [Prod.mk.injEq] at he
          obtain ⟨rfl, rfl⟩ := he
          have hov : c.values other = -1 := by rcases h.dom other with h' | h' | h' <;> omega
          have hframe : Frame c { c with watches := put c.watches n (c.watches n ++ i :: rest) } :=
            ⟨rfl, rfl, rfl, rfl, rfl, rfl, rfl, rfl, fun _ => rfl, fun _ => .refl _⟩
          refine ⟨{ h with
            watch := fun j w => ?_
            wnodup := fun w => ?_
            rnodup := List.nodup_nil
            rdisj := fun j hj => by cases hj }, ⟨hframe, ⟨[], by simp⟩, fun F A hu => ⟨hu.conv hframe rfl, fun _ => ?_⟩⟩, rfl⟩
          · refine Iff.trans ?_ (h.watch j w)
            show j ∈ put c.watches n (c.watches n ++ i :: rest) w ∨ _ ↔ _
            unfold put
            split
            · next e => subst e; simp
            · next e => simp [e]
          · show (put c.watches n (c.watches n ++ i :: rest) w).Nodup
            unfold put
            split
            · refine List.nodup_append.2 ⟨h.wnodup n, h.rnodup, fun a ha b hb e => ?_⟩
              exact h.rdisj b hb (e ▸ ha)
            · exact h.wnodup w
          · obtain ⟨d, hd, hs⟩ := hu.lines i hlive
            refine ⟨d, hd, fun m hm => hu.trail _ ((h.value_neg m).1 ?_)⟩
            rcases hfalse m ((hs m).1 hm) with e | e
            · rw [e]; exact hov
            · exact e
        · rw [if_neg h2] at he
          have hov : c.values other = 0 := by omega
          have hwa := h.assign hov (h.lbound i hlive other hom)
          have hnv : (c.assign other).values n = -1 := by
            rw [Checker.values_assign]
            split
            · rfl
            · split
              · next e => rw [e] at hn; omega
              · exact hn
          obtain ⟨a, b, d⟩ := ih hwa.keep hnv he
          refine ⟨a, Propagated.comp ⟨frame_assign c other, ⟨[other], rfl⟩, fun F A hu =>
            ⟨⟨(hu.conv (Frame.refl c) rfl).lines, fun x hx => ?_⟩, by simp⟩⟩
              ((Propagated.of_frame (frame_watch _ i n) rfl).comp b), d⟩
          have hx : x ∈ c.trail ++ [other] := hx
          rcases List.mem_append.1 hx with hx | hx
          · exact hu.trail x hx
          · rw [List.mem_singleton.1 hx]
            obtain ⟨d, hd, hs⟩ := hu.lines i hlive
            refine .unit hd ((hs other).2 hom) fun m hm hne => hu.trail _ ((h.value_neg m).1 ?_)
            rcases hfalse m ((hs m).1 hm) with e | e
            · exact absurd e hne
            · exact e

end Verif.Check
