import Verif.Model.Contracts
/-
Executions that touch different places in storage do not influence each other.
-/
namespace Verif

/-- The place in storage an interaction accesses. -/
def Op.key : Op → Option Key
  | .load k | .store k _ | .delete k => some k
  | _ => none

/-- Assignments to the fields of the session manager. -/
def Op.setsField : Op → Bool
  | .setBackends _ | .setSync _ => true
  | _ => false

/-- The execution loads, stores or deletes `k`. -/
def Spec.Touches (t : List Ev) (k : Key) : Prop := ∃ e ∈ t, e.1.key = some k

/-- No assignments to fields. -/
def Spec.KeepsFields (t : List Ev) : Prop := ∀ e ∈ t, e.1.setsField = false

/-- No place is touched by both. -/
def Spec.NoSharing (t u : List Ev) : Prop := ∀ k, Touches t k → ¬ Touches u k

/-- Storage and fields are the same. -/
structure Spec.SameState (w v : World) : Prop where
  disk : w.disk = v.disk
  backends : w.backends = v.backends
  sync : w.sync = v.sync

open Spec
namespace Apt

/-- The states agree on the places `K` and on the fields. -/
structure Agree (K : Key → Prop) (w v : World) : Prop where
  disk : ∀ k, K k → w.disk k = v.disk k
  backends : w.backends = v.backends
  sync : w.sync = v.sync

theorem Agree.refl (K : Key → Prop) (w : World) : Agree K w w := ⟨fun _ _ => rfl, rfl, rfl⟩
theorem Agree.symm {K : Key → Prop} {w v : World} (h : Agree K w v) : Agree K v w :=
  ⟨fun k hk => (h.disk k hk).symm, h.backends.symm, h.sync.symm⟩
theorem Agree.trans {K : Key → Prop} {w v u : World} (h : Agree K w v) (h' : Agree K v u) : Agree K w u :=
  ⟨fun k hk => (h.disk k hk).trans (h'.disk k hk), h.backends.trans h'.backends, h.sync.trans h'.sync⟩
theorem Agree.mono {K L : Key → Prop} {w v : World} (h : Agree K w v) (hL : ∀ k, L k → K k) : Agree L w v :=
  ⟨fun k hk => h.disk k (hL k hk), h.backends, h.sync⟩

/-- An interaction works the same in states that agree on what it accesses. -/
theorem step_agree {K : Key → Prop} {w v : World} {e : Ev} (hf : e.1.setsField = false) (hk : ∀ k, e.1.key = some k → K k)
    (ha : Agree K w v) (hok : Lib.ok w e) : Lib.ok v e ∧ Agree K (Lib.next w e) (Lib.next v e) := by
  obtain ⟨h1, h2, h3⟩ := ha
  obtain ⟨o, r⟩ := e
  have hu : ∀ (k : Key) (x : Option JVal), ∀ k', K k' → w.disk.upd k x k' = v.disk.upd k x k' := by
    intro k x k' hk'
    unfold Disk.upd
    split
    · rfl
    · exact h1 k' hk'
  cases o with
  | load k =>
    cases r with
    | ok x => exact ⟨Eq.trans (a := x) hok (h1 k (hk k rfl)), h1, h2, h3⟩
    | error x => exact ⟨hok, h1, h2, h3⟩
  | store k x =>
    cases r with
    | ok y => exact ⟨trivial, hu k (some x), h2, h3⟩
    | error y => exact ⟨hok, h1, h2, h3⟩
  | delete k =>
    cases r with
    | ok y => exact ⟨trivial, hu k none, h2, h3⟩
    | error y => exact ⟨hok, h1, h2, h3⟩
  | getBackends => exact ⟨Eq.trans (a := r) hok (congrArg Except.ok h2), h1, h2, h3⟩
  | getSync => exact ⟨Eq.trans (a := r) hok (congrArg Except.ok h3), h1, h2, h3⟩
  | setBackends | setSync => cases hf
  | _ => cases r <;> exact ⟨hok, h1, h2, h3⟩

/-- An interaction does not change what it does not access. -/
theorem step_other {K : Key → Prop} (w : World) {e : Ev} (hf : e.1.setsField = false) (hk : ∀ k, e.1.key = some k → ¬ K k) :
    Agree K w (Lib.next w e) := by
  obtain ⟨o, r⟩ := e
  have hu : ∀ (k : Key) (x : Option JVal), ¬ K k → ∀ k', K k' → w.disk k' = w.disk.upd k x k' := by
    intro k x hn k' hk'
    rw [Disk.upd_of_ne]
    rintro rfl
    exact hn hk'
  cases o with
  | store k x =>
    cases r with
    | ok y => exact ⟨hu k (some x) (hk k rfl), rfl, rfl⟩
    | error y => exact .refl _ _
  | delete k =>
    cases r with
    | ok y => exact ⟨hu k none (hk k rfl), rfl, rfl⟩
    | error y => exact .refl _ _
  | setBackends | setSync => cases hf
  | _ => cases r <;> exact ⟨fun _ _ => rfl, rfl, rfl⟩

theorem touches_cons {e : Ev} {t : List Ev} {k : Key} (h : Touches t k) : Touches (e :: t) k :=
  let ⟨x, hx, hk⟩ := h; ⟨x, .tail _ hx, hk⟩

/-- An execution works the same in states that agree on what it touches. -/
theorem runs_agree {K : Key → Prop} {t : List Ev} {w w' v : World} (hf : KeepsFields t) (hk : ∀ k, Touches t k → K k)
    (ha : Agree K w v) (hr : Lib.Runs w t w') : ∃ v', Lib.Runs v t v' ∧ Agree K w' v' := by
  induction t generalizing w v with
  | nil => cases hr; exact ⟨v, rfl, ha⟩
  | cons e t ih =>
    obtain ⟨h1, h2⟩ := step_agree (hf e List.mem_cons_self) (fun k hk' => hk k ⟨e, List.mem_cons_self, hk'⟩) ha hr.1
    obtain ⟨v', h3, h4⟩ := ih (fun x hx => hf x (.tail _ hx)) (fun k h => hk k (touches_cons h)) h2 hr.2
    exact ⟨v', ⟨h1, h3⟩, h4⟩

/-- An execution does not change what it does not touch. -/
theorem runs_other {K : Key → Prop} {t : List Ev} {w w' : World} (hf : KeepsFields t) (hk : ∀ k, Touches t k → ¬ K k)
    (hr : Lib.Runs w t w') : Agree K w w' := by
  induction t generalizing w with
  | nil => cases hr; exact .refl _ _
  | cons e t ih =>
    exact (step_other w (hf e List.mem_cons_self) fun k hk' => hk k ⟨e, List.mem_cons_self, hk'⟩).trans
      (ih (fun x hx => hf x (.tail _ hx)) (fun k h => hk k (touches_cons h)) hr.2)

theorem runs_det {t : List Ev} {w w1 w2 : World} (h1 : Lib.Runs w t w1) (h2 : Lib.Runs w t w2) : w1 = w2 := by
  induction t generalizing w with
  | nil => cases h1; cases h2; rfl
  | cons e t ih => exact ih h1.2 h2.2

/-- Fields are constant during such an execution, and `getSync` tells the truth. -/
theorem getSync_of_runs {t : List Ev} {w w' : World} (hf : KeepsFields t) (hr : Lib.Runs w t w') {r : Except Exn Bool}
    (hm : (⟨.getSync, r⟩ : Ev) ∈ t) : r = .ok w.sync := by
  induction t generalizing w with
  | nil => cases hm
  | cons e t ih =>
    rcases List.mem_cons.1 hm with rfl | hm
    · exact hr.1
    · have := ih (fun x hx => hf x (.tail _ hx)) hr.2 hm
      rw [this, ← (step_other (K := fun _ => False) w (hf e List.mem_cons_self) fun _ _ h => h).sync]

theorem apart_symm {t u : List Ev} (h : NoSharing t u) : NoSharing u t := fun k hu ht => h k ht hu

theorem apart_tail {e : Ev} {t u : List Ev} (h : NoSharing (e :: t) u) : NoSharing t u := fun k ht => h k (touches_cons ht)

/-- One of the executions, in a state that agrees with that of all of them on what it touches. -/
theorem alone {ts : List (List Ev)} {t : List Ev} (hs : Shuffle ts t) (hf : ∀ u ∈ ts, KeepsFields u) {w w' : World} (hr : Lib.Runs w t w')
    {pre post : List (List Ev)} {u : List Ev} (hts : ts = pre ++ u :: post) {K : Key → Prop} (hK : ∀ k, Touches u k → K k)
    (ha : ∀ x ∈ pre ++ post, ∀ k, Touches x k → ¬ K k) {v : World} (hv : Agree K w v) :
    ∃ v', Lib.Runs v u v' ∧ Agree K w' v' := by
  induction hs generalizing w v pre post u with
  | nil h =>
    cases hr
    have : u = [] := h u (by rw [hts]; exact List.mem_append_right _ List.mem_cons_self)
    subst this
    exact ⟨v, rfl, hv⟩
  | @cons pre' post' e u' t' hs ih =>
    have hf' : ∀ x ∈ pre' ++ u' :: post', KeepsFields x := by
      intro x hx
      rcases List.mem_append.1 hx with h | h
      · exact hf x (List.mem_append_left _ h)
      · rcases List.mem_cons.1 h with rfl | h
        · exact fun y hy => hf _ (List.mem_append_right _ List.mem_cons_self) y (.tail _ hy)
        · exact hf x (List.mem_append_right _ (.tail _ h))
    have hfe : e.1.setsField = false := hf (e :: u') (List.mem_append_right _ List.mem_cons_self) e List.mem_cons_self
    -- the step of another execution
    have other : ∀ pre1 post1, pre' ++ u' :: post' = pre1 ++ u :: post1 → (∀ k, e.1.key = some k → ¬ K k) →
        (∀ x ∈ pre1 ++ post1, ∀ k, Touches x k → ¬ K k) → ∃ v', Lib.Runs v u v' ∧ Agree K w' v' := by
      intro pre1 post1 heq he hx
      exact ih hf' hr.2 heq hK hx ((step_other w hfe he).symm.trans hv)
    rcases List.append_eq_append_iff.1 hts with ⟨as, rfl, h2⟩ | ⟨bs, rfl, h2⟩
    · cases as with
      | nil =>
        cases h2
        obtain ⟨h3, h4⟩ := step_agree hfe (fun k hk => hK k ⟨e, List.mem_cons_self, hk⟩) hv hr.1
        have ha' : ∀ x ∈ pre' ++ post', ∀ k, Touches x k → ¬ K k := by simpa using ha
        obtain ⟨v', h5, h6⟩ := ih hf' hr.2 rfl (fun k hk => hK k (touches_cons hk)) ha' h4
        exact ⟨v', ⟨h3, h5⟩, h6⟩
      | cons a as =>
        cases h2
        refine other (pre' ++ u' :: as) post (by simp) (fun k hk => ha (e :: u') (by simp) k ⟨e, List.mem_cons_self, hk⟩) ?_
        intro x hx k hk
        have hx' : x = u' ∨ x ∈ (pre' ++ (e :: u') :: as) ++ post := by
          simp only [List.mem_append, List.mem_cons] at hx ⊢
          rcases hx with (h | h | h) | h <;> simp [h]
        rcases hx' with rfl | h
        · exact ha (e :: x) (by simp) k (touches_cons hk)
        · exact ha x h k hk
    · cases bs with
      | nil =>
        cases h2
        obtain ⟨h3, h4⟩ := step_agree hfe (fun k hk => hK k ⟨e, List.mem_cons_self, hk⟩) hv hr.1
        have ha' : ∀ x ∈ pre ++ post', ∀ k, Touches x k → ¬ K k := by simpa using ha
        obtain ⟨v', h5, h6⟩ := ih (by simpa using hf') hr.2 (by simp) (fun k hk => hK k (touches_cons hk)) ha' h4
        exact ⟨v', ⟨h3, h5⟩, h6⟩
      | cons b bs =>
        cases h2
        refine other pre (bs ++ u' :: post') (by simp) (fun k hk => ha (e :: u') (by simp) k ⟨e, List.mem_cons_self, hk⟩) ?_
        intro x hx k hk
        have hx' : x = u' ∨ x ∈ pre ++ (bs ++ (e :: u') :: post') := by
          simp only [List.mem_append, List.mem_cons] at hx ⊢
          rcases hx with h | h | h | h <;> simp [h]
        rcases hx' with rfl | h
        · exact ha (e :: x) (by simp) k (touches_cons hk)
        · exact ha x h k hk

/-- What can run alone can run interleaved. -/
theorem together {ts : List (List Ev)} {t : List Ev} (hs : Shuffle ts t) (hf : ∀ u ∈ ts, KeepsFields u) (hp : ts.Pairwise NoSharing)
    {w : World} (hr : ∀ u ∈ ts, ∃ w', Lib.Runs w u w') : ∃ w', Lib.Runs w t w' := by
  induction hs generalizing w with
  | nil => exact ⟨w, rfl⟩
  | @cons pre post e u t hs ih =>
    have hfe := hf (e :: u) (by simp)
    obtain ⟨h1, h2, h3⟩ := List.pairwise_append.1 hp
    obtain ⟨h4, h5⟩ := List.pairwise_cons.1 h2
    have hothers : ∀ x ∈ pre ++ post, NoSharing (e :: u) x := by
      intro x hx
      rcases List.mem_append.1 hx with h | h
      · exact apart_symm (h3 x h (e :: u) List.mem_cons_self)
      · exact h4 x h
    obtain ⟨w1, hw1⟩ := hr (e :: u) (by simp)
    have hx : ∀ x, x ∈ pre ++ post → x ∈ pre ++ (e :: u) :: post := fun x h => by
      rcases List.mem_append.1 h with h | h
      · exact List.mem_append_left _ h
      · exact List.mem_append_right _ (.tail _ h)
    have hor : ∀ x ∈ pre ++ u :: post, x = u ∨ x ∈ pre ++ post := fun x h => by
      rcases List.mem_append.1 h with h | h
      · exact .inr (List.mem_append_left _ h)
      · rcases List.mem_cons.1 h with h | h
        · exact .inl h
        · exact .inr (List.mem_append_right _ h)
    have g1 : ∀ x ∈ pre ++ u :: post, KeepsFields x := by
      intro x h
      rcases hor x h with rfl | h
      · exact fun y hy => hfe y (.tail _ hy)
      · exact hf x (hx x h)
    have g2 : (pre ++ u :: post).Pairwise NoSharing := by
      refine List.pairwise_append.2 ⟨h1, List.pairwise_cons.2 ⟨fun x h => apart_tail (h4 x h), h5⟩, fun x hxp y hy => ?_⟩
      rcases List.mem_cons.1 hy with rfl | hy
      · exact apart_symm (apart_tail (apart_symm (h3 x hxp (e :: y) List.mem_cons_self)))
      · exact h3 x hxp y (.tail _ hy)
    have g3 : ∀ x ∈ pre ++ u :: post, ∃ w', Lib.Runs (Lib.next w e) x w' := by
      intro x h
      rcases hor x h with rfl | h
      · exact ⟨w1, hw1.2⟩
      · obtain ⟨v, hv⟩ := hr x (hx x h)
        have hag : Agree (Touches x) w (Lib.next w e) :=
          step_other w (hfe e List.mem_cons_self) fun k hk => hothers x h k ⟨e, List.mem_cons_self, hk⟩
        obtain ⟨v', hv', _⟩ := runs_agree (hf x (hx x h)) (fun _ h => h) hag hv
        exact ⟨v', hv'⟩
    obtain ⟨w', hw'⟩ := ih g1 g2 g3
    exact ⟨w', hw1.1, hw'⟩

theorem keeps_of_shuffle {ts : List (List Ev)} {t : List Ev} (hs : Shuffle ts t) (hf : ∀ u ∈ ts, KeepsFields u) : KeepsFields t :=
  fun e he => let ⟨u, hu, hm⟩ := (hs.mem_iff e).1 he; hf u hu e hm

theorem touches_of_shuffle {ts : List (List Ev)} {t : List Ev} (hs : Shuffle ts t) {k : Key} : Touches t k ↔ ∃ u ∈ ts, Touches u k := by
  constructor
  · rintro ⟨e, he, hk⟩
    obtain ⟨u, hu, hm⟩ := (hs.mem_iff e).1 he
    exact ⟨u, hu, e, hm, hk⟩
  · rintro ⟨u, hu, e, hm, hk⟩
    exact ⟨e, (hs.mem_iff e).2 ⟨u, hu, hm⟩, hk⟩

/-- Each of the executions behaves as if it were alone. -/
theorem as_alone {ts : List (List Ev)} {t : List Ev} (hs : Shuffle ts t) (hf : ∀ u ∈ ts, KeepsFields u) (hp : ts.Pairwise NoSharing)
    {w w' : World} (hr : Lib.Runs w t w') {u : List Ev} (hu : u ∈ ts) : ∃ v, Lib.Runs w u v ∧ Agree (Touches u) w' v := by
  obtain ⟨pre, post, rfl⟩ := List.append_of_mem hu
  obtain ⟨_, h2, h3⟩ := List.pairwise_append.1 hp
  refine alone hs hf hr rfl (fun _ h => h) ?_ (.refl _ _)
  intro x hx k hk hk'
  rcases List.mem_append.1 hx with h | h
  · exact h3 x h u List.mem_cons_self k hk hk'
  · exact (List.pairwise_cons.1 h2).1 x h k hk' hk

/-- All interleavings are equivalent. -/
theorem any_order {ts ts' : List (List Ev)} {t t' : List Ev} (hperm : ts'.Perm ts) (hs : Shuffle ts t) (hs' : Shuffle ts' t')
    (hf : ∀ u ∈ ts, KeepsFields u) (hp : ts.Pairwise NoSharing) {w w' : World} (hr : Lib.Runs w t w') :
    ∃ w'', Lib.Runs w t' w'' ∧ SameState w'' w' := by
  have hf' : ∀ u ∈ ts', KeepsFields u := fun u hu => hf u (hperm.mem_iff.1 hu)
  have hp' : ts'.Pairwise NoSharing := (hperm.pairwise_iff fun h => apart_symm h).2 hp
  obtain ⟨w'', hr'⟩ := together hs' hf' hp' (w := w) fun u hu => (as_alone hs hf hp hr (hperm.mem_iff.1 hu)).imp fun _ h => h.1
  refine ⟨w'', hr', ?_⟩
  have g1 := runs_other (K := fun _ => False) (keeps_of_shuffle hs hf) (fun _ _ h => h) hr
  have g2 := runs_other (K := fun _ => False) (keeps_of_shuffle hs' hf') (fun _ _ h => h) hr'
  refine ⟨funext fun k => ?_, g2.backends.symm.trans g1.backends, g2.sync.symm.trans g1.sync⟩
  by_cases hk : ∃ u ∈ ts, Touches u k
  · obtain ⟨u, hu, hk⟩ := hk
    obtain ⟨v, h1, h2⟩ := as_alone hs hf hp hr hu
    obtain ⟨v', h3, h4⟩ := as_alone hs' hf' hp' hr' (hperm.mem_iff.2 hu)
    have := runs_det h1 h3
    subst this
    rw [h2.disk k hk, h4.disk k hk]
  · have n1 : ¬ Touches t k := fun h => hk ((touches_of_shuffle hs).1 h)
    have n2 : ¬ Touches t' k := fun h => by
      obtain ⟨u, hu, h⟩ := (touches_of_shuffle hs').1 h
      exact hk ⟨u, hperm.mem_iff.1 hu, h⟩
    have e1 := (runs_other (K := (· = k)) (keeps_of_shuffle hs hf) (fun k' h h' => n1 (h' ▸ h)) hr).disk k rfl
    have e2 := (runs_other (K := (· = k)) (keeps_of_shuffle hs' hf') (fun k' h h' => n2 (h' ▸ h)) hr').disk k rfl
    exact e2.symm.trans e1

/-- Running one after the other is an interleaving. -/
theorem shuffle_flatten (ts : List (List Ev)) : Shuffle ts ts.flatten := by
  induction ts with
  | nil => exact .nil nofun
  | cons u ts ih =>
    induction u with
    | nil =>
      have key : ∀ {ts : List (List Ev)} {t : List Ev}, Shuffle ts t → Shuffle ([] :: ts) t := by
        intro ts t h
        induction h with
        | nil h => exact .nil fun x hx => (List.mem_cons.1 hx).elim id (h x)
        | @cons pre post e u t _ ih => exact .cons (pre := [] :: pre) ih
      exact key ih
    | cons e u ih' => exact .cons (pre := []) ih'

end Apt
end Verif
