import Verif.Model.Contracts
import Verif.Spec.Storage
/-
Helper lemmas on the storage cache, used by Props/Storage.lean.
-/
namespace Verif
open Spec

/-- The cache agrees with the disk. -/
def Coherent (cached : Bool) (w : RawW) : Prop :=
  cached = true → ∀ k m, w.cache k = some m → m = w.disk k

/-- The calls on a `Storage`, one after the other; the caller goes on after an exception. -/
def runCalls (cached : Bool) : List StCall → R (List Observed)
  | [] => .ret []
  | c :: cs => do
    let r ← Prog.tryElse
      (match c with
        | .load k => Storage.load cached k
        | .store k v => (do Storage.store cached k v; pure none)
        | .delete k => (do Storage.delete cached k; pure none))
      (fun e => pure (Except.error e)) (fun a => pure (Except.ok a))
    let rest ← runCalls cached cs
    pure ((c, r) :: rest)

theorem wp_load {cached : Bool} {k : Key} {w : RawW} (hc : Coherent cached w)
    {Q : Res Exn (Option JVal) → RawW → Prop}
    (hok : ∀ w', w'.disk = w.disk → Coherent cached w' → Q (.ok (w.disk k)) w')
    (herr : ∀ e, e.isFailure → Q (.raised e) w)
    (hcr : ∀ w', w'.disk = w.disk → Q .crashed w') : wp RawKV (Storage.load cached k) Q w := by
  unfold Storage.load
  cases cached with
  | false =>
    simp only [Bool.false_eq_true, if_false]; wpsimp
    refine ⟨hcr _ rfl, ?_, fun e h => herr e h⟩
    rintro a rfl
    exact hok _ rfl hc
  | true =>
    simp only [if_true]; wpsimp
    refine ⟨hcr _ rfl, ?_, fun e h => absurd h (by simp [RawKV])⟩
    intro a ha
    simp only [RawKV] at ha
    subst ha
    simp only [RawKV]
    cases h : w.cache k with
    | some m =>
      simp only [wp_pure]
      rw [hc rfl k m h]
      exact hok _ rfl hc
    | none =>
      wpsimp
      refine ⟨hcr _ rfl, ?_, fun e h => herr e h⟩
      rintro a rfl
      refine ⟨hcr _ rfl, ?_, fun e h => absurd h (by simp)⟩
      intro _ _
      refine hok _ rfl ?_
      intro _ k' m hm
      simp only at hm ⊢
      split at hm
      · next h => subst h; cases hm; rfl
      · exact hc rfl _ _ hm

theorem wp_store {cached : Bool} {k : Key} {v : JVal} {w : RawW} (hc : Coherent cached w)
    {Q : Res Exn Unit → RawW → Prop}
    (hok : ∀ w', w'.disk = w.disk.upd k (some v) → Coherent cached w' → Q (.ok ()) w')
    (herr : ∀ e, e.isFailure → Q (.raised e) w)
    (hcr : ∀ w', w'.disk = w.disk ∨ w'.disk = w.disk.upd k (some v) → Q .crashed w') :
    wp RawKV (Storage.store cached k v) Q w := by
  unfold Storage.store
  wpsimp
  refine ⟨hcr _ (.inl rfl), ?_, fun e h => herr e h⟩
  intro a _
  cases cached with
  | false =>
    simp only [Bool.false_eq_true, if_false, wp_pure]
    exact hok _ rfl (fun h => absurd h (by simp))
  | true =>
    simp only [if_true]; wpsimp
    refine ⟨hcr _ (.inr rfl), ?_, fun e h => absurd h (by simp [RawKV])⟩
    intro _ _
    refine hok _ rfl ?_
    intro _ k' m hm
    simp only [RawKV] at hm ⊢
    split at hm
    · next h => subst h; cases hm; simp
    · next h => rw [Disk.upd_of_ne h]; exact hc rfl _ _ hm

theorem wp_delete {cached : Bool} {k : Key} {w : RawW} (hc : Coherent cached w)
    {Q : Res Exn Unit → RawW → Prop}
    (hok : ∀ w', w'.disk = w.disk.upd k none → Coherent cached w' → Q (.ok ()) w')
    (herr : ∀ e, e.isFailure → Q (.raised e) w)
    (hcr : ∀ w', w'.disk = w.disk ∨ w'.disk = w.disk.upd k none → Q .crashed w') :
    wp RawKV (Storage.delete cached k) Q w := by
  unfold Storage.delete
  wpsimp
  refine ⟨hcr _ (.inl rfl), ?_, fun e h => herr e h⟩
  intro a _
  cases cached with
  | false =>
    simp only [Bool.false_eq_true, if_false, wp_pure]
    exact hok _ rfl (fun h => absurd h (by simp))
  | true =>
    simp only [if_true]; wpsimp
    refine ⟨hcr _ (.inr rfl), ?_, fun e h => absurd h (by simp [RawKV])⟩
    intro _ _
    refine hok _ rfl ?_
    intro _ k' m hm
    simp only [RawKV] at hm ⊢
    split at hm
    · next h => subst h; cases hm; simp
    · next h => rw [Disk.upd_of_ne h]; exact hc rfl _ _ hm

theorem wp_runCalls (cached : Bool) (cs : List StCall) (w : RawW) (hc : Coherent cached w) :
    wp RawKV (runCalls cached cs)
      (fun r _ => ∀ h, r = .ok h → Explains w.disk h ∧ h.map (·.1) = cs) w := by
  induction cs generalizing w with
  | nil => simp [runCalls, Explains]
  | cons c cs ih =>
    have next : ∀ (w' : RawW) (r : Except Exn (Option JVal)), Coherent cached w' →
        (∀ h, Explains w'.disk h → Explains w.disk ((c, r) :: h)) →
        wp RawKV (runCalls cached cs) (andThen
          (fun r _ => ∀ h, r = .ok h → Explains w.disk h ∧ h.map (·.1) = c :: cs)
          (fun rest w'' => wp RawKV (pure ((c, r) :: rest))
            (fun r _ => ∀ h, r = .ok h → Explains w.disk h ∧ h.map (·.1) = c :: cs) w'')) w' := by
      intro w' r hc' hr
      refine wp_mono (ih w' hc') fun res w'' hres => ?_
      cases res with
      | ok h =>
        obtain ⟨h1, h2⟩ := hres h rfl
        intro h' hh'; cases hh'
        exact ⟨hr h h1, by simp [h2]⟩
      | raised e => intro h hh; cases hh
      | crashed => intro h hh; cases hh
    simp only [runCalls, wp_bind, wp_tryElse]
    cases c with
    | load k =>
      refine wp_load hc ?_ ?_ ?_
      · intro w' hd hc'
        simp only [split3_ok, wp_pure, andThen_ok]
        exact next w' _ hc' fun h hh => ⟨rfl, by rw [← hd]; exact hh⟩
      · intro e _; simp only [split3_raised, wp_pure, andThen_ok]
        exact next w _ hc fun h hh => hh
      · intro w' _ ; simp
    | store k v =>
      simp only [wp_bind]
      refine wp_store hc ?_ ?_ ?_
      · intro w' hd hc'
        simp only [andThen_ok, wp_pure, split3_ok]
        exact next w' _ hc' fun h hh => by rw [hd] at hh; exact hh
      · intro e _; simp only [andThen_raised, split3_raised, wp_pure, andThen_ok]
        exact next w _ hc fun h hh => hh
      · intro w' _; simp
    | delete k =>
      simp only [wp_bind]
      refine wp_delete hc ?_ ?_ ?_
      · intro w' hd hc'
        simp only [andThen_ok, wp_pure, split3_ok]
        exact next w' _ hc' fun h hh => by rw [hd] at hh; exact hh
      · intro e _; simp only [andThen_raised, split3_raised, wp_pure, andThen_ok]
        exact next w _ hc fun h hh => hh
      · intro w' _; simp

/-- The events of a raw trace that are not storage access, as library events. -/
def rawOther : List (Event RawSig Exn) → List Ev
  | [] => []
  | ⟨.other o, r⟩ :: t => ⟨o, r⟩ :: rawOther t
  | _ :: t => rawOther t

/-- The events of a library trace that are not storage access. -/
def libOther : List Ev → List Ev
  | [] => []
  | ⟨.load _, _⟩ :: t => libOther t
  | ⟨.store _ _, _⟩ :: t => libOther t
  | ⟨.delete _, _⟩ :: t => libOther t
  | e :: t => e :: libOther t

theorem libOther_other {o : Op} {r : Except Exn o.Ret} {t : List Ev} (h : o.isStorage = false) :
    libOther (⟨o, r⟩ :: t) = ⟨o, r⟩ :: libOther t := by
  cases o <;> first | rfl | cases h

theorem libOther_storage {o : Op} {r : Except Exn o.Ret} {t : List Ev} (h : o.isStorage = true) :
    libOther (⟨o, r⟩ :: t) = libOther t := by
  cases o <;> first | rfl | cases h

theorem libOther_cons (e : Ev) (t : List Ev) : libOther (e :: t) = libOther [e] ++ libOther t := by
  obtain ⟨o, r⟩ := e
  cases h : o.isStorage
  · rw [libOther_other h, libOther_other h]; rfl
  · rw [libOther_storage h, libOther_storage h]; rfl

theorem rawOther_append (t u : List (Event RawSig Exn)) : rawOther (t ++ u) = rawOther t ++ rawOther u := by
  induction t with
  | nil => rfl
  | cons e t ih =>
    obtain ⟨o, r⟩ := e
    cases o <;> simp [rawOther, ih]

theorem noOther_load (cached : Bool) (k : Key) (h : List (Event RawSig Exn)) :
    wp (.hist RawSig Exn) (Storage.load cached k) (fun _ h' => rawOther h' = rawOther h) h := by
  unfold Storage.load
  cases cached
  · simp only [Bool.false_eq_true, if_false]; wpsimp; simp [Sem.hist, rawOther_append, rawOther]
  · simp only [if_true]; wpsimp
    refine ⟨trivial, fun a _ => ?_, fun e _ => by simp [Sem.hist, rawOther_append, rawOther]⟩
    cases a with
    | some m => simp [Sem.hist, rawOther_append, rawOther]
    | none => wpsimp; simp [Sem.hist, rawOther_append, rawOther]

theorem noOther_store (cached : Bool) (k : Key) (v : JVal) (h : List (Event RawSig Exn)) :
    wp (.hist RawSig Exn) (Storage.store cached k v) (fun _ h' => rawOther h' = rawOther h) h := by
  unfold Storage.store
  cases cached <;> simp only [Bool.false_eq_true, if_false, if_true] <;> wpsimp <;>
    simp [Sem.hist, rawOther_append, rawOther]

theorem noOther_delete (cached : Bool) (k : Key) (h : List (Event RawSig Exn)) :
    wp (.hist RawSig Exn) (Storage.delete cached k) (fun _ h' => rawOther h' = rawOther h) h := by
  unfold Storage.delete
  cases cached <;> simp only [Bool.false_eq_true, if_false, if_true] <;> wpsimp <;>
    simp [Sem.hist, rawOther_append, rawOther]

/-- Every interaction carried out by `Storage` is the corresponding interaction with a plain map. -/
theorem impl_spec (cached : Bool) (o : Op) (w : RawW) (h : List (Event RawSig Exn)) (hc : Coherent cached w) :
    wp (RawKV.prod (.hist RawSig Exn)) (Storage.impl cached o) (fun r s =>
      match r with
      | .ok a => Coherent cached s.1 ∧ KV.ok w.disk ⟨o, .ok a⟩ ∧ s.1.disk = KV.next w.disk ⟨o, .ok a⟩ ∧
          rawOther s.2 = rawOther h ++ libOther [⟨o, .ok a⟩]
      | .raised e => Coherent cached s.1 ∧ KV.ok w.disk ⟨o, .error e⟩ ∧ s.1.disk = KV.next w.disk ⟨o, .error e⟩ ∧
          rawOther s.2 = rawOther h ++ libOther [⟨o, .error e⟩]
      | .crashed => rawOther s.2 = rawOther h ∧ (s.1.disk = w.disk ∨ ∃ a, KV.ok w.disk ⟨o, .ok a⟩ ∧
          s.1.disk = KV.next w.disk ⟨o, .ok a⟩ ∧ libOther [⟨o, .ok a⟩] = [])) (w, h) := by
  have other : ∀ o : Op, o.isStorage = false →
      wp (RawKV.prod (.hist RawSig Exn)) (rcall (.other o)) (fun r s =>
      match r with
      | .ok a => Coherent cached s.1 ∧ KV.ok w.disk ⟨o, .ok a⟩ ∧ s.1.disk = KV.next w.disk ⟨o, .ok a⟩ ∧
          rawOther s.2 = rawOther h ++ libOther [⟨o, .ok a⟩]
      | .raised e => Coherent cached s.1 ∧ KV.ok w.disk ⟨o, .error e⟩ ∧ s.1.disk = KV.next w.disk ⟨o, .error e⟩ ∧
          rawOther s.2 = rawOther h ++ libOther [⟨o, .error e⟩]
      | .crashed => rawOther s.2 = rawOther h ∧ (s.1.disk = w.disk ∨ ∃ a, KV.ok w.disk ⟨o, .ok a⟩ ∧
          s.1.disk = KV.next w.disk ⟨o, .ok a⟩ ∧ libOther [⟨o, .ok a⟩] = [])) (w, h) := by
    intro o ho
    wpsimp
    refine ⟨by simp, fun a _ => ?_, fun e _ => ?_⟩ <;>
      refine ⟨hc, KV.ok_other ho, (KV.next_other ho).symm, ?_⟩ <;>
      simp [Sem.prod, Sem.hist, rawOther_append, rawOther, libOther_other ho, libOther]
  cases o
  case load k =>
    refine wp_mono (wp_prod (Q := fun r w' => match r with
      | .ok a => Coherent cached w' ∧ a = w.disk k ∧ w'.disk = w.disk
      | .raised e => Coherent cached w' ∧ w'.disk = w.disk ∧ e.isFailure
      | .crashed => w'.disk = w.disk)
      (wp_load hc (fun w' hd hc' => ⟨hc', rfl, hd⟩) (fun e h => ⟨hc, rfl, h⟩) (fun w' hd => hd))
      (noOther_load cached k h)) ?_
    rintro r s ⟨h1, h2⟩
    cases r with
    | ok a => exact ⟨h1.1, h1.2.1, h1.2.2, h2.trans (List.append_nil _).symm⟩
    | raised e => exact ⟨h1.1, h1.2.2, h1.2.1, h2.trans (List.append_nil _).symm⟩
    | crashed => exact ⟨h2, .inl h1⟩
  case store k v =>
    refine wp_mono (wp_prod (Q := fun r w' => match r with
      | .ok a => Coherent cached w' ∧ w'.disk = w.disk.upd k (some v)
      | .raised e => Coherent cached w' ∧ w'.disk = w.disk ∧ e.isFailure
      | .crashed => w'.disk = w.disk ∨ w'.disk = w.disk.upd k (some v))
      (wp_store hc (fun w' hd hc' => ⟨hc', hd⟩) (fun e h => ⟨hc, rfl, h⟩) (fun w' hd => hd))
      (noOther_store cached k v h)) ?_
    rintro r s ⟨h1, h2⟩
    cases r with
    | ok a => exact ⟨h1.1, trivial, h1.2, h2.trans (List.append_nil _).symm⟩
    | raised e => exact ⟨h1.1, h1.2.2, h1.2.1, h2.trans (List.append_nil _).symm⟩
    | crashed => exact ⟨h2, h1.imp id fun h => ⟨(), trivial, h, rfl⟩⟩
  case delete k =>
    refine wp_mono (wp_prod (Q := fun r w' => match r with
      | .ok a => Coherent cached w' ∧ w'.disk = w.disk.upd k none
      | .raised e => Coherent cached w' ∧ w'.disk = w.disk ∧ e.isFailure
      | .crashed => w'.disk = w.disk ∨ w'.disk = w.disk.upd k none)
      (wp_delete hc (fun w' hd hc' => ⟨hc', hd⟩) (fun e h => ⟨hc, rfl, h⟩) (fun w' hd => hd))
      (noOther_delete cached k h)) ?_
    rintro r s ⟨h1, h2⟩
    cases r with
    | ok a => exact ⟨h1.1, trivial, h1.2, h2.trans (List.append_nil _).symm⟩
    | raised e => exact ⟨h1.1, h1.2.2, h1.2.1, h2.trans (List.append_nil _).symm⟩
    | crashed => exact ⟨h2, h1.imp id fun h => ⟨(), trivial, h, rfl⟩⟩
  all_goals exact other _ rfl

/-- Refinement of a whole program: running it on `Storage` is running it on a plain map. -/
theorem compile_spec (cached : Bool) {α : Type} (p : P α) (w : RawW) (h : List (Event RawSig Exn))
    (hc : Coherent cached w) :
    wp (RawKV.prod (.hist RawSig Exn)) (Storage.compile cached p) (fun r s =>
      (r ≠ .crashed → Coherent cached s.1) ∧
      ∃ u r', Exec p u r' ∧ KV.Runs w.disk u s.1.disk ∧ rawOther s.2 = rawOther h ++ libOther u ∧
        (r ≠ .crashed → r' = r)) (w, h) := by
  induction p generalizing w h with
  | ret a => exact ⟨fun _ => hc, [], _, .ret a, rfl, (List.append_nil _).symm, fun _ => rfl⟩
  | raise e => exact ⟨fun _ => hc, [], _, .raise e, rfl, (List.append_nil _).symm, fun _ => rfl⟩
  | op o k ih =>
    simp only [Storage.compile, wp_tryElse]
    refine wp_mono (impl_spec cached o w h hc) ?_
    rintro r ⟨w', h'⟩ hr
    have step : ∀ x : Except Exn o.Ret, Coherent cached w' → KV.ok w.disk ⟨o, x⟩ → w'.disk = KV.next w.disk ⟨o, x⟩ →
        rawOther h' = rawOther h ++ libOther [⟨o, x⟩] →
        wp (RawKV.prod (.hist RawSig Exn)) (Storage.compile cached (k x)) (fun r s =>
          (r ≠ .crashed → Coherent cached s.1) ∧
          ∃ u r', Exec (.op o k) u r' ∧ KV.Runs w.disk u s.1.disk ∧ rawOther s.2 = rawOther h ++ libOther u ∧
            (r ≠ .crashed → r' = r)) (w', h') := by
      intro x hc' hok hd ho
      refine wp_mono (ih x w' h' hc') ?_
      rintro r s ⟨h1, u, r', he, hruns, hoth, hres⟩
      refine ⟨h1, ⟨o, x⟩ :: u, r', Exec.op (S := LibSig) (o := o) (k := k) x he, ⟨hok, by rw [← hd]; exact hruns⟩, ?_, hres⟩
      rw [hoth, ho, libOther_cons ⟨o, x⟩ u, List.append_assoc]
    cases r with
    | ok a => exact step (.ok a) hr.1 hr.2.1 hr.2.2.1 hr.2.2.2
    | raised e => exact step (.error e) hr.1 hr.2.1 hr.2.2.1 hr.2.2.2
    | crashed =>
      refine ⟨fun hn => absurd rfl hn, ?_⟩
      rcases hr with ⟨ho, hd | ⟨a, hok, hd, hl⟩⟩
      · exact ⟨[], _, .crash o k, hd, ho.trans (List.append_nil _).symm, fun hn => absurd rfl hn⟩
      · obtain ⟨r', u, he, hu⟩ : ∃ r' : Res Exn α, ∃ u, Exec (k (.ok a)) u r' ∧ u = [] := by
          generalize k (.ok a) = q
          cases q with
          | ret a => exact ⟨_, [], .ret a, rfl⟩
          | raise e => exact ⟨_, [], .raise e, rfl⟩
          | op o k => exact ⟨_, [], .crash o k, rfl⟩
        subst hu
        refine ⟨[⟨o, .ok a⟩], r', Exec.op (S := LibSig) (o := o) (k := k) (.ok a) he, ⟨hok, hd⟩, ?_, fun hn => absurd rfl hn⟩
        rw [hl, List.append_nil]; exact ho

end Verif
