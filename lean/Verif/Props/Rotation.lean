import Verif.Proofs.PresLib
import Verif.Proofs.TrustTrace
import Verif.Proofs.Sample
/-
C59, C60: the rotation of signed pre keys.
-/
namespace Verif
namespace Spec

/-- The seconds passed in an interaction of the rotation task: sleeping is the only thing that takes time. -/
def pause : Ev → Int
  | ⟨.sleep s, .ok _⟩ => s
  | _ => 0

/-- The seconds passed. -/
def slept (t : List Ev) : Int := (t.map pause).sum

/-- The interaction failed with `BundleUploadFailed`. -/
def uploadFailed : Ev → Bool
  | ⟨_, .error .bundleUploadFailed⟩ => true
  | _ => false

/-- The number of failed bundle uploads. -/
def failures (t : List Ev) : Int := (t.countP uploadFailed : Nat)

/-- The age of the signed pre key after a check that found age `age`. -/
def ageAfter (period age : Int) : Int := if period < age then 0 else age

/-- The signed pre key of `ns` was last checked, and found to be `age` seconds old, just before `v`; its backend was loaded ever since. -/
def LastCheck (ns : Ns) (t : List Ev) (age : Int) (v : List Ev) : Prop :=
  (∃ u, t = u ++ ⟨.spkAge ns, .ok age⟩ :: v) ∧ (∀ r, (⟨.spkAge ns, r⟩ : Ev) ∉ v) ∧ ∀ bs, (⟨.getBackends, .ok bs⟩ : Ev) ∈ v → ns ∈ bs

/-- The signed pre key of `ns` was rotated, and no bundle has been uploaded since; `v` is what happened since. -/
def PendingSince (ns : Ns) (u v : List Ev) : Prop :=
  (∃ u1, u = u1 ++ ⟨.rotateSpk ns, .ok ()⟩ :: v) ∧ ∀ b, (⟨.uploadBundle b, .ok ()⟩ : Ev) ∉ v

/-- What is done next, after `u`, to upload the bundle of `ns`: get the bundle, upload the bundle just obtained, sleep if this has just
failed; the time to sleep is given by the number of failed uploads so far. -/
def UploadStep (M : Mgr) (ns : Ns) (delay : Nat → Int) (v u : List Ev) (o : Op) : Prop :=
  (o = .getBundle ns M.ownJid M.ownDev ∧ (v = [] ∨ ∃ s, u.getLast? = some ⟨.sleep s, .ok ()⟩)) ∨
  (∃ b, u.getLast? = some ⟨.getBundle ns M.ownJid M.ownDev, .ok b⟩ ∧ o = .uploadBundle b) ∨
  ((∃ x, u.getLast? = some x ∧ uploadFailed x = true) ∧ o = .sleep (delay (v.countP uploadFailed)))

end Spec
open Spec SM

namespace SM
variable {φ : Ev → Prop} {M : Mgr} {period : Int} {ns : Ns} {h : List Ev}

/-- Signed pre keys are rotated right after a check that finds them too old, and only then. -/
def RotateWhenDue (period : Int) (u : List Ev) (e : Ev) : Prop :=
  ∀ ns, e.1 = .rotateSpk ns ↔ ∃ u' age, u = u' ++ [⟨.spkAge ns, .ok age⟩] ∧ period < age

/-- Both parts of C59 and C60 about the order of interactions. -/
structure RotationOrder (M : Mgr) (period : Int) (delay : Nat → Int) (u : List Ev) (e : Ev) : Prop where
  due : RotateWhenDue period u e
  upload : ∀ ns v, PendingSince ns u v → UploadStep M ns delay v u e.1

theorem pending_snoc {v : List Ev} {e : Ev} : PendingSince ns (h ++ [e]) v ↔
    (e = ⟨.rotateSpk ns, .ok ()⟩ ∧ v = []) ∨ ∃ v', v = v' ++ [e] ∧ PendingSince ns h v' ∧ ∀ b, e ≠ ⟨.uploadBundle b, .ok ()⟩ := by
  unfold PendingSince
  rcases List.eq_nil_or_concat v with rfl | ⟨v', x, rfl⟩
  · constructor
    · rintro ⟨⟨u1, h1⟩, -⟩
      have := List.append_inj_right' h1 rfl
      simp only [List.cons.injEq, and_true] at this
      exact .inl ⟨this, rfl⟩
    · rintro (⟨rfl, -⟩ | ⟨v', h1, -⟩)
      · exact ⟨⟨h, rfl⟩, by simp⟩
      · cases v' <;> cases h1
  · rw [List.concat_eq_append]
    constructor
    · rintro ⟨⟨u1, h1⟩, h2⟩
      rw [show u1 ++ ⟨Op.rotateSpk ns, .ok ()⟩ :: (v' ++ [x]) = (u1 ++ ⟨Op.rotateSpk ns, .ok ()⟩ :: v') ++ [x] by simp] at h1
      replace ⟨h1, h3⟩ := List.append_inj' h1 rfl
      simp only [List.cons.injEq, and_true] at h3
      subst h3
      exact .inr ⟨v', rfl, ⟨⟨u1, h1⟩, fun b hb => h2 b (by simp [hb])⟩, fun b hb => h2 b (by simp [hb])⟩
    · rintro (⟨-, h1⟩ | ⟨v2, h1, ⟨⟨u1, rfl⟩, h2⟩, h3⟩)
      · cases v' <;> cases h1
      · obtain ⟨rfl, h4⟩ := List.append_inj' h1 rfl
        simp only [List.cons.injEq, and_true] at h4
        subst h4
        refine ⟨⟨u1, by simp⟩, fun b hb => ?_⟩
        rw [List.mem_append, List.mem_singleton] at hb
        exact hb.elim (h2 b) fun hb => h3 b hb.symm

/-- No upload is pending, and no check has just found a key to be too old. -/
structure Calm (M : Mgr) (period : Int) (h : List Ev) : Prop where
  ordered : Guarded (RotationOrder M period fun _ => 60) h
  closed : ∀ ns v, ¬ PendingSince ns h v
  notDue : ∀ ns age u, h = u ++ [⟨.spkAge ns, .ok age⟩] → age ≤ period

/-- An upload is pending for `ns`. -/
structure Busy (M : Mgr) (period : Int) (ns : Ns) (h : List Ev) : Prop where
  ordered : Guarded (RotationOrder M period fun _ => 60) h
  only : ∀ ns' v, PendingSince ns' h v → ns' = ns
  notDue : ∀ ns age u, h = u ++ [⟨.spkAge ns, .ok age⟩] → False

theorem snoc_inj {u u' : List Ev} {e e' : Ev} (h : u ++ [e] = u' ++ [e']) : u = u' ∧ e = e' := by
  obtain ⟨h1, h2⟩ := List.append_inj' h rfl
  simp only [List.cons.injEq, and_true] at h2
  exact ⟨h1, h2⟩

theorem Calm.next {o : Op} {r : Except Exn o.Ret} (hc : Calm M period h) (ho : ∀ ns, o ≠ .rotateSpk ns)
    (hd : ∀ ns age, (⟨o, r⟩ : Ev) = ⟨.spkAge ns, .ok age⟩ → age ≤ period) : Calm M period (h ++ [⟨o, r⟩]) := by
  refine ⟨guarded_snoc.2 ⟨hc.ordered, fun ns => ⟨fun h' => absurd h' (ho ns), ?_⟩, fun ns v hp => absurd hp (hc.closed ns v)⟩, fun ns v hp => ?_, fun ns age u hu => ?_⟩
  · rintro ⟨u', age, rfl, hlt⟩
    have := hc.notDue ns age u' rfl
    omega
  · rcases pending_snoc.1 hp with ⟨h1, -⟩ | ⟨v', -, h2, -⟩
    · exact ho ns (congrArg Sigma.fst h1)
    · exact hc.closed ns v' h2
  · exact hd ns age (snoc_inj hu).2

theorem Busy.next {o : Op} {r : Except Exn o.Ret} (hc : Busy M period ns h) (ho : ∀ ns, o ≠ .rotateSpk ns) (hd : ∀ ns, o ≠ .spkAge ns)
    (hs : ∀ v, PendingSince ns h v → UploadStep M ns (fun _ => 60) v h o) : Busy M period ns (h ++ [⟨o, r⟩]) := by
  refine ⟨guarded_snoc.2 ⟨hc.ordered, fun ns => ⟨fun h' => absurd h' (ho ns), ?_⟩, fun ns' v hp => ?_⟩, fun ns' v hp => ?_, fun ns age u hu => ?_⟩
  · rintro ⟨u', age, rfl, hlt⟩
    exact (hc.notDue ns age u' rfl).elim
  · obtain rfl := hc.only ns' v hp
    exact hs v hp
  · rcases pending_snoc.1 hp with ⟨h1, -⟩ | ⟨v', -, h2, -⟩
    · exact absurd (congrArg Sigma.fst h1) (ho ns')
    · exact hc.only ns' v' h2
  · exact hd ns (congrArg Sigma.fst (snoc_inj hu).2)

theorem Busy.done {b : Bundle} (hc : Busy M period ns (h ++ [⟨.uploadBundle b, .ok ()⟩])) : Calm M period (h ++ [⟨.uploadBundle b, .ok ()⟩]) := by
  refine ⟨hc.ordered, fun ns' v hp => ?_, fun ns age u hu => (hc.notDue ns age u hu).elim⟩
  rcases pending_snoc.1 hp with ⟨h1, -⟩ | ⟨v', -, -, h3⟩
  · cases h1
  · exact h3 b rfl

theorem order_retry (fuel : Nat) (h : List Ev) (hb : Busy M period ns h)
    (hg : ∀ v, PendingSince ns h v → v = [] ∨ ∃ s, h.getLast? = some ⟨.sleep s, .ok ()⟩) :
    wp (Rec φ) (retryUpload M ns fuel) (ends (fun _ h' => Calm M period h') fun _ h' => Guarded (RotationOrder M period fun _ => 60) h') h := by
  induction fuel generalizing h with
  | zero => exact hb.ordered
  | succ fuel ih =>
    unfold retryUpload
    rw [wp_tryElse]
    have fail : ∀ h' x, Busy M period ns (h' ++ [x]) → (uploadFailed x = true) →
        wp (Rec φ) (call (.sleep 60) >>= fun _ => retryUpload M ns fuel) (ends (fun _ h' => Calm M period h') fun _ h' => Guarded (RotationOrder M period fun _ => 60) h') (h' ++ [x]) := by
      intro h' x hb hx
      have step : ∀ r, Busy M period ns (h' ++ [x] ++ [⟨.sleep 60, r⟩]) := fun r =>
        hb.next nofun nofun fun v hv => .inr (.inr ⟨⟨x, by simp, hx⟩, rfl⟩)
      rw [ends_bind]
      refine Rec.call hb.ordered (fun _ _ => ih _ (step _) fun v _ => .inr ⟨60, by simp⟩) fun e _ => (step _).ordered
    refine wp_mono (Q := ends (fun _ h' => Calm M period h')
      fun x h' => Guarded (RotationOrder M period fun _ => 60) h' ∧
        (x = some .bundleUploadFailed → ∃ h1 y, h' = h1 ++ [y] ∧ uploadFailed y = true ∧ Busy M period ns h')) ?_ ?_
    · rw [ends_bind]
      have s1 : ∀ r, Busy M period ns (h ++ [⟨.getBundle ns M.ownJid M.ownDev, r⟩]) := fun r =>
        hb.next nofun nofun fun v hv => .inl ⟨rfl, hg v hv⟩
      refine Rec.call ⟨hb.ordered, nofun⟩ (fun b _ => ?_) fun e _ => ⟨(s1 _).ordered, ?_⟩
      · have s2 : ∀ r, Busy M period ns (h ++ [⟨.getBundle ns M.ownJid M.ownDev, .ok b⟩] ++ [⟨.uploadBundle b, r⟩]) := fun r =>
          (s1 _).next nofun nofun fun v hv => .inr (.inl ⟨b, by simp, rfl⟩)
        refine Rec.call ⟨(s1 _).ordered, nofun⟩ (fun _ _ => (s2 _).done) fun e _ => ⟨(s2 _).ordered, ?_⟩
        rintro ⟨⟩
        exact ⟨_, _, rfl, rfl, s2 _⟩
      · rintro ⟨⟩
        exact ⟨_, _, rfl, rfl, s1 _⟩
    · intro r h' hr
      cases r with
      | ok a => exact hr
      | crashed => exact hr.1
      | raised e =>
        simp only [split3]
        split
        · subst e
          obtain ⟨h1, y, rfl, hy, hb'⟩ := hr.2 rfl
          exact fail h1 y hb' hy
        · exact hr.1

theorem order_round (fuel : Nat) (h : List Ev) (hc : Calm M period h) :
    wp (Rec φ) (rotationRound M period fuel) (ends (fun _ h' => Calm M period h') fun _ h' => Guarded (RotationOrder M period fun _ => 60) h') h := by
  unfold rotationRound
  rw [ends_bind]
  refine Rec.call hc.ordered (fun bs _ => ?_) fun e _ => (hc.next (by intro ns h; cases h) (fun ns age h => by cases h)).ordered
  rw [ends_bind]
  refine ends_fold (fun _ _ _ h' => Calm M period h') (hc.next (by intro ns h; cases h) fun ns age h => by cases h) ?_ fun next h' hc => ?_
  · intro done ns rest next h _ hc
    rw [ends_bind]
    refine Rec.call hc.ordered (fun age _ => ?_) fun e _ => (hc.next (by intro ns h; cases h) (fun ns age h => by cases h)).ordered
    dsimp only
    split
    · rename_i hlt
      have due : ∀ r, RotationOrder M period (fun _ => 60) (h ++ [⟨.spkAge ns, .ok age⟩]) ⟨.rotateSpk ns, r⟩ := by
        refine fun r => ⟨fun ns' => ⟨?_, ?_⟩, fun ns' v hp => ?_⟩
        · rintro ⟨⟩
          exact ⟨h, age, rfl, by omega⟩
        · rintro ⟨u', age', h1, -⟩
          have := (snoc_inj h1).2
          cases this
          rfl
        · rcases pending_snoc.1 hp with ⟨h1, -⟩ | ⟨v', -, h2, -⟩
          · cases h1
          · exact absurd h2 (hc.closed _ _)
      have hg : Guarded (RotationOrder M period fun _ => 60) (h ++ [⟨.spkAge ns, .ok age⟩]) := by
        refine guarded_snoc.2 ⟨hc.ordered, fun ns' => ⟨nofun, ?_⟩, fun ns v hp => absurd hp (hc.closed ns v)⟩
        rintro ⟨u', age, rfl, hlt⟩
        have := hc.notDue ns' age u' rfl
        omega
      rw [ends_bind]
      refine Rec.call hg (fun _ _ => ?_) fun e _ => guarded_snoc.2 ⟨hg, due _⟩
      rw [ends_bind]
      have pend : ∀ ns' v, PendingSince ns' (h ++ [⟨.spkAge ns, .ok age⟩] ++ [⟨.rotateSpk ns, .ok ()⟩]) v → ns' = ns ∧ v = [] := by
        intro ns' v hp
        rcases pending_snoc.1 hp with ⟨h1, h2⟩ | ⟨v', -, h2, -⟩
        · cases h1; exact ⟨rfl, h2⟩
        · rcases pending_snoc.1 h2 with ⟨h1, -⟩ | ⟨v', -, h2, -⟩
          · cases h1
          · exact absurd h2 (hc.closed _ _)
      refine ends_mono (order_retry fuel _ ⟨guarded_snoc.2 ⟨hg, due _⟩, fun ns' v hp => (pend ns' v hp).1, ?_⟩ fun v hp => .inl (pend _ v hp).2)
        (fun _ h' hc => hc) fun _ _ h => h
      intro ns' age' u hu
      cases (snoc_inj hu).2
    · refine hc.next nofun fun ns' age' heq => ?_
      cases heq
      exact Int.not_lt.1 fun h' => ‹¬ period - age < 0› (by omega)
  · exact Rec.call hc.ordered (fun _ _ => hc.next (by intro ns h; cases h) fun ns age h => by cases h) fun e _ => (hc.next (by intro ns h; cases h) fun ns age h => by cases h).ordered

theorem order_rotation (fuel rounds : Nat) (h : List Ev) (hc : Calm M period h) :
    wp (Rec φ) (manageRotation M period fuel rounds) (ends (fun _ h' => Calm M period h') fun _ h' => Guarded (RotationOrder M period fun _ => 60) h') h := by
  induction rounds generalizing h with
  | zero => exact hc.ordered
  | succ n ih =>
    unfold manageRotation
    rw [ends_bind]
    exact ends_mono (order_round fuel h hc) (fun _ h' hc => ih h' hc) fun _ _ h => h

theorem rotation_order (M : Mgr) (period : Int) (fuel rounds : Nat) (t : List Ev) (r : Res Exn Unit) (he : Exec (manageRotation M period fuel rounds) t r) :
    Guarded (RotationOrder M period fun _ => 60) t := by
  have := Rec.sound (φ := fun _ => True) (order_rotation fuel rounds [] ⟨guarded_nil, fun ns v hp => ?_, fun ns age u hu => ?_⟩) he fun _ _ => trivial
  · cases r with
    | ok a => exact this.ordered
    | raised e => exact this
    | crashed => exact this
  · obtain ⟨u1, h1⟩ := hp.1
    cases u1 <;> cases h1
  · cases u <;> cases hu

/-! ### Time -/

/-- `P` holds of what has happened since the last check of the key of `ns`. -/
def Last (ns : Ns) (h : List Ev) (P : Int → List Ev → Prop) : Prop := ∀ age v, LastCheck ns h age v → P age v

theorem last_snoc {P P' : Int → List Ev → Prop} {e : Ev} (he : e.1 ≠ .spkAge ns) (hl : Last ns h P)
    (hp : ∀ age v, (∀ bs, (⟨.getBackends, .ok bs⟩ : Ev) ∈ v → ns ∈ bs) → P age v → P' age (v ++ [e])) : Last ns (h ++ [e]) P' := by
  rintro age v ⟨⟨u, hu⟩, h2, h3⟩
  rcases List.eq_nil_or_concat v with rfl | ⟨v', x, rfl⟩
  · cases (snoc_inj hu).2
    exact absurd rfl he
  · rw [List.concat_eq_append] at *
    rw [show u ++ ⟨Op.spkAge ns, .ok age⟩ :: (v' ++ [x]) = (u ++ ⟨Op.spkAge ns, .ok age⟩ :: v') ++ [x] by simp] at hu
    obtain ⟨h1, rfl⟩ := snoc_inj hu
    have h3' : ∀ bs, (⟨.getBackends, .ok bs⟩ : Ev) ∈ v' → ns ∈ bs := fun bs hb => h3 bs (by simp [hb])
    exact hp age v' h3' (hl age v' ⟨⟨u, h1⟩, fun r hr => h2 r (by simp [hr]), h3'⟩)

theorem last_check {P : Int → List Ev → Prop} {r : Except Exn Int} (hp : ∀ age, r = .ok age → P age []) :
    Last ns (h ++ [⟨.spkAge ns, r⟩]) P := by
  rintro age v ⟨⟨u, hu⟩, h2, h3⟩
  rcases List.eq_nil_or_concat v with rfl | ⟨v', x, rfl⟩
  · cases (snoc_inj hu).2
    exact hp age rfl
  · rw [List.concat_eq_append] at *
    rw [show u ++ ⟨Op.spkAge ns, .ok age⟩ :: (v' ++ [x]) = (u ++ ⟨Op.spkAge ns, .ok age⟩ :: v') ++ [x] by simp] at hu
    obtain ⟨h1, rfl⟩ := snoc_inj hu
    exact absurd (by simp) (h2 r)

/-- `P` is not affected by interactions that take no time, nor by a failed upload followed by a minute of sleep. -/
structure Slack (P : Int → List Ev → Prop) : Prop where
  quiet : ∀ age v e, pause e = 0 → P age v → P age (v ++ [e])
  retry : ∀ age v e r, uploadFailed e = true → pause e = 0 → P age v → P age (v ++ [e] ++ [⟨.sleep 60, r⟩])

theorem slept_snoc (v : List Ev) (e : Ev) : slept (v ++ [e]) = slept v + pause e := by simp [slept]
theorem failures_snoc (v : List Ev) (e : Ev) : failures (v ++ [e]) = failures v + if uploadFailed e = true then 1 else 0 := by
  simp only [failures, List.countP_append, List.countP_singleton]
  split <;> simp
theorem failures_le (v : List Ev) (e : Ev) : failures v ≤ failures (v ++ [e]) := by
  rw [failures_snoc]; split <;> omega

theorem time_retry {P : Int → List Ev → Prop} (hP : Slack P) (ns' : Ns) (fuel : Nat) (h : List Ev) (hl : Last ns h P) :
    wp (Rec φ) (retryUpload M ns' fuel) (fun _ h' => Last ns h' P) h := by
  induction fuel generalizing h with
  | zero => exact hl
  | succ fuel ih =>
    unfold retryUpload
    rw [wp_tryElse]
    have quiet : ∀ (h : List Ev) (e : Ev), e.1 ≠ .spkAge ns → pause e = 0 → Last ns h P → Last ns (h ++ [e]) P :=
      fun h e h1 h2 h3 => last_snoc h1 h3 fun age v _ => hP.quiet age v e h2
    have failing : ∀ (h : List Ev) (o : Op) (e : Exn), o ≠ .spkAge ns → Last ns h P → some e = some .bundleUploadFailed →
        Last ns (h ++ [⟨o, .error e⟩]) fun age v => ∃ v0 e, v = v0 ++ [e] ∧ uploadFailed e = true ∧ pause e = 0 ∧ P age v0 := by
      rintro h o e h1 h3 ⟨⟩
      exact last_snoc h1 h3 fun age v _ hp => ⟨v, _, rfl, rfl, by cases o <;> rfl, hp⟩
    refine wp_mono (Q := ends (fun _ h' => Last ns h' P)
      fun x h' => Last ns h' P ∧ (x = some .bundleUploadFailed → Last ns h' fun age v => ∃ v0 e, v = v0 ++ [e] ∧ uploadFailed e = true ∧ pause e = 0 ∧ P age v0)) ?_ ?_
    · rw [ends_bind]
      refine Rec.call ⟨hl, nofun⟩ (fun b _ => ?_) fun e _ => ⟨quiet _ _ nofun rfl hl, failing _ _ _ nofun hl⟩
      have hl' : Last ns (h ++ [⟨.getBundle ns' M.ownJid M.ownDev, .ok b⟩]) P := quiet _ _ nofun rfl hl
      exact Rec.call ⟨hl', nofun⟩ (fun _ _ => quiet _ _ nofun rfl hl') fun e _ => ⟨quiet _ _ nofun rfl hl', failing _ _ _ nofun hl'⟩
    · intro r h' hr
      cases r with
      | ok a => exact hr
      | crashed => exact hr.1
      | raised e =>
        simp only [split3]
        split
        · subst e
          have step : ∀ r, Last ns (h' ++ [⟨.sleep 60, r⟩]) P := by
            refine fun r => last_snoc nofun (hr.2 rfl) ?_
            rintro age v - ⟨v0, e, rfl, h1, h2, h3⟩
            exact hP.retry age v0 e r h1 h2 h3
          rw [wp_bind]
          exact wp_perform.2 ⟨hr.1, fun _ _ => ih _ (step _), fun e _ => step _⟩
        · exact hr.1

/-- The bound. -/
def Bound (period : Int) (age : Int) (v : List Ev) : Prop := slept v ≤ period - ageAfter period age + 60 + 60 * failures v
/-- Before the sleep at the end of a round, if the key was checked in it. -/
def Checked (period next : Int) (age : Int) (v : List Ev) : Prop := slept v ≤ 60 * failures v ∧ next ≤ period - ageAfter period age
/-- Before the sleep at the end of a round, if the key was not checked in it. -/
def Unchecked (period : Int) (bs : List Ns) (age : Int) (v : List Ev) : Prop := Bound period age v ∧ (⟨.getBackends, .ok bs⟩ : Ev) ∈ v

theorem pause_sleep (s : Int) (r : Except Exn Unit) (hs : 0 ≤ s) : 0 ≤ pause ⟨.sleep s, r⟩ ∧ pause ⟨.sleep s, r⟩ ≤ s := by
  cases r with
  | ok a => exact ⟨hs, Int.le_refl _⟩
  | error e => exact ⟨Int.le_refl _, hs⟩

theorem slack_checked (next : Int) : Slack (Checked period next) := by
  constructor
  · rintro age v e h1 ⟨h2, h3⟩
    have := failures_le v e
    exact ⟨by rw [slept_snoc]; omega, h3⟩
  · rintro age v e r h1 h0 ⟨h2, h3⟩
    have h4 := failures_le (v ++ [e]) ⟨.sleep 60, r⟩
    have h5 := failures_snoc v e
    rw [if_pos h1] at h5
    have h6 := pause_sleep 60 r (by omega)
    exact ⟨by rw [slept_snoc, slept_snoc]; omega, h3⟩

theorem slack_unchecked (bs : List Ns) : Slack (Unchecked period bs) := by
  constructor
  · rintro age v e h1 ⟨h2, h3⟩
    have := failures_le v e
    unfold Bound at h2
    exact ⟨by unfold Bound; rw [slept_snoc]; omega, by simp [h3]⟩
  · rintro age v e r h1 h0 ⟨h2, h3⟩
    have h4 := failures_le (v ++ [e]) ⟨.sleep 60, r⟩
    have h5 := failures_snoc v e
    rw [if_pos h1] at h5
    have h6 := pause_sleep 60 r (by omega)
    unfold Bound at h2
    exact ⟨by unfold Bound; rw [slept_snoc, slept_snoc]; omega, by simp [h3]⟩

theorem Last.mono {P P' : Int → List Ev → Prop} (h1 : Last ns h P) (h2 : ∀ age v, P age v → P' age v) : Last ns h P' :=
  fun age v hv => h2 age v (h1 age v hv)

theorem after_le (hp : 0 ≤ period) (age : Int) : ageAfter period age ≤ period := by
  unfold ageAfter; split <;> omega

theorem checked_bound (hp : 0 ≤ period) {next age : Int} {v : List Ev} (h : Checked period next age v) : Bound period age v := by
  have := after_le hp age
  have := h.1
  unfold Bound; omega

theorem time_round (hp : 0 ≤ period) (fuel : Nat) (h : List Ev) (hl : Last ns h (Bound period)) :
    wp (Rec φ) (rotationRound M period fuel) (fun _ h' => Last ns h' (Bound period)) h := by
  refine wp_mono (Q := ends (fun _ h' => Last ns h' (Bound period)) fun _ h' => Last ns h' (Bound period)) ?_ fun r h' hr => by cases r <;> exact hr
  have quiet : ∀ (h : List Ev) (e : Ev), e.1 ≠ .spkAge ns → pause e = 0 → Last ns h (Bound period) → Last ns (h ++ [e]) (Bound period) := by
    refine fun h e h1 h2 h3 => last_snoc h1 h3 fun age v _ hb => ?_
    have := failures_le v e
    unfold Bound at *
    rw [slept_snoc]; omega
  unfold rotationRound
  rw [ends_bind]
  refine Rec.call hl (fun bs _ => ?_) fun e _ => quiet _ _ nofun rfl hl
  rw [ends_bind]
  have bound : ∀ done next h', next ≤ period ∧ (if ns ∈ (done : List Ns) then Last ns h' (Checked period next) else Last ns h' (Unchecked period bs)) → Last ns h' (Bound period) := by
    rintro done next h' ⟨-, hi⟩
    split at hi
    · exact hi.mono fun _ _ => checked_bound hp
    · exact hi.mono fun _ _ h => h.1
  refine ends_fold (fun done _ next h' => next ≤ period ∧ if ns ∈ done then Last ns h' (Checked period next) else Last ns h' (Unchecked period bs)) ?_ ?_ ?_
  · refine ⟨Int.le_refl _, ?_⟩
    rw [if_neg (by simp)]
    refine last_snoc nofun hl fun age v _ hb => ⟨?_, by simp⟩
    have := failures_le v ⟨.getBackends, .ok bs⟩
    unfold Bound at *
    rw [slept_snoc]
    simp only [pause]
    omega
  · rintro done ns' rest next h - hi
    rw [ends_bind]
    have hbd := bound done next h hi
    obtain ⟨hn, hi⟩ := hi
    by_cases hns : ns' = ns
    · subst hns
      refine Rec.call hbd (fun age _ => ?_) fun e _ => last_check nofun
      dsimp only
      split
      · have h1 : Last ns' (h ++ [⟨.spkAge ns', .ok age⟩]) (Checked period next) := by
          refine last_check fun a ha => ⟨by simp [slept, failures], ?_⟩
          cases ha
          unfold ageAfter
          rw [if_pos (by omega)]
          omega
        have h2 : ∀ r, Last ns' (h ++ [⟨.spkAge ns', .ok age⟩] ++ [⟨.rotateSpk ns', r⟩]) (Checked period next) := fun r =>
          last_snoc nofun h1 fun age v _ => (slack_checked next).quiet age v _ (by cases r <;> rfl)
        rw [ends_bind]
        refine Rec.call (h1.mono fun _ _ => checked_bound hp) (fun _ _ => ?_) fun e _ => (h2 _).mono fun _ _ => checked_bound hp
        rw [ends_bind]
        refine wp_mono (time_retry (slack_checked next) ns' fuel _ (h2 _)) fun r h' hr => ?_
        cases r with
        | ok a => exact ⟨hn, by rw [if_pos (by simp)]; exact hr⟩
        | raised e => exact hr.mono fun _ _ => checked_bound hp
        | crashed => exact hr.mono fun _ _ => checked_bound hp
      · refine ⟨Int.le_trans (Int.min_le_left ..) hn, ?_⟩
        rw [if_pos (by simp)]
        refine last_check fun a ha => ⟨by simp [slept, failures], ?_⟩
        cases ha
        unfold ageAfter
        rw [if_neg (by omega)]
        exact Int.min_le_right ..
    · refine Rec.call hbd (fun age _ => ?_) fun e _ => quiet _ _ (fun h => hns (by cases h; rfl)) rfl hbd
      have key : ∀ P, Slack P → (∀ age v, P age v → Bound period age v) → Last ns h P →
          wp (Rec φ) (if period - age < 0 then do call (.rotateSpk ns'); retryUpload M ns' fuel; pure next else pure (min next (period - age)))
            (ends (fun b h' => b ≤ next ∧ Last ns h' P) fun _ h' => Last ns h' (Bound period)) (h ++ [⟨.spkAge ns', .ok age⟩]) := by
        intro P hP hPB hl
        have h1 : Last ns (h ++ [⟨.spkAge ns', .ok age⟩]) P :=
          last_snoc (fun h => hns (by cases h; rfl)) hl fun age v _ => hP.quiet age v _ rfl
        split
        · have h2 : ∀ r, Last ns (h ++ [⟨.spkAge ns', .ok age⟩] ++ [⟨.rotateSpk ns', r⟩]) P := fun r =>
            last_snoc nofun h1 fun age v _ => hP.quiet age v _ (by cases r <;> rfl)
          rw [ends_bind]
          refine Rec.call (h1.mono hPB) (fun _ _ => ?_) fun e _ => (h2 _).mono hPB
          rw [ends_bind]
          refine wp_mono (time_retry hP ns' fuel _ (h2 _)) fun r h' hr => ?_
          cases r with
          | ok a => exact ⟨Int.le_refl _, hr⟩
          | raised e => exact hr.mono hPB
          | crashed => exact hr.mono hPB
        · exact ⟨Int.min_le_left .., h1⟩
      split at hi
      · rename_i hd
        refine ends_mono (key _ (slack_checked next) (fun _ _ => checked_bound hp) hi) ?_ fun _ _ h => h
        rintro b h' ⟨h1, h2⟩
        refine ⟨Int.le_trans h1 hn, ?_⟩
        rw [if_pos (by simp [hd])]
        exact h2.mono fun age v hc => ⟨hc.1, Int.le_trans h1 hc.2⟩
      · rename_i hd
        refine ends_mono (key _ (slack_unchecked bs) (fun _ _ h => h.1) hi) ?_ fun _ _ h => h
        rintro b h' ⟨h1, h2⟩
        refine ⟨Int.le_trans h1 hn, ?_⟩
        rw [if_neg (by simp [hd, Ne.symm hns])]
        exact h2
  · intro next h' hi
    have step : ∀ r, Last ns (h' ++ [⟨.sleep (next + 60), r⟩]) (Bound period) := by
      intro r
      obtain ⟨-, hi⟩ := hi
      split at hi
      · refine last_snoc nofun hi fun age v _ hc => ?_
        have h1 := failures_le v ⟨.sleep (next + 60), r⟩
        obtain ⟨h2, h3⟩ := hc
        have h4 := after_le hp age
        have h5 : pause ⟨.sleep (next + 60), r⟩ = next + 60 ∨ pause ⟨.sleep (next + 60), r⟩ = 0 := by
          cases r
          · exact .inr rfl
          · exact .inl rfl
        unfold Bound
        rw [slept_snoc]
        omega
      · rename_i hd
        exact last_snoc nofun hi fun age v hb hc => absurd (hb bs hc.2) hd
    exact Rec.call (bound bs next h' hi) (fun _ _ => step _) fun e _ => step _

theorem time_rotation (hp : 0 ≤ period) (fuel rounds : Nat) (h : List Ev) (hl : Last ns h (Bound period)) :
    wp (Rec φ) (manageRotation M period fuel rounds) (fun _ h' => Last ns h' (Bound period)) h := by
  induction rounds generalizing h with
  | zero => exact hl
  | succ n ih =>
    unfold manageRotation
    rw [wp_bind]
    refine wp_mono (time_round hp fuel h hl) fun r h' hr => ?_
    cases r with
    | ok a => exact ih h' hr
    | raised e => exact hr
    | crashed => exact hr
end SM

/-- C59, first part: over any number of rounds, a signed pre key is rotated right after a check that finds it older than the period, and
only then. -/
theorem C59_due (M : Mgr) (period : Int) (fuel rounds : Nat) (t : List Ev) (r : Res Exn Unit) (he : Exec (manageRotation M period fuel rounds) t r) :
    Guarded (fun u e => ∀ ns, e.1 = .rotateSpk ns ↔ ∃ u' age, u = u' ++ [⟨.spkAge ns, .ok age⟩] ∧ period < age) t :=
  fun h1 e h2 h => (rotation_order M period fuel rounds t r he h1 e h2 h).due

/-- C59, second part, as stated: no key gets older than the period plus 60 seconds before it is checked again. -/
def C59_Claim : Prop :=
  ∀ (cs : List (Mgr × Call)) (w w' : World) (M : Mgr) (period : Int) (fuel rounds : Nat) (t : List Ev) (r : Res Exn Unit) (ns : Ns) (age : Int)
    (v : List Ev), Hist Lib World.fresh cs w → Exec (manageRotation M period fuel rounds) t r → Lib.Runs w t w' → 0 ≤ period → LastCheck ns t age v →
    ageAfter period age + slept v ≤ period + 60

/-- C59, second part, what holds: failed bundle uploads, of any backend, delay the check by one minute each.  Missing: nothing is known
about the number of failed uploads; the task stalls while uploads fail. -/
theorem C59_partial (M : Mgr) (period : Int) (fuel rounds : Nat) (t : List Ev) (r : Res Exn Unit) (he : Exec (manageRotation M period fuel rounds) t r)
    (hp : 0 ≤ period) (ns : Ns) (age : Int) (v : List Ev) (hv : LastCheck ns t age v) :
    ageAfter period age + slept v ≤ period + 60 + 60 * failures v := by
  have := Rec.sound (φ := fun _ => True) (time_rotation (ns := ns) hp fuel rounds [] ?_) he (fun _ _ => trivial) age v hv
  · unfold Bound at this; omega
  · rintro age v ⟨⟨u, hu⟩, -⟩
    cases u <;> cases hu

/-- C59 as stated, while uploads succeed. -/
theorem C59_timely (M : Mgr) (period : Int) (fuel rounds : Nat) (t : List Ev) (r : Res Exn Unit) (he : Exec (manageRotation M period fuel rounds) t r)
    (hp : 0 ≤ period) (ns : Ns) (age : Int) (v : List Ev) (hv : LastCheck ns t age v) (hu : ∀ x ∈ v, uploadFailed x = false) :
    ageAfter period age + slept v ≤ period + 60 := by
  have h1 := C59_partial M period fuel rounds t r he hp ns age v hv
  have : failures v = 0 := by
    unfold failures
    rw [List.countP_eq_zero.2 fun x hx => by simp [hu x hx]]
    rfl
  omega

/-- C60, as stated. -/
def C60_Claim : Prop :=
  ∀ (cs : List (Mgr × Call)) (w w' : World) (M : Mgr) (period : Int) (fuel rounds : Nat) (t : List Ev) (r : Res Exn Unit),
    Hist Lib World.fresh cs w → Exec (manageRotation M period fuel rounds) t r → Lib.Runs w t w' →
    Guarded (fun u e => ∀ ns v, PendingSince ns u v → UploadStep M ns (fun n => min (60 * 2 ^ (n - 1)) 3600) v u e.1) t

/-- C60, what holds: after a rotation nothing is done, neither for this nor for another backend, but trying to upload the bundle, until
this succeeded; each time it fails, the task sleeps for a minute.  Missing: the delay is not doubled. -/
theorem C60_partial (M : Mgr) (period : Int) (fuel rounds : Nat) (t : List Ev) (r : Res Exn Unit) (he : Exec (manageRotation M period fuel rounds) t r) :
    Guarded (fun u e => ∀ ns v, PendingSince ns u v → UploadStep M ns (fun _ => 60) v u e.1) t :=
  fun h1 e h2 h => (rotation_order M period fuel rounds t r he h1 e h2 h).upload

/-- The key of "n" is just not due, the one of "o" is; the first two bundle uploads fail. -/
def Friendly.stalling : Friendly where
  answer w o := match o with
    | .spkAge ns => .ok (if ns = "n" then 100 else 101)
    | .uploadBundle _ => if w.log.countP uploadFailed < 2 then .error .bundleUploadFailed else .ok ()
    | .rotateSpk _ => .ok ()
    | .sleep _ => .ok ()
    | o => Verif.genuine w o
  ok w o e h := by
    cases o
    case uploadBundle b =>
      dsimp only at h
      split at h
      · cases h; rfl
      · cases h
    case spkAge => cases h
    case rotateSpk => cases h
    case sleep => cases h
    all_goals exact genuine_ok w _ e h

/-- The kinds of interactions of a round, for display. -/
def Spec.kind : Ev → String
  | ⟨.spkAge ns, _⟩ => "age " ++ ns
  | ⟨.rotateSpk ns, _⟩ => "rotate " ++ ns
  | ⟨.getBundle ns .., _⟩ => "bundle " ++ ns
  | ⟨.uploadBundle _, .ok _⟩ => "uploaded"
  | ⟨.uploadBundle _, .error _⟩ => "upload failed"
  | ⟨.sleep s, _⟩ => "sleep " ++ toString s
  | ⟨.getBackends, _⟩ => "backends"
  | _ => "other"

/-- One round of the task, with a rotation period of 100. -/
def stallingRound := Friendly.stalling.run (manageRotation Mgr.ex 100 5 1) World.started

theorem stallingRound_exec : Exec (manageRotation Mgr.ex 100 5 1) stallingRound.1 stallingRound.2.1 := Friendly.stalling.exec _ _
theorem stallingRound_runs : Lib.Runs World.started stallingRound.1 stallingRound.2.2 := Friendly.stalling.runs _ _

/-- What happens after the check of "n", which is due right away. -/
theorem stallingRound_last : LastCheck "n" stallingRound.1 100 (stallingRound.1.drop 2) := by
  have h : (stallingRound.1.drop 2).all (fun e => match e.1 with | .spkAge ns => ns != "n" | .getBackends => false | _ => true) = true := by
    decide +kernel
  rw [List.all_eq_true] at h
  refine ⟨⟨stallingRound.1.take 1, rfl⟩, fun r hr => ?_, fun bs hb => ?_⟩
  · have := h _ hr
    cases this
  · have := h _ hb
    cases this

theorem C60_example : stallingRound.1.map kind = ["backends", "age n", "age o", "rotate o", "bundle o", "upload failed", "sleep 60",
    "bundle o", "upload failed", "sleep 60", "bundle o", "uploaded", "sleep 60"] := by decide +kernel

/-- C59 is false of the code: the time lost because uploads fail after the rotation of another key is not taken into account. -/
theorem C59_refuted : ¬ C59_Claim := by
  intro h
  have h1 := h _ _ _ Mgr.ex 100 5 1 _ _ "n" 100 _ World.started_hist stallingRound_exec stallingRound_runs (by decide) stallingRound_last
  revert h1
  decide +kernel

/-- The bound of `C59_partial` is met exactly. -/
theorem C59_example : ageAfter 100 100 + slept (stallingRound.1.drop 2) = 100 + 60 + 60 * failures (stallingRound.1.drop 2) ∧
    failures (stallingRound.1.drop 2) = 2 := by decide +kernel

/-- C60 is false of the code: the delay is reset to 60 seconds at the beginning of each attempt (sm:680). -/
theorem C60_refuted : ¬ C60_Claim := by
  intro h
  have h1 := h _ _ _ Mgr.ex 100 5 1 _ _ World.started_hist stallingRound_exec stallingRound_runs (stallingRound.1.take 9) ⟨.sleep 60, .ok ()⟩
    (stallingRound.1.drop 10) rfl "o" (stallingRound.1.drop 4 |>.take 5) ⟨⟨stallingRound.1.take 3, rfl⟩, fun b hb => ?_⟩
  · rcases h1 with ⟨h1, -⟩ | ⟨b, -, h1⟩ | ⟨-, h1⟩
    · cases h1
    · cases h1
    · have h2 : (stallingRound.1.drop 4 |>.take 5).countP uploadFailed = 2 := by decide +kernel
      rw [h2] at h1
      injection h1 with h1
      revert h1
      decide
  · have h : (stallingRound.1.drop 4 |>.take 5).all (fun e => kind e != "uploaded") = true := by decide +kernel
    rw [List.all_eq_true] at h
    exact absurd (h _ hb) (by simp [kind])
end Verif
