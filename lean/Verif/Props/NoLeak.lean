import Verif.Props.Own
import Verif.Props.Exceptions
/-
C67 in the life of an account: as long as the own JID is not purged, only `replace_sessions` raises `RuntimeError`.
-/
namespace Verif
open SM Spec

namespace NoLeak
variable {I : World → Prop} {M : Mgr} {α β : Type}

/-- From states with `I`, no `RuntimeError` leaves the program, and `I` is kept. -/
def Safe (I : World → Prop) (p : P α) : Prop := Pres Lib I p ∧ ∀ w, I w → wp Lib p (fun r _ => r ≠ .raised .runtimeError) w

theorem wp_raises {p : P α} (h : Raises (S := LibSig) (fun _ e => e ≠ .runtimeError) (fun e => e ≠ .runtimeError) p) (w : World) :
    wp Lib p (fun r _ => r ≠ .raised .runtimeError) w :=
  wp_iff.2 fun t r w' he hr hn => by
    subst hn
    exact h.exec he (fun x hx y hy hz => by subst hz; have := Lib.no_internal hr x hx hy; cases this) rfl

theorem Safe.raises {p : P α} (hp : Pres Lib I p) (h : Raises (S := LibSig) (fun _ e => e ≠ .runtimeError) (fun e => e ≠ .runtimeError) p) : Safe I p :=
  ⟨hp, fun w _ => wp_raises h w⟩

/-- A program that keeps `I` and does not leak, and then another one that does not leak. -/
theorem Safe.then {p : P α} {f : α → P β} (hp : Safe I p) (hf : ∀ a w, I w → wp Lib (f a) (fun r _ => r ≠ .raised .runtimeError) w) (w : World) (hw : I w) :
    wp Lib (p >>= f) (fun r _ => r ≠ .raised .runtimeError) w := by
  rw [wp_bind]
  refine wp_mono (wp_and (hp.1 w hw) (hp.2 w hw)) fun r w' h => ?_
  cases r with
  | ok a => exact hf a w' h.1
  | raised e => exact fun hn => h.2 (by cases hn; rfl)
  | crashed => exact nofun

theorem Safe.bind {p : P α} {f : α → P β} (hp : Safe I p) (hf : ∀ a, Safe I (f a)) : Safe I (p >>= f) :=
  ⟨hp.1.bind fun a => (hf a).1, fun w hw => hp.then (fun a => (hf a).2) w hw⟩

theorem Safe.pure (a : α) : Safe I (Pure.pure a : P α) := ⟨Pres.pure a, fun _ _ => (nofun : (Res.ok a : Res Exn α) ≠ .raised .runtimeError)⟩

theorem Safe.forEach {xs : List α} {f : α → P Unit} (h : ∀ x ∈ xs, Safe I (f x)) : Safe I (Prog.forEach xs f) := by
  induction xs with
  | nil => exact .pure ()
  | cons x xs ih => exact (h x (.head _)).bind fun _ => ih fun y hy => h y (.tail _ hy)

theorem Safe.when {c : Prop} [Decidable c] {p : P Unit} (h : Safe I p) : Safe I (Prog.when c p) := by
  unfold Prog.when
  split
  · exact h
  · exact .pure ()

theorem core : Core fun e => e ≠ .runtimeError := ⟨nofun, nofun, nofun⟩

/-- The own device is listed, and its identity key is stored. -/
def There (M : Mgr) (b : Bytes) (w : World) : Prop := Pinned.KeyAt M.ownJid M.ownDev b w ∧ Keep.Held M.ownJid (some M.ownDev) w

theorem parts {b : Bytes} : Parts (There M b) M := Pinned.parts.and Keep.parts
theorem ownParts {b : Bytes} : OwnParts (There M b) M :=
  ⟨fun a => (Pinned.ownParts.active a).and (Keep.ownParts.active a), fun l => (Pinned.ownParts.namespaces l).and (Keep.ownParts.namespaces l)⟩

theorem safe_op {b : Bytes} {o : Op} (ho : Quiet o) : Safe (There M b) (call o) := .raises (parts.op ho) (.perform fun _ h => h)

theorem safe_own {b : Bytes} : Safe (There M b) (getOwnDeviceInformation M) :=
  ⟨parts.getOwnDeviceInformation, fun _ hw => wp_iff.2 fun t _ _ he hr hn =>
    C67_own_partial M t _ _ hr (hw.2.known _ rfl) b hw.1 (hn ▸ he)⟩

theorem safe_purgeBackend {b : Bytes} (ns : Ns) : Safe (There M b) (purgeBackend M ns) := by
  unfold purgeBackend
  refine Safe.bind (safe_op (by trivial)) fun dl => Safe.bind (Safe.when (safe_op (by trivial))) fun _ => safe_own.bind fun r => ?_
  refine Safe.raises ?_ ?_
  · have h1 := (ownParts (M := M) (b := b)).active
    have h2 := (ownParts (M := M) (b := b)).namespaces
    parts_tac parts [h1, h2]
  · lib_raises core, []
    all_goals assumption

theorem safe_refresh {b : Bytes} (ns : Ns) (jid : Jid) : Safe (There M b) (refreshDeviceList M ns jid) :=
  .raises (parts.refreshDeviceList ns jid) (raises_refreshDeviceList core (fun _ _ h => h) nofun nofun ns jid)

theorem safe_handle {b : Bytes} : Safe (There M b) (handleChangedBackends M) := by
  unfold handleChangedBackends
  refine safe_own.bind fun r => Safe.bind (safe_op (by trivial)) fun bs => Safe.when ?_
  refine Safe.bind (.raises (ownParts.active _) (.perform fun _ h => h)) fun _ => .bind (.raises (ownParts.namespaces _) (.perform fun _ h => h)) fun _ =>
    Safe.bind (safe_op (by trivial)) fun bs => .bind (.forEach fun ns _ => .when (.bind ?_ fun _ => Safe.bind (safe_op (by trivial)) fun _ => Safe.bind (safe_op (by trivial)) fun _ => safe_refresh _ _))
      fun _ => .forEach fun ns _ => safe_purgeBackend ns
  exact Safe.bind (safe_op (by trivial)) fun n => .when (safe_op (by trivial))

theorem chkInt_no {v : JVal} {e : Exn} (h : chkInt v = .error e) : e ≠ .runtimeError := by
  rintro rfl
  cases v <;> cases h

theorem fail_no {x : Option Exn} (h : Fail x) : x ≠ some .runtimeError := by
  rintro rfl
  cases h

theorem safe_create {own : Jid} {x : XEdDSA} (hj : M.ownJid = own) (hx : M.x = x) (bs : List Ns) (label : Option String) (fuel : Nat) (w : World)
    (hw : OwnData.Usable own x w) : wp Lib (create M bs label fuel) (ends (fun _ _ => True) fun e _ => e ≠ some .runtimeError) w := by
  rw [SM.create_eq]
  split
  · exact nofun
  split
  · exact nofun
  rw [ends_bind]
  refine Lib.setBackends nofun ?_
  rw [ends_bind]
  have h1 : OwnData.Usable own x { w with backends := bs } := hw
  clear hw
  refine wp_mono (wp_and (wp_ikp _) (wp_and (wp_raises (raises_identityKeyPair core fun _ _ h => h) _) (OwnData.usable_ikp _ h1))) fun r w' h => ?_
  cases r with
  | raised e => exact fun hn => h.2.1 (by cases hn; rfl)
  | crashed => exact nofun
  | ok kp =>
    obtain ⟨⟨hkp, hgot⟩, -, hw⟩ := h
    show wp Lib _ (ends _ _) w'
    unfold SM.createRest
    rw [ends_bind]
    refine Lib.setSync nofun ?_
    generalize hw1 : ({ w' with sync := true } : World) = w1
    have hdisk : w1.disk = w'.disk := by rw [← hw1]
    have hend : ∀ d w2, (∃ kp, SoundK own x kp d w2) → wp Lib (handleChangedBackends { M with ownDev := d } >>= fun _ => (pure d : P DevId))
        (ends (fun _ _ => True) (fun e _ => e ≠ some .runtimeError)) w2 := by
      rintro d w2 ⟨kp, hs⟩
      rw [ends_bind]
      have : There { M with ownDev := d } (kp.identityKey x) w2 := by
        subst hj
        exact ⟨hs.2.1, hs.2.2.2⟩
      refine wp_mono (safe_handle.2 w2 this) fun r w3 h => ?_
      cases r with
      | ok a => trivial
      | raised e => exact fun hn => h (by cases hn; rfl)
      | crashed => exact nofun
    rw [ends_bind]
    rcases hw with hE | ⟨kp', dev, hw⟩
    · have hEK : EarlyK own x kp w1 := by
        show EarlyD own x kp w1.disk
        rw [hdisk]
        refine ⟨hE.id, hkp, fun d b hb => ?_, hE.foreign⟩
        obtain ⟨kp', h1, h2⟩ := hE.keys d b hb
        cases holds_inj h1 hkp
        exact h2
      refine wp_ownId (fun _ h => fail_no h) (fun v e _ hc hn => chkInt_no hc (by cases hn; rfl)) (fun hn => ?_) fun v d hv hc => ?_
      · have h1 := wp_firstRun (I0 := EarlyK own x kp) (J := SoundK own x kp) (X := fun _ => True) early_quiet (fun d => sound_parts hj d) label
          (kp.identityKey M.x) fuel (fun d bs w hw => by
            subst hx
            exact ends_mono (wp_storeOwnDevice (M := { M with ownDev := d }) hj label bs w hw) (fun _ _ h => h) fun _ _ _ => trivial)
          (fun _ _ => trivial) (fun _ _ _ => trivial) w1 hEK
        refine wp_mono (wp_and h1 (wp_raises (raises_firstRun core (fun _ _ h => h) nofun nofun nofun label _ fuel) w1)) fun r w2 h => ?_
        cases r with
        | ok d => exact hend d w2 ⟨kp, h.1⟩
        | raised e => exact fun hn => h.2 (by cases hn; rfl)
        | crashed => exact nofun
      · rw [hdisk, hE.id] at hv; cases hv
    · have hs : SoundK own x kp' dev w1 := by
        rw [← hw1]
        exact hw
      refine wp_ownId (fun _ h => fail_no h) (fun v e _ hc hn => chkInt_no hc (by cases hn; rfl)) (fun hn => ?_) fun v d hv hc => ?_
      · rw [hs.1.id] at hn; cases hn
      · rw [hs.1.id] at hv
        cases hv
        rw [chkInt_of] at hc
        cases hc
        exact hend _ w1 ⟨kp', hs⟩

end NoLeak

/-- C67, what holds: anywhere in the life of an account in which the own JID was not purged, no method but `replace_sessions` raises
`RuntimeError`: neither a method of a manager that was created, nor the creation of another one.  Missing: `replace_sessions` (see
`C67_replace_partial`), and accounts after `purge_bare_jid` of the own JID; there it is false of the code. -/
theorem C67_life_partial (own : Jid) (x : XEdDSA) (s0 s : Use) (cs : List (Mgr × Call)) (hnew : New s0) (h : Life own x s0 cs s)
    (happ : ∀ c ∈ cs, ViaApi c.1) (hp : ∀ c ∈ cs, c.2 ≠ .purgeBareJid own) (M : Mgr) (hf : CallbackFair M) (c : Call) (hc : ∀ j d, c ≠ .replaceSessions j d)
    (hM : M ∈ s.mgrs ∨ ∃ bs l f, c = .create bs l f ∧ M.ownJid = own ∧ M.x = x) (t : List Ev) (w' : World) (hr : Lib.Runs s.world t w') :
    ¬ Exec (c.run M) t (.raised .runtimeError) := by
  intro he
  by_cases hs : SearchesDevice c
  case neg => exact C67_others_partial M hf c hs t _ _ hr he
  have hi := inUse_life h happ (inUse_new hnew)
  have hu := OwnData.usable_life h happ hp (inUse_new hnew) (OwnData.usable_new hnew)
  have hcreate : ∀ bs l f, c = .create bs l f → M.ownJid = own → M.x = x → False := by
    rintro bs l f rfl hj hx
    have : wp Lib ((Call.create bs l f).run M) (fun r _ => r ≠ .raised .runtimeError) s.world := by
      show wp Lib (create M bs l f >>= fun _ => (pure () : P Unit)) _ _
      rw [wp_bind]
      refine wp_mono (NoLeak.safe_create hj hx bs l f _ hu) fun r w' h => ?_
      cases r with
      | ok a => exact (nofun : (Res.ok () : Res Exn Unit) ≠ .raised .runtimeError)
      | raised e => exact fun hn => h (by cases hn; rfl)
      | crashed => exact nofun
    exact wp_sound this he hr rfl
  rcases hM with hM | ⟨bs, l, f, h1, h2, h3⟩
  case inr => exact hcreate bs l f h1 h2 h3
  rcases hi with ⟨_, h2⟩ | ⟨dev, h1, h2⟩
  · rw [h2] at hM; cases hM
  obtain ⟨hj, hx, hd⟩ := h2 M hM
  rcases hu with hu | ⟨kp, dev', hu⟩
  · cases hu.id.symm.trans h1
  cases hu.1.id.symm.trans h1
  have ht : NoLeak.There M (kp.identityKey x) s.world := by
    subst hj hd
    exact ⟨hu.2.1, hu.2.2.2⟩
  cases c with
  | create bs l f => exact hcreate bs l f rfl hj hx
  | purgeBackend ns => exact wp_sound ((NoLeak.safe_purgeBackend ns).2 _ ht) he hr rfl
  | replaceSessions j d => exact hc j d rfl
  | getOwnDeviceInformation => exact wp_sound ((NoLeak.safe_own.bind fun _ => .pure ()).2 _ ht) he hr rfl
  | _ => exact hs

/-- The hypotheses of `C67_life_partial` are met: a created manager purges a backend; and the account is started again. -/
theorem C67_life_example : ∃ cs, Life "me" Mgr.ex.x Use.fresh cs Use.met ∧ (∀ c ∈ cs, ViaApi c.1) ∧ (∀ c ∈ cs, c.2 ≠ .purgeBareJid "me") ∧
    Mgr.ex ∈ Use.met.mgrs ∧ CallbackFair Mgr.ex ∧
    (genuineRun ((Call.purgeBackend "o").run Mgr.ex) Use.met.world).2.1 = .ok () ∧
    (genuineRun ((Call.create ["o"] none 5).run Mgr.ex) Use.met.world).2.1 = .ok () :=
  ⟨_, met_life, by simp [ViaApi] <;> exact fun _ _ => .ret (), by simp, List.mem_singleton.2 rfl, Mgr.ex_fair, by decide +kernel, by decide +kernel⟩

end Verif
