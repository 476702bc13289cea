import Verif.Proofs.PresLib
import Verif.Model.App
/-
Invariants of calls from invariants of the functions that write device data.
-/
namespace Verif
open Spec Foot

/-- Interactions that leave the storage alone apart from the queues. -/
def Quiet : Op → Prop
  | .store k _ | .delete k => (∃ ns, k = .queue ns) ∨ ∃ ns j, k = .queueJid ns j
  | _ => True

/-- Every single interaction of the kind `φ` preserves `I`. -/
def OpsKeep (I : World → Prop) (φ : Op → Prop) : Prop := ∀ o, φ o → ∀ w r, Lib.ok w ⟨o, r⟩ → I w → I (Lib.next w ⟨o, r⟩)

theorem OpsKeep.pres {I : World → Prop} {φ : Op → Prop} {α : Type} {p : P α} (h : OpsKeep I φ) (hp : AllOps φ p) : Pres Lib I p :=
  Pres.ofOps hp h

/-- What only depends on places other than the queues is kept. -/
theorem quiet_keep {I : World → Prop} {K : Key → Prop} (hK : ∀ k, K k → (∀ ns, k ≠ .queue ns) ∧ ∀ ns j, k ≠ .queueJid ns j)
    (hI : ∀ w w' : World, (∀ k, K k → w'.disk k = w.disk k) → I w → I w') : OpsKeep I Quiet := by
  intro o ho w r _ hw
  refine hI w _ (fun k hk => ?_) hw
  have key : ∀ k' v, ((∃ ns, k' = .queue ns) ∨ ∃ ns j, k' = .queueJid ns j) → w.disk.upd k' v k = w.disk k := by
    intro k' v h
    refine Disk.upd_of_ne ?_
    rintro rfl
    rcases h with ⟨ns, rfl⟩ | ⟨ns, j, rfl⟩
    · exact (hK _ hk).1 ns rfl
    · exact (hK _ hk).2 ns j rfl
  cases o with
  | store k' v => cases r with
    | ok a => exact key k' _ ho
    | error e => rfl
  | delete k' => cases r with
    | ok a => exact key k' _ ho
    | error e => rfl
  | _ => cases r <;> rfl

section
variable {I : World → Prop} {M : Mgr} {α : Type}

/-- `I` is kept by the parts of calls that write device data. -/
structure Parts (I : World → Prop) (M : Mgr) : Prop where
  quiet : OpsKeep I Quiet
  info : ∀ jid, Pres Lib I (SM.getDeviceInformation' M jid)
  update : ∀ ns jid dl, Pres Lib I (SM.updateDeviceList M ns jid dl)

/-- `I` is kept by what `purge_backend` and `create` write about the own device. -/
structure OwnParts (I : World → Prop) (M : Mgr) : Prop where
  active : ∀ a, Pres Lib I (call (.store (.devActive M.ownJid M.ownDev) (.ofBools a)))
  namespaces : ∀ l, Pres Lib I (call (.store (.devNamespaces M.ownJid M.ownDev) (.ofStrs l)))

theorem Parts.op (h : Parts I M) {o : Op} (ho : Quiet o) : Pres Lib I (call o) := h.quiet.pres (.perform ho)

theorem Parts.load (h : Parts I M) {β : Type} {k : Key} {f : JVal → Except Exn β} : Pres Lib I (call (.load k) >>= fun v => Maybe.fmap f v) :=
  h.quiet.pres (.bind (.perform trivial) fun _ => allOps_fmap _ _)

theorem Parts.fromJust (h : Parts I M) (o : Option α) : Pres Lib I (Maybe.fromJust o : P α) := h.quiet.pres (allOps_fromJust o)
theorem Parts.next (h : Parts I M) (o : Option α) : Pres Lib I (nextOrRuntimeError o) := h.quiet.pres (allOps_next o)
theorem Parts.liftE (h : Parts I M) (o : Except Exn α) : Pres Lib I (Verif.liftE o) := h.quiet.pres (allOps_liftE o)

/-- Closes the steps of a program with the parts `h`. -/
macro "parts_tac" h:term:max "[" ts:term,* "]" : tactic => `(tactic| repeat' (first
  | assumption
  $[| with_reducible exact $ts ..]*
  | exact Pres.pure _ | exact Pres.raise _
  | exact Parts.next $h _ | exact Parts.liftE $h _ | exact Parts.fromJust $h _
  | exact Parts.op $h trivial
  | exact Parts.op $h (Or.inl ⟨_, rfl⟩)
  | exact Parts.op $h (Or.inr ⟨_, _, rfl⟩)
  | exact Parts.load $h
  | with_reducible exact Parts.info $h _
  | with_reducible exact Parts.update $h _ _ _
  | with_reducible apply Pres.bind | with_reducible apply Pres.bind' | with_reducible apply Pres.tryElse
  | with_reducible apply Pres.when | with_reducible apply Pres.forEach | with_reducible apply Pres.fold
  | with_reducible apply Pres.mapAll | with_reducible apply Pres.filterAll
  | dsimp only
  | split
  | intro _))

theorem Parts.refreshDeviceList (h : Parts I M) (ns : Ns) (jid : Jid) : Pres Lib I (SM.refreshDeviceList M ns jid) := by
  unfold SM.refreshDeviceList; parts_tac h []

theorem Parts.getDeviceInformation (h : Parts I M) (jid : Jid) : Pres Lib I (SM.getDeviceInformation M jid) := by
  unfold SM.getDeviceInformation; parts_tac h []

theorem Parts.getOwnDeviceInformation (h : Parts I M) : Pres Lib I (SM.getOwnDeviceInformation M) := by
  unfold SM.getOwnDeviceInformation; parts_tac h [h.getDeviceInformation]

theorem Parts.purgeBackend (h : Parts I M) (ho : OwnParts I M) (ns : Ns) : Pres Lib I (SM.purgeBackend M ns) := by
  unfold SM.purgeBackend; parts_tac h [h.getOwnDeviceInformation, ho.active, ho.namespaces]

theorem Parts.handleChangedBackends (h : Parts I M) (ho : OwnParts I M) : Pres Lib I (SM.handleChangedBackends M) := by
  unfold SM.handleChangedBackends SM.refillPreKeys
  have hp := h.purgeBackend ho
  parts_tac h [h.getOwnDeviceInformation, ho.active, ho.namespaces, h.refreshDeviceList, hp]

theorem Parts.retryUpload (h : Parts I M) (ns : Ns) (fuel : Nat) : Pres Lib I (SM.retryUpload M ns fuel) := by
  induction fuel with
  | zero => exact Pres.raise _
  | succ n ih => unfold SM.retryUpload; parts_tac h []

theorem Parts.manageRotation (h : Parts I M) (p : Int) (fuel rounds : Nat) : Pres Lib I (SM.manageRotation M p fuel rounds) := by
  induction rounds with
  | zero => exact Pres.raise _
  | succ n ih => unfold SM.manageRotation SM.rotationRound; parts_tac h [h.retryUpload]

theorem Parts.sendEmptyMessage (h : Parts I M) (ns : Ns) (s : Session) : Pres Lib I (SM.sendEmptyMessage M ns s) := by
  unfold SM.sendEmptyMessage; parts_tac h []

theorem Parts.encrypt (h : Parts I M) (hd : ∀ ds i, Pres Lib I (M.decide ds i)) (jids : List Jid) (pt : Dict Ns Bytes)
    (prio : Option (List Ns)) (i : Option String) : Pres Lib I (SM.encrypt M jids pt prio i) := by
  unfold SM.encrypt SM.decideTrust SM.askTrust SM.devicesWithTrust SM.reloadTrust SM.recipientDevices SM.encryptTrusted SM.encryptBackend
    SM.encryptDevice SM.encryptForDevice SM.bundleFor SM.devicesWithTrust
  parts_tac h [hd]

theorem Parts.decrypt (h : Parts I M) (msg : Message) : Pres Lib I (SM.decrypt M msg) := by
  unfold SM.decrypt SM.findSender SM.decryptContent SM.keyMaterial SM.plaintextOf SM.decryptKeyMaterial SM.handleKeyExchange
    SM.postDecrypt SM.consumePreKey SM.discardPreKey SM.refillPreKeys SM.autoReply SM.queueEmpty
  parts_tac h [h.getDeviceInformation, h.refreshDeviceList, h.sendEmptyMessage]

/-- What a call needs besides the parts. -/
def Parts.Extra (I : World → Prop) (M : Mgr) : Call → Prop
  | .getIdentityKeyPair => Pres Lib I IdentityKeyPair.get
  | .create bs l f => Pres Lib I (SM.create M bs l f)
  | .purgeBackend _ => OwnParts I M
  | .purgeBareJid jid => Pres Lib I (SM.purgeBareJid M jid)
  | .setTrust j ik l => Pres Lib I (SM.setTrust j ik l)
  | .setOwnLabel l => Pres Lib I (call (.store (.devLabel M.ownJid M.ownDev) (.ofOptStr l)))
  | .encrypt .. => ∀ ds i, Pres Lib I (M.decide ds i)
  | _ => True

theorem Parts.call (h : Parts I M) (c : Call) (hx : Parts.Extra I M c) : Pres Lib I (c.run M) := by
  cases c with
  | getIdentityKeyPair => exact Pres.bind hx fun _ => Pres.pure _
  | create bs l f => exact Pres.bind hx fun _ => Pres.pure _
  | purgeBackend ns => exact h.purgeBackend hx ns
  | purgeBareJid jid => exact hx
  | ensureDataConsistency => unfold Call.run SM.ensureDataConsistency; parts_tac h [h.refreshDeviceList]
  | rotation p f r => exact h.manageRotation p f r
  | updateDeviceList ns jid dl => exact h.update ns jid dl
  | refreshDeviceList ns jid => exact h.refreshDeviceList ns jid
  | refreshDeviceLists jid => unfold Call.run SM.refreshDeviceLists; parts_tac h [h.refreshDeviceList]
  | setTrust jid ik level => exact hx
  | replaceSessions jid d => unfold Call.run SM.replaceSessions SM.replaceSession; parts_tac h [h.getDeviceInformation]
  | getSendingChainLength x => unfold Call.run SM.getSendingChainLength; parts_tac h []
  | setOwnLabel l =>
    have hx : Pres Lib I (Verif.call (.store (.devLabel M.ownJid M.ownDev) (.ofOptStr l))) := hx
    unfold Call.run SM.setOwnLabel; parts_tac h []
  | getDeviceInformation jid => exact (h.getDeviceInformation jid).bind fun _ => Pres.pure _
  | getOwnDeviceInformation => exact h.getOwnDeviceInformation.bind fun _ => Pres.pure _
  | beforeHistorySync => exact h.op trivial
  | afterHistorySync =>
    unfold Call.run SM.afterHistorySync SM.sendQueuedBackend SM.sendQueuedJid SM.sendQueued; parts_tac h [h.sendEmptyMessage]
  | encrypt jids pt prio i => exact (h.encrypt hx jids pt prio i).bind fun _ => Pres.pure _
  | decrypt msg => exact (h.decrypt msg).bind fun _ => Pres.pure _

/-- Programs of the application. -/
theorem Parts.app (h : Parts I M) (hx : ∀ c : Call, c.inDecision = true → Parts.Extra I M c) {X : Exn → Prop} (hX : ∀ e, X e) {p : P α}
    (hp : AppProg M X p) : Pres Lib I p := by
  induction hp with
  | ret a => exact Pres.pure a
  | raise e _ => exact Pres.raise e
  | ext o k ho _ ih =>
    intro w hw
    have ha : Quiet o := by cases o <;> first | trivial | cases ho
    exact ⟨hw, fun r hr => ih r (fun e _ => hX e) _ (h.quiet o ha w r hr hw)⟩
  | info jid g f _ _ ihh ihf => exact Pres.tryElse (h.getDeviceInformation jid) (fun e => ihh e (hX e)) ihf
  | api c g f hc _ _ ihh ihf => exact Pres.tryElse (h.call c (hx c hc)) (fun e => ihh e (hX e)) ihf

end

theorem chkInt_not_nothing {v : JVal} {e : Exn} (h : chkInt v = .error e) : e ≠ .nothingException := by
  rintro rfl
  unfold chkInt checkPrimitive at h
  split at h <;> cases h

/-- Reading the own device id, with what happens on the first run. -/
theorem wp_ownId {p : P Int} {Q : Int → World → Prop} {X : Option Exn → World → Prop} {w : World} (hx : ∀ x, Fail x → X x w)
    (he : ∀ v e, w.disk .ownDeviceId = some v → chkInt v = .error e → X (some e) w)
    (h0 : w.disk .ownDeviceId = none → wp Lib p (ends Q X) w)
    (h : ∀ v d, w.disk .ownDeviceId = some v → chkInt v = .ok d → Q d w) :
    wp Lib (onNothing (do Maybe.fromJust (← Sto.loadInt .ownDeviceId)) p) (ends Q X) w := by
  rw [wp_onNothing, wp_bind]
  have hf : ∀ e : Exn, e.isFailure = true → e ≠ .nothingException := by intro e he hn; subst hn; cases he
  have hw : wp Lib (Sto.loadInt .ownDeviceId) (ends (fun o w' => w' = w ∧ match o with
      | none => w.disk .ownDeviceId = none
      | some d => Q d w) (fun x w' => w' = w ∧ X x w ∧ x ≠ some .nothingException)) w := by
    refine Lib.typed (fun x hf' => ⟨rfl, hx x hf', ?_⟩) (fun v e hv hc => ⟨rfl, he v e hv hc, ?_⟩) (fun h0 => ⟨rfl, h0⟩)
      (fun v b hv hb => ⟨rfl, h v b hv hb⟩)
    · rintro rfl; cases hf'
    · rintro ⟨⟩; exact chkInt_not_nothing hc rfl
  refine wp_mono hw fun r w' hr => ?_
  cases r with
  | ok o =>
    obtain ⟨hw', hr⟩ := hr
    subst hw'
    show wp Lib (Maybe.fromJust o) _ _
    rw [wp_fromJust]
    cases o with
    | none => exact ⟨nofun, fun _ => ⟨fun _ => h0 hr, fun hne => (hne rfl).elim⟩⟩
    | some d => exact ⟨fun a ha => by cases ha; exact hr, nofun⟩
  | raised e =>
    obtain ⟨hw', hr, hne⟩ := hr
    subst hw'
    exact ⟨fun h => (hne (by rw [h])).elim, fun _ => hr⟩
  | crashed =>
    obtain ⟨hw', hr, hne⟩ := hr
    subst hw'
    exact hr

section
variable {I : World → Prop} {M : Mgr}

/-- `create` after getting the identity key pair `kp` (sm:349-473). -/
def SM.createRest (M : Mgr) (label : Option String) (kp : IdentityKeyPair) (fuel : Nat) : P DevId := do
  call (.setSync true)
  let d ← onNothing
    (do Maybe.fromJust (← Sto.loadInt .ownDeviceId))
    (SM.firstRun M label (kp.identityKey M.x) fuel)
  SM.handleChangedBackends { M with ownDev := d }
  pure d

theorem SM.create_eq (M : Mgr) (bs : List Ns) (label : Option String) (fuel : Nat) :
    SM.create M bs label fuel = (if (dedup bs).length ≠ bs.length then throwE .valueError
      else if ¬ (25 ≤ M.threshold ∧ M.threshold ≤ 99) then throwE .valueError
      else do
        call (.setBackends bs)
        let kp ← IdentityKeyPair.get
        SM.createRest M label kp fuel) := rfl

/-- `firstRun`, given what happens when the own device is stored. -/
theorem Parts.firstRun (h : ∀ d, Parts I { M with ownDev := d }) (label : Option String) (ik : Bytes) (fuel : Nat)
    (hs : ∀ d bs, Pres Lib I (SM.storeOwnDevice { M with ownDev := d } label ik bs)) : Pres Lib I (SM.firstRun M label ik fuel) := by
  have hdraw : ∀ taken fuel, Pres Lib I (SM.drawDeviceId taken fuel) := by
    intro taken fuel
    induction fuel with
    | zero => exact Pres.raise _
    | succ n ih => unfold SM.drawDeviceId; parts_tac (h 0) []
  have htaken : ∀ j bs, Pres Lib I (SM.takenDeviceIds j bs) := by
    intro j bs; unfold SM.takenDeviceIds; parts_tac (h 0) []
  unfold SM.firstRun
  refine Pres.bind ((h 0).op trivial) fun bs1 => Pres.bind (htaken _ _) fun tk => Pres.bind (hdraw _ _) fun d => ?_
  have hr := (h d).refreshDeviceList
  have hs := hs d
  refine Pres.bind ((h d).op trivial) fun bs2 => Pres.bind (hs _) fun _ => ?_
  parts_tac (h d) [hr]

/-- The rest of `create`, given what happens when the own device is stored for the first time. -/
theorem Parts.createRest (h : ∀ d, Parts I { M with ownDev := d }) (ho : ∀ d, OwnParts I { M with ownDev := d })
    (label : Option String) (kp : IdentityKeyPair) (fuel : Nat)
    (hs : ∀ d bs, Pres Lib I (SM.storeOwnDevice { M with ownDev := d } label (kp.identityKey M.x) bs)) :
    Pres Lib I (SM.createRest M label kp fuel) := by
  refine Pres.bind ((h 0).op trivial) fun _ => Pres.bind ?_ fun d => Pres.bind ((h d).handleChangedBackends (ho d)) fun _ => Pres.pure _
  unfold onNothing
  refine Pres.tryCatch (Pres.bind (h 0).load fun _ => (h 0).fromJust _) fun e => ?_
  split
  · exact Parts.firstRun h label _ fuel hs
  · exact Pres.raise _

/-- ... and when the own device id is stored already. -/
theorem Parts.createRest_again (h : ∀ d, Parts I { M with ownDev := d }) (ho : ∀ d, OwnParts I { M with ownDev := d })
    (hid : ∀ w, I w → w.disk .ownDeviceId ≠ none) (label : Option String) (kp : IdentityKeyPair) (fuel : Nat) :
    Pres Lib I (SM.createRest M label kp fuel) := by
  refine Pres.bind ((h 0).op trivial) fun _ => Pres.bind ?_ fun d => Pres.bind ((h d).handleChangedBackends (ho d)) fun _ => Pres.pure _
  intro w hw
  refine wp_mono (wp_ownId (Q := fun _ => I) (X := fun _ => I) (fun _ _ => hw) (fun _ _ _ _ => hw) (fun h0 => (hid w hw h0).elim) fun _ _ _ _ => hw) fun r w' hr => ?_
  cases r <;> exact hr

/-- `create`, split at getting the identity key pair. -/
theorem pres_create {bs : List Ns} {label : Option String} {fuel : Nat} (hb : Pres Lib I (call (.setBackends bs)))
    (hi : Pres Lib I IdentityKeyPair.get) (hr : ∀ kp, Pres Lib I (SM.createRest M label kp fuel)) : Pres Lib I (SM.create M bs label fuel) := by
  rw [SM.create_eq]
  split
  · exact Pres.raise _
  split
  · exact Pres.raise _
  exact Pres.bind hb fun _ => Pres.bind hi hr

/-- `create` when the own device id is stored. -/
theorem Parts.create_again (h : ∀ d, Parts I { M with ownDev := d }) (ho : ∀ d, OwnParts I { M with ownDev := d })
    (hi : Pres Lib I IdentityKeyPair.get) (hid : ∀ w, I w → w.disk .ownDeviceId ≠ none) (bs : List Ns) (label : Option String) (fuel : Nat) :
    Pres Lib I (SM.create M bs label fuel) :=
  pres_create ((h 0).op trivial) hi fun kp => Parts.createRest_again h ho hid label kp fuel

/-- `create`, given what happens when the own device is stored for the first time. -/
theorem Parts.create (h : ∀ d, Parts I { M with ownDev := d }) (ho : ∀ d, OwnParts I { M with ownDev := d })
    (hi : Pres Lib I IdentityKeyPair.get) (bs : List Ns) (label : Option String) (fuel : Nat)
    (hs : ∀ d ik bs, Pres Lib I (SM.storeOwnDevice { M with ownDev := d } label ik bs)) :
    Pres Lib I (SM.create M bs label fuel) :=
  pres_create ((h 0).op trivial) hi fun kp => Parts.createRest h ho label kp fuel fun d bs => hs d _ bs

theorem Parts.and {J : World → Prop} (h : Parts I M) (h' : Parts J M) : Parts (fun w => I w ∧ J w) M :=
  ⟨fun o ho w r hok hw => ⟨h.quiet o ho w r hok hw.1, h'.quiet o ho w r hok hw.2⟩, fun jid w hw => wp_and (h.info jid w hw.1) (h'.info jid w hw.2),
    fun ns jid dl w hw => wp_and (h.update ns jid dl w hw.1) (h'.update ns jid dl w hw.2)⟩

theorem Pres.and {α : Type} {J : World → Prop} {p : P α} (h : Pres Lib I p) (h' : Pres Lib J p) : Pres Lib (fun w => I w ∧ J w) p :=
  fun w hw => wp_and (h w hw.1) (h' w hw.2)

theorem OwnParts.and {J : World → Prop} (h : OwnParts I M) (h' : OwnParts J M) : OwnParts (fun w => I w ∧ J w) M :=
  ⟨fun a => (h.active a).and (h'.active a), fun l => (h.namespaces l).and (h'.namespaces l)⟩

/-- What is kept by every write of the library. -/
theorem Parts.ofWrites (hq : OpsKeep I Quiet) (h : OpsKeep I Writes) : Parts I M :=
  ⟨hq, fun jid => h.pres ((SM.ops_getDeviceInformation' M jid).mono fun _ h => info_writes h),
    fun ns jid dl => h.pres ((SM.ops_updateDeviceList M ns jid dl).mono fun _ h => update_writes h)⟩

theorem OwnParts.ofWrites (h : OpsKeep I Writes) : OwnParts I M :=
  ⟨fun a => h.pres (.perform (.active _ _ a)), fun l => h.pres (.perform (.namespaces _ _ l))⟩

/-- Calls, when `I` is kept by every write of the library. -/
theorem pres_writes (h : OpsKeep I Writes) (hi : Pres Lib I IdentityKeyPair.get) {X : Exn → Prop} (hX : ∀ e, X e)
    (happ : ∀ ds i, AppProg M X (M.decide ds i)) (c : Call) : Pres Lib I (c.run M) := by
  have key : ∀ c : Call, c.inDecision = true → Pres Lib I (c.run M) := fun c hc =>
    Call.pres M c hi (fun h => by rw [hc] at h; cases h) fun o ho => h o (callOps_writes ho)
  refine Call.pres M c hi (fun _ ds i => ?_) fun o ho => h o (callOps_writes ho)
  have hp := happ ds i
  generalize M.decide ds i = p at hp
  induction hp with
  | ret a => exact Pres.pure a
  | raise e _ => exact Pres.raise e
  | ext o k ho _ ih =>
    intro w hw
    have ha : Writes o := by cases o <;> first | (apply Writes.other <;> (intros; simp; done)) | cases ho
    exact ⟨hw, fun r hr => ih r (fun e _ => hX e) _ (h o ha w r hr hw)⟩
  | info jid g f _ _ ihh ihf =>
    exact Pres.tryElse (h.pres ((SM.ops_getDeviceInformation M jid).mono fun _ h => info_writes h)) (fun e => ihh e (hX e)) ihf
  | api c g f hc _ _ ihh ihf => exact Pres.tryElse (key c hc) (fun e => ihh e (hX e)) ihf

end

/-- What is said about a single place is kept by interactions that do not write there. -/
theorem place_keep {φ : Op → Prop} (k : Key) (Q : Option JVal → Prop) (h1 : ∀ v, ¬ φ (.store k v)) (h2 : ¬ φ (.delete k)) :
    OpsKeep (fun w => Q (w.disk k)) φ := by
  intro o ho w r _ hw
  cases o with
  | store k' v => cases r with
    | error e => exact hw
    | ok a =>
      have hk : k ≠ k' := by rintro rfl; exact h1 v ho
      show Q (w.disk.upd k' (some v) k)
      rw [Disk.upd_of_ne hk]; exact hw
  | delete k' => cases r with
    | error e => exact hw
    | ok a =>
      have hk : k ≠ k' := by rintro rfl; exact h2 ho
      show Q (w.disk.upd k' none k)
      rw [Disk.upd_of_ne hk]; exact hw
  | _ => cases r <;> exact hw

/-- The own device id is stored. -/
def IdSet (w : World) : Prop := w.disk .ownDeviceId ≠ none

theorem idSet_keep {φ : Op → Prop} (h : ¬ φ (.delete .ownDeviceId)) : OpsKeep IdSet φ := by
  intro o ho w r _ hw
  cases o with
  | store k v => cases r with
    | error e => exact hw
    | ok a =>
      by_cases hk : Key.ownDeviceId = k
      · subst hk; show (w.disk.upd .ownDeviceId (some v)) .ownDeviceId ≠ none; simp
      · show (w.disk.upd _ _) _ ≠ none; rw [Disk.upd_of_ne hk]; exact hw
  | delete k => cases r with
    | error e => exact hw
    | ok a =>
      have hk : Key.ownDeviceId ≠ k := by rintro rfl; exact h ho
      show (w.disk.upd _ _) _ ≠ none; rw [Disk.upd_of_ne hk]; exact hw
  | _ => cases r <;> exact hw

theorem idSet_quiet : OpsKeep IdSet Quiet := idSet_keep (by rintro (⟨_, h⟩ | ⟨_, _, h⟩) <;> cases h)
theorem idSet_writes : OpsKeep IdSet Writes := idSet_keep (by
  intro h
  cases h with
  | other _ h1 h2 => exact h2 _ rfl)

theorem idSet_ikp : Pres Lib IdSet IdentityKeyPair.get := (idSet_keep (φ := Ikp) nofun).pres ops_ikp

/-- The interactions of storing the own device. -/
inductive Foot.StoreOwn (M : Mgr) (ik : Bytes) : Op → Prop where
  | namespaces (l : List Ns) : StoreOwn M ik (.store (.devNamespaces M.ownJid M.ownDev) (.ofStrs l))
  | active (a : Dict Ns Bool) : StoreOwn M ik (.store (.devActive M.ownJid M.ownDev) (.ofBools a))
  | label (l : Option String) : StoreOwn M ik (.store (.devLabel M.ownJid M.ownDev) (.ofOptStr l))
  | identityKey : StoreOwn M ik (.store (.devIdentityKey M.ownJid M.ownDev) (.str (Base64.encode ik)))
  | list : StoreOwn M ik (.store (.devList M.ownJid) (.ofInts [M.ownDev]))
  | trust : StoreOwn M ik (.store (.trust M.ownJid ik) (.str M.undecided))
  | ownDeviceId : StoreOwn M ik (.store .ownDeviceId (.int M.ownDev))

theorem SM.ops_storeOwnDevice (M : Mgr) (label : Option String) (ik : Bytes) (bs : List Ns) :
    AllOps (StoreOwn M ik) (SM.storeOwnDevice M label ik bs) :=
  .bind (.perform (.namespaces _)) fun _ => .bind (.perform (.active _)) fun _ => .bind (.perform (.label _)) fun _ =>
    .bind (.perform .identityKey) fun _ => .bind (.perform .list) fun _ => .bind (.perform .trust) fun _ => .perform .ownDeviceId

theorem storeOwn_writes {M : Mgr} {ik : Bytes} {o : Op} (h : StoreOwn M ik o) : Writes o := by
  cases h <;> constructor

/-! ### Creation, from a state without own device to one with it -/

section
variable {I0 X : World → Prop} {J : DevId → World → Prop} {M : Mgr}

/-- `firstRun`: `I0` until the own device is stored, then `J`; `X` when ending early. -/
theorem wp_firstRun (h0 : OpsKeep I0 Quiet) (hJ : ∀ d, Parts (J d) { M with ownDev := d }) (label : Option String)
    (ik : Bytes) (fuel : Nat)
    (hs : ∀ d bs w, I0 w → wp Lib (SM.storeOwnDevice { M with ownDev := d } label ik bs) (ends (fun _ => J d) (fun _ => X)) w)
    (hX0 : ∀ w, I0 w → X w) (hXJ : ∀ d w, J d w → X w) (w : World) (hw : I0 w) :
    wp Lib (SM.firstRun M label ik fuel) (ends J (fun _ => X)) w := by
  have hdraw : ∀ taken fuel, AllOps Quiet (SM.drawDeviceId taken fuel) := by
    intro taken fuel
    induction fuel with
    | zero => trivial
    | succ n ih => unfold SM.drawDeviceId; lib_ops []; all_goals trivial
  have htaken : ∀ j bs, AllOps Quiet (SM.takenDeviceIds j bs) := by
    intro j bs; unfold SM.takenDeviceIds; lib_ops []; all_goals trivial
  have key : ∀ {α : Type} {p : P α} {w}, Pres Lib I0 p → I0 w → wp Lib p (ends (fun _ => I0) (fun _ => X)) w := fun h hw =>
    wp_mono (h _ hw) fun r w' hr => by cases r <;> first | exact hr | exact hX0 _ hr
  unfold SM.firstRun
  rw [ends_bind]
  refine ends_mono (key (h0.pres (.perform trivial)) hw) (fun bs1 w1 h1 => ?_) fun _ _ h => h
  rw [ends_bind]
  refine ends_mono (key (h0.pres (htaken _ _)) h1) (fun tk w2 h2 => ?_) fun _ _ h => h
  rw [ends_bind]
  refine ends_mono (key (h0.pres (hdraw _ _)) h2) (fun d w3 h3 => ?_) fun _ _ h => h
  dsimp only
  rw [ends_bind]
  refine ends_mono (key (h0.pres (.perform trivial)) h3) (fun bs2 w4 h4 => ?_) fun _ _ h => h
  rw [ends_bind]
  refine ends_mono (hs d _ w4 h4) (fun _ w5 h5 => ?_) fun _ _ h => h
  have hr := (hJ d).refreshDeviceList
  have key' : ∀ {α : Type} {p : P α} {w}, Pres Lib (J d) p → J d w → wp Lib p (ends (fun _ => J d) (fun _ => X)) w := fun h hw =>
    wp_mono (h _ hw) fun r w' hr => by cases r <;> first | exact hr | exact hXJ d _ hr
  rw [ends_bind]
  refine ends_mono (key' ((hJ d).op trivial) h5) (fun bs3 w6 h6 => ?_) fun _ _ h => h
  rw [ends_bind]
  refine ends_mono (key' (by parts_tac (hJ d) []) h6) (fun _ w7 h7 => ?_) fun _ _ h => h
  rw [ends_bind]
  refine ends_mono (key' ((hJ d).op trivial) h7) (fun bs4 w8 h8 => ?_) fun _ _ h => h
  rw [ends_bind]
  refine ends_mono (key' (by parts_tac (hJ d) []) h8) (fun _ w9 h9 => ?_) fun _ _ h => h
  rw [ends_bind]
  refine ends_mono (key' ((hJ d).op trivial) h9) (fun bs5 w10 h10 => ?_) fun _ _ h => h
  rw [ends_bind]
  exact ends_mono (key' (by parts_tac (hJ d) [hr]) h10) (fun _ w11 h11 => h11) fun _ _ h => h

/-- The rest of `create`: `I` before, `I0` on the first run until the own device is stored, then `J`; `X` when ending early. -/
theorem wp_createRest {I : World → Prop} (hb : OpsKeep I Quiet) (h0 : OpsKeep I0 Quiet)
    (hJ : ∀ d, Parts (J d) { M with ownDev := d }) (hJo : ∀ d, Pres Lib (J d) (SM.handleChangedBackends { M with ownDev := d })) (label : Option String) (kp : IdentityKeyPair) (fuel : Nat)
    (hs : ∀ d bs w, I0 w → wp Lib (SM.storeOwnDevice { M with ownDev := d } label (kp.identityKey M.x) bs) (ends (fun _ => J d) (fun _ => X)) w)
    (hX : ∀ w, I w → X w) (hX0 : ∀ w, I0 w → X w) (hXJ : ∀ d w, J d w → X w)
    (hfirst : ∀ w, I w → w.disk .ownDeviceId = none → I0 w)
    (hagain : ∀ w v d, I w → w.disk .ownDeviceId = some v → chkInt v = .ok d → J d w) (w : World) (hw : I w) :
    wp Lib (SM.createRest M label kp fuel) (ends J (fun _ => X)) w := by
  unfold SM.createRest
  rw [ends_bind]
  refine Lib.setSync (hX _ hw) ?_
  have hw1 : I { w with sync := true } := hb (.setSync true) trivial w (.ok ()) trivial hw
  rw [ends_bind]
  refine wp_ownId (fun _ _ => hX _ hw1) (fun _ _ _ _ => hX _ hw1) (fun hn => ?_) fun v d hv hc => ?_
  · refine ends_mono (wp_firstRun h0 hJ label _ fuel hs hX0 hXJ _ (hfirst _ hw1 hn)) (fun d w' h' => ?_) fun _ _ h => h
    rw [ends_bind]
    refine wp_mono (hJo d w' h') fun r w'' hr => ?_
    cases r <;> first | exact hr | exact hXJ d _ hr
  · rw [ends_bind]
    refine wp_mono (hJo d _ (hagain _ v d hw1 hv hc)) fun r w'' hr => ?_
    cases r <;> first | exact hr | exact hXJ d _ hr

end

end Verif
