import Verif.Proofs.CallParts
import Verif.Spec.Restart
/-
Invariants of calls that depend on the device lists passed to `update_device_list` and downloaded.
-/
namespace Verif
open Spec Foot

section
variable {I : World → Prop} {M : Mgr} {α : Type}

/-- `I` is kept by the parts of calls that write device data; device lists come from the server. -/
structure ServerParts (I : World → Prop) (M : Mgr) : Prop where
  quiet : OpsKeep I Quiet
  info : ∀ jid, Pres Lib I (SM.getDeviceInformation' M jid)
  refresh : ∀ ns jid, Pres Lib I (SM.refreshDeviceList M ns jid)

theorem ServerParts.op (h : ServerParts I M) {o : Op} (ho : Quiet o) : Pres Lib I (call o) := h.quiet.pres (.perform ho)

theorem ServerParts.load (h : ServerParts I M) {β : Type} {k : Key} {f : JVal → Except Exn β} : Pres Lib I (call (.load k) >>= fun v => Maybe.fmap f v) :=
  h.quiet.pres (.bind (.perform trivial) fun _ => allOps_fmap _ _)

theorem ServerParts.fromJust (h : ServerParts I M) (o : Option α) : Pres Lib I (Maybe.fromJust o : P α) := h.quiet.pres (allOps_fromJust o)
theorem ServerParts.next (h : ServerParts I M) (o : Option α) : Pres Lib I (nextOrRuntimeError o) := h.quiet.pres (allOps_next o)
theorem ServerParts.liftE (h : ServerParts I M) (o : Except Exn α) : Pres Lib I (Verif.liftE o) := h.quiet.pres (allOps_liftE o)

/-- Closes the steps of a program with the parts `h`. -/
macro "server_tac" h:term:max "[" ts:term,* "]" : tactic => `(tactic| repeat' (first
  | assumption
  $[| with_reducible exact $ts ..]*
  | exact Pres.pure _ | exact Pres.raise _
  | exact ServerParts.next $h _ | exact ServerParts.liftE $h _ | exact ServerParts.fromJust $h _
  | exact ServerParts.op $h trivial
  | exact ServerParts.op $h (Or.inl ⟨_, rfl⟩)
  | exact ServerParts.op $h (Or.inr ⟨_, _, rfl⟩)
  | exact ServerParts.load $h
  | with_reducible exact ServerParts.info $h _
  | with_reducible exact ServerParts.refresh $h _ _
  | with_reducible apply Pres.bind | with_reducible apply Pres.bind' | with_reducible apply Pres.tryElse
  | with_reducible apply Pres.when | with_reducible apply Pres.forEach | with_reducible apply Pres.fold
  | with_reducible apply Pres.mapAll | with_reducible apply Pres.filterAll
  | dsimp only
  | split
  | intro _))

theorem ServerParts.getDeviceInformation (h : ServerParts I M) (jid : Jid) : Pres Lib I (SM.getDeviceInformation M jid) := by
  unfold SM.getDeviceInformation; server_tac h []

theorem ServerParts.getOwnDeviceInformation (h : ServerParts I M) : Pres Lib I (SM.getOwnDeviceInformation M) := by
  unfold SM.getOwnDeviceInformation; server_tac h [h.getDeviceInformation]

theorem ServerParts.purgeBackend (h : ServerParts I M) (ho : OwnParts I M) (ns : Ns) : Pres Lib I (SM.purgeBackend M ns) := by
  unfold SM.purgeBackend; server_tac h [h.getOwnDeviceInformation, ho.active, ho.namespaces]

theorem ServerParts.handleChangedBackends (h : ServerParts I M) (ho : OwnParts I M) : Pres Lib I (SM.handleChangedBackends M) := by
  unfold SM.handleChangedBackends SM.refillPreKeys
  have hp := h.purgeBackend ho
  server_tac h [h.getOwnDeviceInformation, ho.active, ho.namespaces, h.refresh, hp]

theorem ServerParts.retryUpload (h : ServerParts I M) (ns : Ns) (fuel : Nat) : Pres Lib I (SM.retryUpload M ns fuel) := by
  induction fuel with
  | zero => exact Pres.raise _
  | succ n ih => unfold SM.retryUpload; server_tac h []

theorem ServerParts.manageRotation (h : ServerParts I M) (p : Int) (fuel rounds : Nat) : Pres Lib I (SM.manageRotation M p fuel rounds) := by
  induction rounds with
  | zero => exact Pres.raise _
  | succ n ih => unfold SM.manageRotation SM.rotationRound; server_tac h [h.retryUpload]

theorem ServerParts.sendEmptyMessage (h : ServerParts I M) (ns : Ns) (s : Session) : Pres Lib I (SM.sendEmptyMessage M ns s) := by
  unfold SM.sendEmptyMessage; server_tac h []

theorem ServerParts.encrypt (h : ServerParts I M) (hd : ∀ ds i, Pres Lib I (M.decide ds i)) (jids : List Jid) (pt : Dict Ns Bytes)
    (prio : Option (List Ns)) (i : Option String) : Pres Lib I (SM.encrypt M jids pt prio i) := by
  unfold SM.encrypt SM.decideTrust SM.askTrust SM.devicesWithTrust SM.reloadTrust SM.recipientDevices SM.encryptTrusted SM.encryptBackend
    SM.encryptDevice SM.encryptForDevice SM.bundleFor SM.devicesWithTrust
  server_tac h [hd]

theorem ServerParts.decrypt (h : ServerParts I M) (msg : Message) : Pres Lib I (SM.decrypt M msg) := by
  unfold SM.decrypt SM.findSender SM.decryptContent SM.keyMaterial SM.plaintextOf SM.decryptKeyMaterial SM.handleKeyExchange
    SM.postDecrypt SM.consumePreKey SM.discardPreKey SM.refillPreKeys SM.autoReply SM.queueEmpty
  server_tac h [h.getDeviceInformation, h.refresh, h.sendEmptyMessage]

/-- What a call needs besides the parts. -/
def ServerParts.Extra (I : World → Prop) (M : Mgr) : Call → Prop
  | .getIdentityKeyPair => Pres Lib I IdentityKeyPair.get
  | .create bs l f => Pres Lib I (SM.create M bs l f)
  | .purgeBackend _ => OwnParts I M
  | .updateDeviceList ns jid dl => Pres Lib I (SM.updateDeviceList M ns jid dl)
  | .purgeBareJid jid => Pres Lib I (SM.purgeBareJid M jid)
  | .setTrust j ik l => Pres Lib I (SM.setTrust j ik l)
  | .setOwnLabel l => Pres Lib I (call (.store (.devLabel M.ownJid M.ownDev) (.ofOptStr l)))
  | .encrypt .. => ∀ ds i, Pres Lib I (M.decide ds i)
  | _ => True

theorem ServerParts.call (h : ServerParts I M) (c : Call) (hx : ServerParts.Extra I M c) : Pres Lib I (c.run M) := by
  cases c with
  | getIdentityKeyPair => exact Pres.bind hx fun _ => Pres.pure _
  | create bs l f => exact Pres.bind hx fun _ => Pres.pure _
  | purgeBackend ns => exact h.purgeBackend hx ns
  | purgeBareJid jid => exact hx
  | ensureDataConsistency => unfold Call.run SM.ensureDataConsistency; server_tac h [h.refresh]
  | rotation p f r => exact h.manageRotation p f r
  | updateDeviceList ns jid dl => exact hx
  | refreshDeviceList ns jid => exact h.refresh ns jid
  | refreshDeviceLists jid => unfold Call.run SM.refreshDeviceLists; server_tac h [h.refresh]
  | setTrust jid ik level => exact hx
  | replaceSessions jid d => unfold Call.run SM.replaceSessions SM.replaceSession; server_tac h [h.getDeviceInformation]
  | getSendingChainLength x => unfold Call.run SM.getSendingChainLength; server_tac h []
  | setOwnLabel l =>
    have hx : Pres Lib I (Verif.call (.store (.devLabel M.ownJid M.ownDev) (.ofOptStr l))) := hx
    unfold Call.run SM.setOwnLabel; server_tac h []
  | getDeviceInformation jid => exact (h.getDeviceInformation jid).bind fun _ => Pres.pure _
  | getOwnDeviceInformation => exact h.getOwnDeviceInformation.bind fun _ => Pres.pure _
  | beforeHistorySync => exact h.op trivial
  | afterHistorySync =>
    unfold Call.run SM.afterHistorySync SM.sendQueuedBackend SM.sendQueuedJid SM.sendQueued; server_tac h [h.sendEmptyMessage]
  | encrypt jids pt prio i => exact (h.encrypt hx jids pt prio i).bind fun _ => Pres.pure _
  | decrypt msg => exact (h.decrypt msg).bind fun _ => Pres.pure _

/-- Programs of the application that call the API for `C` only. -/
theorem ServerParts.app (h : ServerParts I M) {C : Call → Prop} (hx : ∀ c : Call, C c → ServerParts.Extra I M c) {p : P α}
    (hp : AppBy M C p) : Pres Lib I p := by
  induction hp with
  | ret a => exact Pres.pure a
  | raise e => exact Pres.raise e
  | ext o k ho _ ih =>
    intro w hw
    have ha : Quiet o := by cases o <;> first | trivial | cases ho
    exact ⟨hw, fun r hr => ih r _ (h.quiet o ha w r hr hw)⟩
  | info jid g f _ _ ihh ihf => exact Pres.tryElse (h.getDeviceInformation jid) ihh ihf
  | api c g f hc _ _ ihh ihf => exact Pres.tryElse (h.call c (hx c hc)) ihh ihf

end

section
variable {I : World → Prop} {M : Mgr}

/-- `firstRun`, given what happens when the own device is stored. -/
theorem ServerParts.firstRun (h : ∀ d, ServerParts I { M with ownDev := d }) (label : Option String) (ik : Bytes) (fuel : Nat)
    (hs : ∀ d bs, Pres Lib I (SM.storeOwnDevice { M with ownDev := d } label ik bs)) : Pres Lib I (SM.firstRun M label ik fuel) := by
  have hdraw : ∀ taken fuel, Pres Lib I (SM.drawDeviceId taken fuel) := by
    intro taken fuel
    induction fuel with
    | zero => exact Pres.raise _
    | succ n ih => unfold SM.drawDeviceId; server_tac (h 0) []
  have htaken : ∀ j bs, Pres Lib I (SM.takenDeviceIds j bs) := by
    intro j bs; unfold SM.takenDeviceIds; server_tac (h 0) []
  unfold SM.firstRun
  refine Pres.bind ((h 0).op trivial) fun bs1 => Pres.bind (htaken _ _) fun tk => Pres.bind (hdraw _ _) fun d => ?_
  have hr := (h d).refresh
  have hs := hs d
  refine Pres.bind ((h d).op trivial) fun bs2 => Pres.bind (hs _) fun _ => ?_
  server_tac (h d) [hr]

/-- The rest of `create`, given what happens when the own device is stored for the first time. -/
theorem ServerParts.createRest (h : ∀ d, ServerParts I { M with ownDev := d }) (ho : ∀ d, OwnParts I { M with ownDev := d })
    (label : Option String) (kp : IdentityKeyPair) (fuel : Nat)
    (hs : ∀ d bs, Pres Lib I (SM.storeOwnDevice { M with ownDev := d } label (kp.identityKey M.x) bs)) :
    Pres Lib I (SM.createRest M label kp fuel) := by
  refine Pres.bind ((h 0).op trivial) fun _ => Pres.bind ?_ fun d => Pres.bind ((h d).handleChangedBackends (ho d)) fun _ => Pres.pure _
  unfold onNothing
  refine Pres.tryCatch (Pres.bind (h 0).load fun _ => (h 0).fromJust _) fun e => ?_
  split
  · exact ServerParts.firstRun h label _ fuel hs
  · exact Pres.raise _

/-- `create`, given what happens when the own device is stored for the first time. -/
theorem ServerParts.create (h : ∀ d, ServerParts I { M with ownDev := d }) (ho : ∀ d, OwnParts I { M with ownDev := d })
    (hi : Pres Lib I IdentityKeyPair.get) (bs : List Ns) (label : Option String) (fuel : Nat)
    (hs : ∀ d ik bs, Pres Lib I (SM.storeOwnDevice { M with ownDev := d } label ik bs)) :
    Pres Lib I (SM.create M bs label fuel) :=
  pres_create ((h 0).op trivial) hi fun kp => ServerParts.createRest h ho label kp fuel fun d bs => hs d _ bs

end

end Verif
