import Verif.Proofs.CallParts
import Verif.Spec.Restart
/-
Invariants of calls that leave the set of backends alone.
-/
namespace Verif
open Spec Foot

namespace OwnData

/-- Interactions that leave device data and the set of backends alone. -/
def Calm (o : Op) : Prop := Quiet o ∧ ∀ bs, o ≠ .setBackends bs

end OwnData
open OwnData

theorem Spec.AppBy.via {M : Mgr} {C : Call → Prop} {α : Type} {p : P α} (h : AppBy M C p) (hC : ∀ c, C c → c.inDecision = true) :
    AppProg M (fun _ => True) p := by
  induction h with
  | ret a => exact .ret a
  | raise e => exact .raise e trivial
  | ext o k ho _ ih => exact .ext o k ho fun r _ => ih r
  | info jid h f _ _ ihh ihf => exact .info jid h f (fun e _ => ihh e) ihf
  | api c h f hc _ _ ihh ihf => exact .api c h f (hC c hc) (fun e _ => ihh e) ihf

section
variable {I : World → Prop} {M : Mgr} {α : Type}

/-- `I` is kept by the parts of calls that write device data, as long as the set of backends is not changed. -/
structure CalmParts (I : World → Prop) (M : Mgr) : Prop where
  quiet : OpsKeep I Calm
  info : ∀ jid, Pres Lib I (SM.getDeviceInformation' M jid)
  update : ∀ ns jid dl, Pres Lib I (SM.updateDeviceList M ns jid dl)

theorem CalmParts.op (h : CalmParts I M) {o : Op} (ho : Calm o) : Pres Lib I (call o) := h.quiet.pres (.perform ho)

theorem CalmParts.load (h : CalmParts I M) {β : Type} {k : Key} {f : JVal → Except Exn β} : Pres Lib I (call (.load k) >>= fun v => Maybe.fmap f v) :=
  h.quiet.pres (.bind (.perform ⟨trivial, nofun⟩) fun _ => allOps_fmap _ _)

theorem CalmParts.fromJust (h : CalmParts I M) (o : Option α) : Pres Lib I (Maybe.fromJust o : P α) := h.quiet.pres (allOps_fromJust o)
theorem CalmParts.next (h : CalmParts I M) (o : Option α) : Pres Lib I (nextOrRuntimeError o) := h.quiet.pres (allOps_next o)
theorem CalmParts.liftE (h : CalmParts I M) (o : Except Exn α) : Pres Lib I (Verif.liftE o) := h.quiet.pres (allOps_liftE o)

/-- Closes the steps of a program with the parts `h`. -/
macro "calm_tac" h:term:max "[" ts:term,* "]" : tactic => `(tactic| repeat' (first
  | assumption
  $[| with_reducible exact $ts ..]*
  | exact Pres.pure _ | exact Pres.raise _
  | exact CalmParts.next $h _ | exact CalmParts.liftE $h _ | exact CalmParts.fromJust $h _
  | exact CalmParts.op $h ⟨trivial, nofun⟩
  | exact CalmParts.op $h ⟨Or.inl ⟨_, rfl⟩, nofun⟩
  | exact CalmParts.op $h ⟨Or.inr ⟨_, _, rfl⟩, nofun⟩
  | exact CalmParts.load $h
  | with_reducible exact CalmParts.info $h _
  | with_reducible exact CalmParts.update $h _ _ _
  | with_reducible apply Pres.bind | with_reducible apply Pres.bind' | with_reducible apply Pres.tryElse
  | with_reducible apply Pres.when | with_reducible apply Pres.forEach | with_reducible apply Pres.fold
  | with_reducible apply Pres.mapAll | with_reducible apply Pres.filterAll
  | dsimp only
  | split
  | intro _))

theorem CalmParts.refreshDeviceList (h : CalmParts I M) (ns : Ns) (jid : Jid) : Pres Lib I (SM.refreshDeviceList M ns jid) := by
  unfold SM.refreshDeviceList; calm_tac h []

theorem CalmParts.getDeviceInformation (h : CalmParts I M) (jid : Jid) : Pres Lib I (SM.getDeviceInformation M jid) := by
  unfold SM.getDeviceInformation; calm_tac h []

theorem CalmParts.getOwnDeviceInformation (h : CalmParts I M) : Pres Lib I (SM.getOwnDeviceInformation M) := by
  unfold SM.getOwnDeviceInformation; calm_tac h [h.getDeviceInformation]

theorem CalmParts.retryUpload (h : CalmParts I M) (ns : Ns) (fuel : Nat) : Pres Lib I (SM.retryUpload M ns fuel) := by
  induction fuel with
  | zero => exact Pres.raise _
  | succ n ih => unfold SM.retryUpload; calm_tac h []

theorem CalmParts.manageRotation (h : CalmParts I M) (p : Int) (fuel rounds : Nat) : Pres Lib I (SM.manageRotation M p fuel rounds) := by
  induction rounds with
  | zero => exact Pres.raise _
  | succ n ih => unfold SM.manageRotation SM.rotationRound; calm_tac h [h.retryUpload]

theorem CalmParts.sendEmptyMessage (h : CalmParts I M) (ns : Ns) (s : Session) : Pres Lib I (SM.sendEmptyMessage M ns s) := by
  unfold SM.sendEmptyMessage; calm_tac h []

theorem CalmParts.encrypt (h : CalmParts I M) (hd : ∀ ds i, Pres Lib I (M.decide ds i)) (jids : List Jid) (pt : Dict Ns Bytes)
    (prio : Option (List Ns)) (i : Option String) : Pres Lib I (SM.encrypt M jids pt prio i) := by
  unfold SM.encrypt SM.decideTrust SM.askTrust SM.devicesWithTrust SM.reloadTrust SM.recipientDevices SM.encryptTrusted SM.encryptBackend
    SM.encryptDevice SM.encryptForDevice SM.bundleFor SM.devicesWithTrust
  calm_tac h [hd]

theorem CalmParts.decrypt (h : CalmParts I M) (msg : Message) : Pres Lib I (SM.decrypt M msg) := by
  unfold SM.decrypt SM.findSender SM.decryptContent SM.keyMaterial SM.plaintextOf SM.decryptKeyMaterial SM.handleKeyExchange
    SM.postDecrypt SM.consumePreKey SM.discardPreKey SM.refillPreKeys SM.autoReply SM.queueEmpty
  calm_tac h [h.getDeviceInformation, h.refreshDeviceList, h.sendEmptyMessage]

/-- What a call needs besides the parts. -/
def CalmParts.Extra (I : World → Prop) (M : Mgr) : Call → Prop
  | .getIdentityKeyPair => Pres Lib I IdentityKeyPair.get
  | .create bs l f => Pres Lib I (SM.create M bs l f)
  | .purgeBackend ns => Pres Lib I (SM.purgeBackend M ns)
  | .purgeBareJid jid => Pres Lib I (SM.purgeBareJid M jid)
  | .setTrust j ik l => Pres Lib I (SM.setTrust j ik l)
  | .setOwnLabel l => Pres Lib I (call (.store (.devLabel M.ownJid M.ownDev) (.ofOptStr l)))
  | .encrypt .. => ∀ ds i, Pres Lib I (M.decide ds i)
  | _ => True

theorem CalmParts.call (h : CalmParts I M) (c : Call) (hx : CalmParts.Extra I M c) : Pres Lib I (c.run M) := by
  cases c with
  | getIdentityKeyPair => exact Pres.bind hx fun _ => Pres.pure _
  | create bs l f => exact Pres.bind hx fun _ => Pres.pure _
  | purgeBackend ns => exact hx
  | purgeBareJid jid => exact hx
  | ensureDataConsistency => unfold Call.run SM.ensureDataConsistency; calm_tac h [h.refreshDeviceList]
  | rotation p f r => exact h.manageRotation p f r
  | updateDeviceList ns jid dl => exact h.update ns jid dl
  | refreshDeviceList ns jid => exact h.refreshDeviceList ns jid
  | refreshDeviceLists jid => unfold Call.run SM.refreshDeviceLists; calm_tac h [h.refreshDeviceList]
  | setTrust jid ik level => exact hx
  | replaceSessions jid d => unfold Call.run SM.replaceSessions SM.replaceSession; calm_tac h [h.getDeviceInformation]
  | getSendingChainLength x => unfold Call.run SM.getSendingChainLength; calm_tac h []
  | setOwnLabel l =>
    have hx : Pres Lib I (Verif.call (.store (.devLabel M.ownJid M.ownDev) (.ofOptStr l))) := hx
    unfold Call.run SM.setOwnLabel; calm_tac h []
  | getDeviceInformation jid => exact (h.getDeviceInformation jid).bind fun _ => Pres.pure _
  | getOwnDeviceInformation => exact h.getOwnDeviceInformation.bind fun _ => Pres.pure _
  | beforeHistorySync => exact h.op ⟨trivial, nofun⟩
  | afterHistorySync =>
    unfold Call.run SM.afterHistorySync SM.sendQueuedBackend SM.sendQueuedJid SM.sendQueued; calm_tac h [h.sendEmptyMessage]
  | encrypt jids pt prio i => exact (h.encrypt hx jids pt prio i).bind fun _ => Pres.pure _
  | decrypt msg => exact (h.decrypt msg).bind fun _ => Pres.pure _

/-- Programs of the application. -/
theorem CalmParts.app (h : CalmParts I M) {C : Call → Prop} (hx : ∀ c : Call, C c → CalmParts.Extra I M c) {p : P α}
    (hp : AppBy M C p) : Pres Lib I p := by
  induction hp with
  | ret a => exact Pres.pure a
  | raise e => exact Pres.raise e
  | ext o k ho _ ih =>
    intro w hw
    have ha : Calm o := by cases o <;> first | (cases ho; done) | exact ⟨trivial, nofun⟩
    exact ⟨hw, fun r hr => ih r _ (h.quiet o ha w r hr hw)⟩
  | info jid g f _ _ ihh ihf => exact Pres.tryElse (h.getDeviceInformation jid) (fun e => ihh e) ihf
  | api c g f hc _ _ ihh ihf => exact Pres.tryElse (h.call c (hx c hc)) (fun e => ihh e) ihf

end
end Verif
