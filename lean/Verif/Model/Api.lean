import Verif.Model.SessionManager
import Verif.Model.Contracts
/-
The public operations of the library as one type, for statements about arbitrary histories of calls.
-/
namespace Verif

/-- A call of a public method of `SessionManager` (omemo/session_manager.py:207), of `IdentityKeyPair.get`
(omemo/identity_key_pair.py:46), or the background task (`rotation`).  `fuel`, `rounds`: see `SM.create`, `SM.manageRotation`.
`format_identity_key` is left out, it has no effects. -/
inductive Call where
  | getIdentityKeyPair
  | create (bs : List Ns) (label : Option String) (fuel : Nat)
  | purgeBackend (ns : Ns)
  | purgeBareJid (jid : Jid)
  | ensureDataConsistency
  | rotation (period : Int) (fuel rounds : Nat)
  | updateDeviceList (ns : Ns) (jid : Jid) (dl : DevList)
  | refreshDeviceList (ns : Ns) (jid : Jid)
  | refreshDeviceLists (jid : Jid)
  | setTrust (jid : Jid) (ik : Bytes) (level : String)
  | replaceSessions (jid : Jid) (d : DevId)
  | getSendingChainLength (dev : DeviceInfo)
  | setOwnLabel (label : Option String)
  | getDeviceInformation (jid : Jid)
  | getOwnDeviceInformation
  | beforeHistorySync
  | afterHistorySync
  | encrypt (jids : List Jid) (plaintext : Dict Ns Bytes) (priority : Option (List Ns)) (identifier : Option String)
  | decrypt (msg : Message)

/-- The program of a call, with its return value dropped. -/
def Call.run (M : Mgr) : Call → P Unit
  | .getIdentityKeyPair => do let _ ← IdentityKeyPair.get; pure ()
  | .create bs label fuel => do let _ ← SM.create M bs label fuel; pure ()
  | .purgeBackend ns => SM.purgeBackend M ns
  | .purgeBareJid jid => SM.purgeBareJid M jid
  | .ensureDataConsistency => SM.ensureDataConsistency M
  | .rotation period fuel rounds => SM.manageRotation M period fuel rounds
  | .updateDeviceList ns jid dl => SM.updateDeviceList M ns jid dl
  | .refreshDeviceList ns jid => SM.refreshDeviceList M ns jid
  | .refreshDeviceLists jid => SM.refreshDeviceLists M jid
  | .setTrust jid ik level => SM.setTrust jid ik level
  | .replaceSessions jid d => do let _ ← SM.replaceSessions M jid d; pure ()
  | .getSendingChainLength dev => do let _ ← SM.getSendingChainLength dev; pure ()
  | .setOwnLabel label => SM.setOwnLabel M label
  | .getDeviceInformation jid => do let _ ← SM.getDeviceInformation M jid; pure ()
  | .getOwnDeviceInformation => do let _ ← SM.getOwnDeviceInformation M; pure ()
  | .beforeHistorySync => SM.beforeHistorySync
  | .afterHistorySync => SM.afterHistorySync M
  | .encrypt jids plaintext priority identifier => do let _ ← SM.encrypt M jids plaintext priority identifier; pure ()
  | .decrypt msg => do let _ ← SM.decrypt M msg; pure ()

/-- `Hist N w cs w'`: the calls `cs`, one after the other, each ending in any way (value, exception, death of the process),
lead from `w` to `w'` under the contract `N`.  Each call may belong to a different process: it has its own manager. -/
inductive Hist {W : Type} (N : Sem LibSig Exn W) : W → List (Mgr × Call) → W → Prop where
  | nil (w : W) : Hist N w [] w
  | cons {w w1 w2 : W} {M : Mgr} {c : Call} {t : List Ev} {r : Res Exn Unit} {cs : List (Mgr × Call)} :
      Exec (c.run M) t r → N.Runs w t w1 → Hist N w1 cs w2 → Hist N w ((M, c) :: cs) w2

/-- What is preserved by each call of a history is preserved by the history. -/
theorem Hist.invariant {W : Type} {N : Sem LibSig Exn W} {I : W → Prop} {w w' : W} {cs : List (Mgr × Call)}
    (h : Hist N w cs w') (hI : ∀ x ∈ cs, ∀ w, I w → wp N (x.2.run x.1) (fun _ => I) w) (hw : I w) : I w' := by
  induction h with
  | nil => exact hw
  | cons he hr _ ih =>
    exact ih (fun x hx => hI x (by simp [hx])) (wp_sound (hI _ (List.mem_cons_self ..) _ hw) he hr)

end Verif
