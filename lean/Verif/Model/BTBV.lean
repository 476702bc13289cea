import Verif.Model.SessionManager
/-
examples/btbv_session_manager.py: the trust system "Blind Trust Before Verification".  `bt` in citations is that file.
-/
namespace Verif
namespace BTBV

/-- `BTBVTrustLevel` (bt:16-25). -/
inductive Level where
  | trusted | blindlyTrusted | undecided | distrusted
deriving DecidableEq, Repr

/-- `BTBVTrustLevel.….name` and `.value`, which coincide (bt:22-25). -/
def Level.name : Level → String
  | .trusted => "TRUSTED"
  | .blindlyTrusted => "BLINDLY_TRUSTED"
  | .undecided => "UNDECIDED"
  | .distrusted => "DISTRUSTED"

/-- `BTBVTrustLevel(name)` (bt:36, 69); `none`: it raises `ValueError`. -/
def levelOf (name : String) : Option Level :=
  [Level.trusted, .blindlyTrusted, .undecided, .distrusted].find? fun l => decide (l.name = name)

/-- `_evaluate_custom_trust_level` (bt:34-47). -/
def evaluate (dev : DeviceInfo) : Except Exn TrustLevel :=
  match levelOf dev.trustLevelName with
  | none => .error .unknownTrustLevel
  | some .trusted => .ok .trusted
  | some .blindlyTrusted => .ok .trusted
  | some .undecided => .ok .undecided
  | some .distrusted => .ok .distrusted

/-- `all(BTBVTrustLevel(device.trust_level_name) in {...} for device in devices)` (bt:69-72): stops at the first
device that is not covered by blind trust, raises `ValueError` at the first unknown name. -/
def allBlind : List DeviceInfo → Except Exn Bool
  | [] => .ok true
  | dev :: devs =>
    match levelOf dev.trustLevelName with
    | none => .error .valueError
    | some l => if l = .undecided ∨ l = .blindlyTrusted then allBlind devs else .ok false

/-- The methods left to the application (bt:96-111, 113-137): any programs. -/
structure App where
  notify : List DeviceInfo → Option String → P Unit
  prompt : List DeviceInfo → Option String → P Unit

/-- bt:63-75: the JIDs to trust blindly and the JIDs that need manual trust. -/
def sortJids (M : Mgr) (jids : List Jid) : P (List Jid × List Jid) :=
  Prog.fold (M.O.iter jids) ([], []) fun (blind, manual) jid => do
    let devices ← SM.getDeviceInformation M jid
    let b ← liftE (allBlind (M.O.iter devices))
    pure (if b = true then (setAdd blind jid, manual) else (blind, setAdd manual jid))

/-- bt:82-90 -/
def trustBlindly (M : Mgr) (A : App) (devs : List DeviceInfo) (identifier : Option String) : P Unit :=
  Prog.when (devs.length > 0) do
    Prog.forEach (M.O.iter devs) fun dev => SM.setTrust dev.bareJid dev.identityKey Level.blindlyTrusted.name
    A.notify devs identifier

/-- `_make_trust_decision` (bt:49-94). -/
def makeTrustDecision (M : Mgr) (A : App) (undecided : List DeviceInfo) (identifier : Option String) : P Unit := do
  let (blind, manual) ← sortJids M (dedup (undecided.map (·.bareJid)))
  trustBlindly M A (undecided.filter fun dev => decide (dev.bareJid ∈ blind)) identifier
  let manually := undecided.filter fun dev => decide (dev.bareJid ∈ manual)
  Prog.when (manually.length > 0) do
    A.prompt manually identifier

/-- A manager of class `BTBVSessionManager`. -/
def mgr (M : Mgr) (A : App) : Mgr := { M with decide := makeTrustDecision M A }

end BTBV
end Verif
