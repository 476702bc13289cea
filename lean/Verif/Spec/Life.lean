import Verif.Spec.Devices
import Verif.Model.Api
/-
What holds of the stored data over the life of an account.
-/
namespace Verif.Spec

/-- Device `d` of `j` has activity information for everything it is stored as supporting. -/
def Covered (m : Disk) (j : Jid) (d : DevId) : Prop := ∀ ns, Advertises m j d ns → ∃ b, Activity m j d ns b

/-- The own device id is stored; device lists are lists of numbers; known devices other than the own one have activity information for everything they support; the
own device is not inactive for anything. -/
structure Tidy (own : Jid) (dev : DevId) (m : Disk) : Prop where
  id : m .ownDeviceId = some (.int dev)
  lists : ∀ j v, m (.devList j) = some v → ∃ l : List Int, v = .ofInts l
  covered : ∀ j d, Known m j d → ¬ (j = own ∧ d = dev) → Covered m j d
  live : ∀ ns b, Activity m own dev ns b → b = true

/-- The library in use: the world, and the session managers that were created. -/
structure Use where
  world : World
  mgrs : List Mgr

/-- The manager returned by `create`. -/
def returned (M : Mgr) : Res Exn DevId → List Mgr
  | .ok d => [{ M with ownDev := d }]
  | _ => []

/-- A call in the life of the account `own`, whose cryptography is `x`: getting the identity key pair, creating a manager, or a call of a
manager that was created before. -/
inductive Step (own : Jid) (x : XEdDSA) : Use → Mgr × Call → Use → Prop where
  | ikp {s : Use} {w' : World} {t : List Ev} {r : Res Exn Unit} (M : Mgr) : Exec (Call.getIdentityKeyPair.run M) t r →
      Lib.Runs s.world t w' → Step own x s (M, .getIdentityKeyPair) ⟨w', s.mgrs⟩
  | create {s : Use} {w' : World} {t : List Ev} {r : Res Exn DevId} (M : Mgr) (bs : List Ns) (label : Option String) (fuel : Nat) :
      M.ownJid = own → M.x = x → Exec (SM.create M bs label fuel) t r →
      Lib.Runs s.world t w' → Step own x s (M, .create bs label fuel) ⟨w', s.mgrs ++ returned M r⟩
  | call {s : Use} {w' : World} {t : List Ev} {r : Res Exn Unit} (M : Mgr) (c : Call) : M ∈ s.mgrs → (∀ bs l f, c ≠ .create bs l f) →
      Exec (c.run M) t r → Lib.Runs s.world t w' → Step own x s (M, c) ⟨w', s.mgrs⟩

/-- Calls in the life of an account, one after the other, each ending in any way. -/
inductive Life (own : Jid) (x : XEdDSA) : Use → List (Mgr × Call) → Use → Prop where
  | nil (s : Use) : Life own x s [] s
  | cons {s s1 s2 : Use} {c : Mgr × Call} {cs : List (Mgr × Call)} : Step own x s c s1 → Life own x s1 cs s2 → Life own x s (c :: cs) s2

/-- Nothing is stored, except possibly the identity key pair; no managers. -/
structure New (s : Use) : Prop where
  disk : ∀ k v, s.world.disk k = some v → k = .ikpIsSeed ∨ k = .ikpKey
  mgrs : s.mgrs = []

end Verif.Spec
