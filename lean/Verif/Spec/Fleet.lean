import Verif.Spec.Account
/-
The devices of one account, and the server.
-/
namespace Verif.Spec

/-- The data of the account on the server, and what runs on each device. -/
structure Fleet where
  server : Account
  devices : Nat → Use

/-- A call on device `dev`; `done`: it returned. -/
structure Act where
  dev : Nat
  mgr : Mgr
  call : Call
  done : Bool

/-- After a call on device `i`. -/
def Fleet.after (f : Fleet) (i : Nat) (u : Use) (s : Account) : Fleet := ⟨s, fun j => if j = i then u else f.devices j⟩

/-- Whether a call returned. -/
def Done {E α : Type} : Res E α → Bool
  | .ok _ => true
  | _ => false

/-- A call on one of the devices, ending in any way: the creation of a manager, or a call of a manager that was created before on that device. -/
inductive Fleet.Step (own : Jid) : Fleet → Act → Fleet → Prop where
  | create {f : Fleet} {w' : World} {s' : Account} {t : List Ev} {r : Res Exn DevId} (i : Nat) (M : Mgr) (bs : List Ns) (label : Option String)
      (fuel : Nat) : M.ownJid = own → Exec (SM.create M bs label fuel) t r → Lib.Runs (f.devices i).world t w' → (Online own).Runs f.server t s' →
      Fleet.Step own f ⟨i, M, .create bs label fuel, Done r⟩ (f.after i ⟨w', (f.devices i).mgrs ++ returned M r⟩ s')
  | call {f : Fleet} {w' : World} {s' : Account} {t : List Ev} {r : Res Exn Unit} (i : Nat) (M : Mgr) (c : Call) :
      M ∈ (f.devices i).mgrs → (∀ bs l n, c ≠ .create bs l n) → Exec (c.run M) t r → Lib.Runs (f.devices i).world t w' → (Online own).Runs f.server t s' →
      Fleet.Step own f ⟨i, M, c, Done r⟩ (f.after i ⟨w', (f.devices i).mgrs⟩ s')

/-- Calls on the devices, one after the other, each meeting the condition `P` when it begins. -/
inductive Fleet.Life (own : Jid) (P : Fleet → Act → Prop) : Fleet → List Act → Fleet → Prop where
  | nil (f : Fleet) : Fleet.Life own P f [] f
  | cons {f f1 f2 : Fleet} {a : Act} {as : List Act} : P f a → Fleet.Step own f a f1 → Fleet.Life own P f1 as f2 → Fleet.Life own P f (a :: as) f2

/-- The library was not used on any device; what other clients have on the server is in order. -/
structure Fleet.Start (f : Fleet) : Prop where
  server : AllBacked f.server
  devices : ∀ i, New (f.devices i)

/-- Different devices have different ids. -/
def Fleet.Distinct (f : Fleet) : Prop := ∀ i j, i ≠ j → ∀ M ∈ (f.devices i).mgrs, ∀ M' ∈ (f.devices j).mgrs, M.ownDev ≠ M'.ownDev

/-- The trust decision leaves alone the backends, the own device, and the data on the server. -/
def Modest (M : Mgr) : Prop := ∀ ds i t r, Exec (M.decide ds i) t r → ∀ e ∈ t, match e.1 with
  | .uploadList .. | .deleteBundle .. | .setBackends _ | .uploadBundle _ => False
  | .store k _ | .delete k => k ≠ .ownDeviceId ∧ ∀ d, k ≠ .devNamespaces M.ownJid d
  | _ => True

/-- The device list handed over is not outdated: the devices on it have bundles.  (That is so if it is the one on the server.) -/
def Current (own : Jid) (f : Fleet) (c : Call) : Prop := ∀ ns dl, c = .updateDeviceList ns own dl → ∀ d ∈ Dict.keys dl, Backed f.server ns d

/-- Creating a manager. -/
def _root_.Verif.Call.creates : Call → Bool
  | .create .. => true
  | _ => false

end Verif.Spec
