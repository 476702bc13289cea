import Verif.Model.App
/-
Starting again: what creating a manager may do when nothing has changed.
-/
namespace Verif.Spec

/-- A program of the application that uses the public API of manager `M` only for calls `C`. -/
inductive AppBy (M : Mgr) (C : Call → Prop) : {α : Type} → P α → Prop where
  | ret {α : Type} (a : α) : AppBy M C (.ret a)
  | raise {α : Type} (e : Exn) : AppBy M C (.raise e : P α)
  | ext {α : Type} (o : Op) (k : Except Exn o.Ret → P α) : o.isExternal = true → (∀ r, AppBy M C (k r)) → AppBy M C (.op o k)
  | info {α : Type} (jid : Jid) (h : Exn → P α) (f : List DeviceInfo → P α) : (∀ e, AppBy M C (h e)) →
      (∀ a, AppBy M C (f a)) → AppBy M C (Prog.tryElse (SM.getDeviceInformation M jid) h f)
  | api {α : Type} (c : Call) (h : Exn → P α) (f : Unit → P α) : C c → (∀ e, AppBy M C (h e)) →
      (∀ a, AppBy M C (f a)) → AppBy M C (Prog.tryElse (c.run M) h f)

/-- Calls in trust decisions, other than purging a backend. -/
def Retains (c : Call) : Prop := c.inDecision = true ∧ ∀ ns, c ≠ .purgeBackend ns

/-- The trust decision goes through the public API and purges nothing. -/
def RetainsAll (M : Mgr) : Prop := ∀ ds i, AppBy M Retains (M.decide ds i)

/-- What is done in between: nothing about the own device is purged, and managers are created for the backends `bs`, in any order. -/
def Between (own : Jid) (bs : List Ns) : Call → Prop
  | .create bs' _ _ => ∀ ns, ns ∈ bs' ↔ ns ∈ bs
  | .purgeBackend _ => False
  | .purgeBareJid jid => jid ≠ own
  | _ => True

/-- Reading what is stored, access to the fields of the session manager, and finding out the identity keys of the other devices of the account. -/
inductive Startup (own : Jid) (dev : DevId) : Op → Prop where
  | load (k : Key) : Startup own dev (.load k)
  | getBackends : Startup own dev .getBackends
  | setBackends (bs : List Ns) : Startup own dev (.setBackends bs)
  | setSync : Startup own dev (.setSync true)
  | download (ns : Ns) (d : DevId) : d ≠ dev → Startup own dev (.downloadBundle ns own d)
  | identityKey (d : DevId) (v : JVal) : d ≠ dev → Startup own dev (.store (.devIdentityKey own d) v)

end Verif.Spec
