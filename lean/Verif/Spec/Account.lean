import Verif.Spec.Life
/-
What the server has about one account, and the devices of that account.
-/
namespace Verif.Spec

/-- The data about an account on the server: the device list for each namespace, and the bundles of its devices. -/
structure Account where
  lists : Ns → DevList
  bundles : Ns → DevId → Option Bundle

/-- There is a bundle of device `d` for `ns` on the server. -/
def Backed (s : Account) (ns : Ns) (d : DevId) : Prop := (s.bundles ns d).isSome = true

/-- Whoever finds a device on a device list also finds its bundle. -/
def AllBacked (s : Account) : Prop := ∀ ns d, d ∈ Dict.keys (s.lists ns) → Backed s ns d

/-- The interactions of a device of the account `own` with the server: own data is downloaded as it is on the server, and uploads replace
it.  Uploads and downloads may fail; what failed had no effect.  Data about other accounts is arbitrary.  A backend returns the bundle it
was asked for. -/
def Online (own : Jid) : Sem LibSig Exn Account where
  ok s
    | ⟨.downloadList ns j, .ok dl⟩ => j = own → dl = s.lists ns
    | ⟨.downloadBundle ns j d, .ok b⟩ => j = own → s.bundles ns d = some b
    | ⟨.getBundle ns j d, .ok b⟩ => b.ns = ns ∧ b.bareJid = j ∧ b.deviceId = d
    | _ => True
  next s
    | ⟨.uploadList ns dl, .ok _⟩ => { s with lists := fun n => if n = ns then dl else s.lists n }
    | ⟨.uploadBundle b, .ok _⟩ =>
      if b.bareJid = own then { s with bundles := fun n d => if n = b.ns ∧ d = b.deviceId then some b else s.bundles n d } else s
    | ⟨.deleteBundle ns d, .ok _⟩ => { s with bundles := fun n d' => if n = ns ∧ d' = d then none else s.bundles n d' }
    | _ => s

/-- Nothing of `s` got lost in `s'`. -/
def Grown (s s' : Account) : Prop := ∀ ns d, Backed s ns d → Backed s' ns d

/-- Device `dev` of the account and the server agree: what is listed has a bundle, and there is a bundle of the device for each backend it has
loaded, as far as `L` says, and for each namespace it stores as its own, as far as `K` says.  The loaded backends are `B`. -/
structure Agree (own : Jid) (dev : DevId) (B : List Ns) (L K : Ns → Prop) (w : World) (s : Account) : Prop where
  same : w.backends = B
  listed : AllBacked s
  loaded : ∀ ns ∈ B, L ns → Backed s ns dev
  stored : ∀ ns, Advertises w.disk own dev ns → K ns → Backed s ns dev

end Verif.Spec
