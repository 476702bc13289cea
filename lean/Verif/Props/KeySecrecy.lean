import Verif.Props.Secrecy
import Verif.Proofs.Sample
import Verif.Props.Frame
/-
C111: the secret part of the identity key goes to the storage only.
-/
namespace Verif
open SM
namespace Spec

/-- Interactions that have nothing to do with the stored secret, or the generation of one. -/
def Op.keyless : Op → Bool
  | .load .ikpKey | .store .ikpKey _ | .delete .ikpKey | .tokenBytes _ => false
  | _ => true

/-- The same interaction with the secret `σ s` in the place of the secret `s`: as it is loaded, drawn or stored. -/
inductive OtherKey (σ : Bytes → Bytes) : Ev → Ev → Prop
  | same (e : Ev) : Op.keyless e.1 = true → OtherKey σ e e
  | failed (o : Op) (y : Exn) : OtherKey σ ⟨o, .error y⟩ ⟨o, .error y⟩
  | absent : OtherKey σ ⟨.load .ikpKey, .ok none⟩ ⟨.load .ikpKey, .ok none⟩
  | malformed (v : JVal) (y : Exn) : checkBytes v = .error y → OtherKey σ ⟨.load .ikpKey, .ok (some v)⟩ ⟨.load .ikpKey, .ok (some v)⟩
  | loaded (v : JVal) (s : Bytes) : checkBytes v = .ok s →
      OtherKey σ ⟨.load .ikpKey, .ok (some v)⟩ ⟨.load .ikpKey, .ok (some (.str (Base64.encode (σ s))))⟩
  | drawn (s : Bytes) : OtherKey σ ⟨.tokenBytes 32, .ok s⟩ ⟨.tokenBytes 32, .ok (σ s)⟩
  | stored (s : Bytes) (r) : OtherKey σ ⟨.store .ikpKey (.str (Base64.encode s)), r⟩ ⟨.store .ikpKey (.str (Base64.encode (σ s))), r⟩

/-- A way to replace secrets by others, with the same public key. -/
def SamePublic (x : XEdDSA) (σ : Bytes → Bytes) : Prop := ∀ s, x.seedToPub (σ s) = x.seedToPub s ∧ x.privToPub (σ s) = x.privToPub s

end Spec
open Spec

namespace KeySecrecy

/-- Programs that have nothing to do with the secret. -/
abbrev Keyless {α : Type} (p : P α) : Prop := AllOps (S := LibSig) (fun o => Op.keyless o = true) p

theorem update (M : Mgr) (ns jid dl) : Keyless (updateDeviceList M ns jid dl) := by
  unfold updateDeviceList ensureOwnListed addNewDevice updateKnownDevice updateListed updateUnlisted
  lib_ops []

theorem refresh (M : Mgr) (ns jid) : Keyless (refreshDeviceList M ns jid) := .bind (.perform rfl) fun _ => update M ns jid _

theorem fetch (jid d nss) : Keyless (fetchIdentityKey jid d nss) := by
  induction nss with
  | nil => trivial
  | cons ns nss ih => unfold fetchIdentityKey; lib_ops []

theorem device (M : Mgr) (jid d) : Keyless (deviceInformation M jid d) := by
  unfold deviceInformation identityKeyOf repairNamespaces
  lib_ops [fetch]

theorem info' (M : Mgr) (jid) : Keyless (getDeviceInformation' M jid) := by
  unfold getDeviceInformation'
  lib_ops [device]

theorem info (M : Mgr) (jid) : Keyless (getDeviceInformation M jid) := .bind (info' M jid) fun _ => trivial

theorem ownInfo (M : Mgr) : Keyless (getOwnDeviceInformation M) := by
  unfold getOwnDeviceInformation
  lib_ops [info]

theorem purge (M : Mgr) (ns) : Keyless (purgeBackend M ns) := by
  unfold purgeBackend
  lib_ops [ownInfo]

theorem purgeJid (M : Mgr) (jid) : Keyless (purgeBareJid M jid) := by
  unfold purgeBareJid collectIdentityKeys deleteDevice
  lib_ops []

theorem ensure (M : Mgr) : Keyless (ensureDataConsistency M) := by
  unfold ensureDataConsistency
  lib_ops [refresh]

theorem replace (M : Mgr) (jid d) : Keyless (replaceSessions M jid d) := by
  unfold replaceSessions replaceSession
  lib_ops [info]

theorem sendEmpty (M : Mgr) (ns s) : Keyless (sendEmptyMessage M ns s) := by
  unfold sendEmptyMessage
  lib_ops []

theorem afterSync (M : Mgr) : Keyless (afterHistorySync M) := by
  unfold afterHistorySync sendQueuedBackend sendQueuedJid sendQueued
  lib_ops [sendEmpty]

theorem encr (M : Mgr) (hd : ∀ ds i, Keyless (M.decide ds i)) (jids pt prio i) : Keyless (encrypt M jids pt prio i) := by
  unfold encrypt recipientDevices decideTrust askTrust devicesWithTrust reloadTrust encryptTrusted encryptBackend encryptDevice encryptForDevice bundleFor
    devicesWithTrust
  lib_ops [info', hd]

theorem decr (M : Mgr) (msg) : Keyless (decrypt M msg) := by
  unfold decrypt findSender decryptContent keyMaterial plaintextOf decryptKeyMaterial handleKeyExchange postDecrypt
    consumePreKey discardPreKey refillPreKeys autoReply queueEmpty
  lib_ops [info, refresh, sendEmpty]

theorem first (M : Mgr) (label ik fuel) : Keyless (firstRun M label ik fuel) := by
  have h2 : ∀ taken fuel, Keyless (drawDeviceId taken fuel) := by
    intro taken fuel
    induction fuel with
    | zero => trivial
    | succ n ih => unfold drawDeviceId; lib_ops []
  unfold firstRun takenDeviceIds storeOwnDevice
  lib_ops [refresh, h2]

theorem changed (M : Mgr) : Keyless (handleChangedBackends M) := by
  unfold handleChangedBackends refillPreKeys
  lib_ops [refresh, ownInfo, purge]

theorem others (M : Mgr) (c : Call) (h1 : c ≠ .getIdentityKeyPair) (h2 : ∀ bs l f, c ≠ .create bs l f)
    (hd : (∃ a b d e, c = .encrypt a b d e) → ∀ ds i, Keyless (M.decide ds i)) : Keyless (c.run M) := by
  have rot : ∀ {α : Type} {p : P α}, AllOps (Foot.Rotation M) p → Keyless p := fun h => h.mono fun _ h => by cases h <;> rfl
  cases c with
  | getIdentityKeyPair => exact absurd rfl h1
  | create bs l f => exact absurd rfl (h2 _ _ _)
  | purgeBackend ns => exact purge M ns
  | purgeBareJid jid => exact purgeJid M jid
  | ensureDataConsistency => exact ensure M
  | rotation p f r => exact rot (SM.ops_manageRotation M p f r)
  | updateDeviceList ns jid dl => exact update M ns jid dl
  | refreshDeviceList ns jid => exact refresh M ns jid
  | refreshDeviceLists jid => exact .bind (.perform rfl) fun bs => .forEach fun ns _ => refresh M ns jid
  | setTrust jid ik level => exact .perform rfl
  | replaceSessions jid d => exact .bind (replace M jid d) fun _ => trivial
  | getSendingChainLength dev => exact .bind (.bind (.perform rfl) fun bs => .mapAll fun ns _ => .bind (.perform rfl) fun _ => trivial) fun _ => trivial
  | setOwnLabel l => exact (SM.ops_setOwnLabel M l).mono fun _ h => by cases h <;> rfl
  | getDeviceInformation jid => exact .bind (info M jid) fun _ => trivial
  | getOwnDeviceInformation => exact .bind (ownInfo M) fun _ => trivial
  | beforeHistorySync => exact .perform rfl
  | afterHistorySync => exact afterSync M
  | encrypt jids pt prio i => exact .bind (encr M (hd ⟨_, _, _, _, rfl⟩) jids pt prio i) fun _ => trivial
  | decrypt msg => exact .bind (decr M msg) fun _ => trivial

end KeySecrecy

namespace Secrecy
variable {α β γ δ : Type} {E : Ev → Ev → Prop}

theorem Sim.tryCatch {Q : α → β → Prop} {p : P α} {p' : P β} {h : Exn → P α} {h' : Exn → P β} (hp : Sim E Q p p') (hh : ∀ e, Sim E Q (h e) (h' e)) :
    Sim E Q (p.tryCatch h) (p'.tryCatch h') := by
  induction hp with
  | ret h => exact .ret h
  | raise e => exact hh e
  | op f h1 h2 ih => exact .op f h1 ih

variable {σ : Bytes → Bytes}

theorem keyless_same {p : P α} (hp : KeySecrecy.Keyless p) : Sim (OtherKey σ) Eq p p := Sim.refl_on (φ := fun o => Op.keyless o = true) .same hp

theorem keyless_after {R : γ → δ → Prop} {p : P α} (hp : KeySecrecy.Keyless p) {f : α → P γ} {f' : α → P δ}
    (hf : ∀ a, Sim (OtherKey σ) R (f a) (f' a)) : Sim (OtherKey σ) R (p >>= f) (p >>= f') := (keyless_same hp).bind fun a _ h => h ▸ hf a

theorem sim_load : Sim (OtherKey σ) (fun a b => b = (a.1, σ a.2)) IdentityKeyPair.load IdentityKeyPair.load := by
  unfold IdentityKeyPair.load
  refine keyless_after (by lib_ops []) fun m => keyless_after (allOps_fromJust _) fun isSeed => ?_
  refine Sim.bind (Q := fun a b => b = a.map σ) ?_ fun a b h => ?_
  · refine .op (fun r => match r with
      | .ok (some v) => match checkBytes v with
        | .ok s => .ok (some (.str (Base64.encode (σ s))))
        | .error _ => .ok (some v)
      | r => r) (fun r => ?_) fun r => ?_
    · cases r with
      | error y => exact .failed _ y
      | ok v =>
        cases v with
        | none => exact .absent
        | some v =>
          dsimp only
          cases h : checkBytes v with
          | ok s => exact .loaded v s h
          | error y => exact .malformed v y h
    · cases r with
      | error y => exact .raise y
      | ok v =>
        cases v with
        | none => exact .ret rfl
        | some v =>
          dsimp only
          cases h : checkBytes v with
          | ok s =>
            have hs : checkBytes (.str (Base64.encode (σ s))) = .ok (σ s) := by simp [checkBytes, Base64.decode_encode]
            change Sim _ _ (Maybe.fmap checkBytes (some v)) (Maybe.fmap checkBytes (some (.str (Base64.encode (σ s)))))
            simp only [Maybe.fmap, h, hs]
            exact .ret rfl
          | error y =>
            change Sim _ _ (Maybe.fmap checkBytes (some v)) (Maybe.fmap checkBytes (some v))
            simp only [Maybe.fmap, h]
            exact .raise y
  · subst h
    cases a with
    | none => exact .raise _
    | some s => exact .ret rfl

theorem sim_generate : Sim (OtherKey σ) (fun a b => b = (a.1, σ a.2)) IdentityKeyPair.generate IdentityKeyPair.generate := by
  unfold IdentityKeyPair.generate
  refine Sim.bind (Q := fun a b => b = σ a) (p := call (.tokenBytes 32)) (p' := call (.tokenBytes 32)) (.op (fun r => r.map σ) (fun r => ?_) fun r => ?_) fun a b h => ?_
  · cases r with
    | ok s => exact .drawn s
    | error y => exact .failed _ y
  · cases r with
    | ok s => exact .ret rfl
    | error y => exact .raise y
  · subst h
    refine keyless_after (.perform rfl) fun _ => ?_
    refine Sim.bind (Q := Eq) (p := Sto.storeBytes .ikpKey a) (p' := Sto.storeBytes .ikpKey (σ a)) (.op id (fun r => OtherKey.stored a r) fun r => ?_) fun _ _ _ => .ret rfl
    cases r with
    | ok s => exact .ret rfl
    | error y => exact .raise y

theorem sim_get {x : XEdDSA} (hσ : SamePublic x σ) :
    Sim (OtherKey σ) (fun a b => b.identityKey x = a.identityKey x) IdentityKeyPair.get IdentityKeyPair.get := by
  unfold IdentityKeyPair.get
  refine Sim.bind (Q := fun a b => b = (a.1, σ a.2)) ?_ fun a b h => ?_
  · refine Sim.tryCatch sim_load fun e => ?_
    split
    · exact sim_generate
    · exact .raise _
  · subst h
    obtain ⟨b, s⟩ := a
    refine .ret ?_
    cases b
    · exact (hσ s).2
    · exact (hσ s).1

theorem sim_create {M : Mgr} (hσ : SamePublic M.x σ) (bs : List Ns) (label : Option String) (fuel : Nat) :
    Sim (OtherKey σ) Eq (create M bs label fuel) (create M bs label fuel) := by
  unfold create
  split
  · exact .raise _
  · split
    · exact .raise _
    · refine keyless_after (.perform rfl) fun _ => (sim_get hσ).bind fun a b h => ?_
      rw [h]
      refine keyless_same ?_
      have h1 := KeySecrecy.first M label (a.identityKey M.x) fuel
      lib_ops [KeySecrecy.changed]

end Secrecy

open Secrecy in
/-- C111: if the secret part of the identity key were another one with the same public key, wherever it is loaded or drawn, exactly the same would
happen, except that the other one is stored; all calls end in the same way. -/
theorem C111_secret (M : Mgr) (c : Call) (σ : Bytes → Bytes) (hσ : SamePublic M.x σ)
    (hd : (∃ a b d e, c = .encrypt a b d e) → ∀ ds i t r, Exec (M.decide ds i) t r → ∀ e ∈ t, Op.keyless e.1 = true) {t r} (he : Exec (c.run M) t r) :
    ∃ t', Exec (c.run M) t' r ∧ Along (OtherKey σ) t t' := by
  have key : Sim (OtherKey σ) Eq (c.run M) (c.run M) := by
    by_cases h1 : c = .getIdentityKeyPair
    · subst h1; exact (sim_get hσ).bind fun _ _ _ => .ret rfl
    by_cases h2 : ∃ bs l f, c = .create bs l f
    · obtain ⟨bs, l, f, rfl⟩ := h2
      exact (sim_create hσ bs l f).bind fun _ _ _ => .ret rfl
    exact keyless_same (KeySecrecy.others M c h1 (fun bs l f h => h2 ⟨bs, l, f, h⟩) fun h ds i => AllOps.of_exec (fun _ => ⟨.error .keyError⟩) fun t r he => hd h ds i t r he)
  obtain ⟨t', r', h1, h2, h3⟩ := key.sound he
  cases r <;> cases r' <;> first | (cases h3; done) | (cases h3; exact ⟨t', h1, h2⟩) | exact ⟨t', h1, h2⟩

/-- C111, stronger: no call other than `create` and `IdentityKeyPair.get` touches the secret at all, or draws one. -/
theorem C111_untouched (M : Mgr) (c : Call) (h1 : c ≠ .getIdentityKeyPair) (h2 : ∀ bs l f, c ≠ .create bs l f)
    (hd : (∃ a b d e, c = .encrypt a b d e) → ∀ ds i t r, Exec (M.decide ds i) t r → ∀ e ∈ t, Op.keyless e.1 = true) {t r} (he : Exec (c.run M) t r) :
    ∀ e ∈ t, Op.keyless e.1 = true :=
  (KeySecrecy.others M c h1 h2 fun h ds i => AllOps.of_exec (fun _ => ⟨.error .keyError⟩) fun t r he => hd h ds i t r he).exec he

/-- A key derivation that does not look at the first byte. -/
def Mgr.exPublic : Mgr := { Mgr.ex with x := ⟨id, List.tail, List.tail⟩ }

/-- The other secret. -/
def Spec.otherFirst : Bytes → Bytes
  | [] => []
  | _ :: s => 9 :: s

/-- The secrets stored in a run. -/
def Spec.secretStored : Ev → Option String
  | ⟨.store .ikpKey (.str s), _⟩ => some s
  | _ => none

/-- The hypotheses of C111 are met: a first run stores one secret, or the other one. -/
theorem C111_example : ∃ (t t' : List Ev), Exec ((Call.create ["n", "o"] (some "pc") 5).run Mgr.exPublic) t (.ok ()) ∧
    Exec ((Call.create ["n", "o"] (some "pc") 5).run Mgr.exPublic) t' (.ok ()) ∧ SamePublic Mgr.exPublic.x otherFirst ∧ Along (OtherKey otherFirst) t t' ∧
    t.filterMap secretStored = [Base64.encode [1, 2, 3]] := by
  have h : (genuineRun ((Call.create ["n", "o"] (some "pc") 5).run Mgr.exPublic) World.fresh).2.1 = .ok () := by decide +kernel
  have he := h ▸ genuineRun_exec ((Call.create ["n", "o"] (some "pc") 5).run Mgr.exPublic) World.fresh
  have hσ : SamePublic Mgr.exPublic.x otherFirst := fun s => by cases s <;> exact ⟨rfl, rfl⟩
  obtain ⟨t', h1, h2⟩ := C111_secret Mgr.exPublic (.create ["n", "o"] (some "pc") 5) otherFirst hσ (fun ⟨_, _, _, _, h⟩ => by cases h) he
  exact ⟨_, t', he, h1, hσ, h2, by decide +kernel⟩

end Verif
