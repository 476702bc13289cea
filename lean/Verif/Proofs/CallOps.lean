import Verif.Proofs.Preserve
/-
The interactions of calls that ask for no trust decisions.
-/
namespace Verif
open Foot

/-- What is true of the interactions of a call is true of all of them, if it asks for no trust decisions. -/
theorem Call.allOps (M : Mgr) (c : Call) {φ : Op → Prop} (hc : ∀ jids pt prio i, c ≠ .encrypt jids pt prio i) (hi : ∀ o, Ikp o → φ o)
    (h : ∀ o, CallOps M c o → φ o) : AllOps φ (c.run M) := by
  have key : ∀ {α : Type} {p : P α}, AllOps (CallOps M c) p → AllOps φ p := fun hp => hp.mono h
  cases c with
  | getIdentityKeyPair => exact .bind (ops_ikp.mono hi) fun _ => trivial
  | create bs label fuel => exact .bind ((SM.ops_create M bs label fuel).mono fun o ho => ho.elim (hi o) (h o)) fun _ => trivial
  | purgeBackend ns => exact key (SM.ops_purgeBackend M ns)
  | purgeBareJid jid => exact key (SM.ops_purgeBareJid M jid)
  | ensureDataConsistency => exact key ((SM.ops_ensureDataConsistency M).mono fun _ h => .inr h)
  | rotation p f r => exact key (SM.ops_manageRotation M p f r)
  | updateDeviceList ns jid dl => exact key (SM.ops_updateDeviceList M ns jid dl)
  | refreshDeviceList ns jid => exact key (SM.ops_refreshDeviceList M ns jid)
  | refreshDeviceLists jid =>
    exact key (.bind (.perform (.inl rfl)) fun bs => .forEach fun ns _ => (SM.ops_refreshDeviceList M ns jid).mono fun _ h => .inr ⟨ns, h⟩)
  | setTrust jid ik level => exact key (.perform rfl)
  | replaceSessions jid d => exact key (.bind (SM.ops_replaceSessions M jid d) fun _ => trivial)
  | getSendingChainLength dev =>
    exact key (.bind (.bind (.perform (.inl rfl)) fun bs => .mapAll fun ns _ => .bind (.perform (.inr ⟨_, _, _, rfl⟩)) fun _ => trivial) fun _ => trivial)
  | setOwnLabel l => exact key (SM.ops_setOwnLabel M l)
  | getDeviceInformation jid => exact key (.bind (SM.ops_getDeviceInformation M jid) fun _ => trivial)
  | getOwnDeviceInformation => exact key (.bind (SM.ops_getOwnDeviceInformation M) fun _ => trivial)
  | beforeHistorySync => exact key (.perform rfl)
  | afterHistorySync => exact key (SM.ops_afterHistorySync M)
  | encrypt jids pt prio i => exact absurd rfl (hc _ _ _ _)
  | decrypt msg => exact key (.bind (SM.ops_decrypt M msg) fun _ => trivial)

end Verif
