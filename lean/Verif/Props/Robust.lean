import Verif.Proofs.RaisesCalls
import Verif.Props.EncryptResult
/-
C71: problems of single recipient devices do not abort encryption.
-/
namespace Verif
open SM

namespace Spec

/-- Problems of a single recipient device: its bundle can not be obtained, or no session can be built from it. -/
def DeviceProblem : Op → Exn → Prop
  | .downloadBundle .., e => e = .bundleDownloadFailed ∨ e = .bundleNotFound
  | .buildActive .., e => e = .bundleDownloadFailed ∨ e = .bundleNotFound ∨ e = .keyExchangeFailed
  | .encryptKM .., e => e = .bundleDownloadFailed ∨ e = .bundleNotFound ∨ e = .keyExchangeFailed
  | _, _ => False

end Spec
open Spec

namespace Robust
variable {y : Exn} {M : Mgr}

/-- `y` occurs as the problem of a device only. -/
abbrev Only (y : Exn) : Op → Exn → Prop := fun o e => e = y → DeviceProblem o y

theorem op {o : Op} (h : ¬ DeviceProblem o y) : ∀ e, Only y o e → e ≠ y := fun _ he h' => h (he h')

section
variable (hy : y = .bundleDownloadFailed ∨ y = .bundleNotFound ∨ y = .keyExchangeFailed)
include hy

theorem core : Core (· ≠ y) := by rcases hy with rfl | rfl | rfl <;> exact ⟨nofun, nofun, nofun⟩

theorem fetch (jid : Jid) (d : DevId) (nss : List Ns) : Raises (S := LibSig) (Only y) (· ≠ y) (fetchIdentityKey jid d nss) := by
  have hb := core hy
  induction nss with
  | nil => exact .ret _
  | cons ns nss ih =>
    unfold fetchIdentityKey
    refine .tryElse (ρ' := fun e => Only y (.downloadBundle ns jid d) e) (.perform fun _ h => h) (fun e he => ?_) fun b => ?_
    · split
      · exact ih
      · rename_i hn
        rintro rfl
        exact hn (he rfl)
    · unfold Sto.storeBytes
      lib_raises hb, []

theorem info (jid : Jid) : Raises (S := LibSig) (Only y) (· ≠ y) (getDeviceInformation' M jid) := by
  have hb := core hy
  have hf := @fetch y hy
  unfold getDeviceInformation' deviceInformation identityKeyOf repairNamespaces
  lib_raises hb, [hf]
  all_goals exact op nofun _ (by assumption)

theorem recipients (order : List Ns) (jids : List Jid) : Raises (S := LibSig) (Only y) (· ≠ y) (recipientDevices M order jids) := by
  have hact : ∀ dev e, activeNamespaces dev = .error e → e ≠ y := by
    intro dev e he
    unfold activeNamespaces at he
    split at he <;> cases he
    rcases hy with rfl | rfl | rfl <;> nofun
  refine .bind (.mapAll fun jid _ => info hy jid) fun tmp => .bind (.filterAll fun dev _ => raises_liftE fun e he => ?_) fun ds =>
    .bind (.mapAll fun dev _ => raises_liftE fun e he => ?_) fun _ => .pure _
  · unfold isValidRecipient at he
    split at he
    · cases he
    · exact hact dev e (map_error he)
  · exact hact dev e (map_error he)

theorem device (ns : Ns) (cache : List Bundle) (km : PlainKM) (st : EncState) (dev : DeviceInfo) :
    Raises (S := LibSig) (Only y) (· ≠ y) (encryptDevice M ns cache km st dev) := by
  refine .bind (.perform (op nofun)) fun s => .tryElse (ρ' := fun _ => True) ?_ (fun e _ => ?_) fun _ => .ret _
  · unfold encryptForDevice bundleFor
    split
    · split
      · exact .bind (.perform fun _ _ => trivial) fun _ => .perform fun _ _ => trivial
      · exact .perform fun _ _ => trivial
    · exact .bind (.perform fun _ _ => trivial) fun _ => .pure _
  · split
    · exact .ret _
    · rename_i hn
      rintro rfl
      exact hn (by simpa [isNonCritical] using hy)

theorem encrypt (hd : ∀ ds i, Raises (S := LibSig) (Only y) (· ≠ y) (M.decide ds i)) (jids : List Jid) (pt : Dict Ns Bytes) (prio : Option (List Ns))
    (i : Option String) : Raises (S := LibSig) (Only y) (· ≠ y) (SM.encrypt M jids pt prio i) := by
  have hb := core hy
  have other : ∀ e : Exn, (e = .unknownNamespace ∨ e = .stillUndecided ∨ e = .keyError ∨ ∃ js, e = .noEligibleDevices js) → e ≠ y := by
    intro e he h
    subst h
    rcases hy with rfl | rfl | rfl <;> rcases he with h | h | h | ⟨_, h⟩ <;> cases h
  have hdev := @device y M hy
  have hrec := @recipients y M hy
  unfold SM.encrypt decideTrust askTrust encryptTrusted encryptBackend devicesWithTrust reloadTrust
  lib_raises hb, [hdev, hrec, hd]
  all_goals first
    | (rename_i h; exact other _ (.inr (.inl rfl)) h)
    | (rename_i h; exact other _ (.inr (.inr (.inl rfl))) h)
    | (rename_i h; exact other _ (.inr (.inr (.inr ⟨_, rfl⟩))) h)
    | skip
  rename_i he hey
  refine absurd hey (other _ (.inl ?_))
  unfold effectiveOrder at he
  split at he
  · cases he
  · split at he <;> cases he
    rfl

end
end Robust

/-- C71: if a bundle that can not be downloaded or found, or a key exchange that fails, occurs as the problem of single devices only, and the trust
decision does not raise these exceptions itself, then encrypt does not raise them; whatever else happens. -/
theorem C71 (M : Mgr) (jids : List Jid) (pt : Dict Ns Bytes) (prio : Option (List Ns)) (i : Option String) (y : Exn)
    (hy : y = .bundleDownloadFailed ∨ y = .bundleNotFound ∨ y = .keyExchangeFailed)
    (hd : ∀ ds i t, ¬ Exec (M.decide ds i) t (.raised y)) (t : List Ev) (ht : ∀ e ∈ t, e.2 = .error y → DeviceProblem e.1 y) :
    ¬ Exec (encrypt M jids pt prio i) t (.raised y) := fun he =>
  (Robust.encrypt hy (fun ds i => .of_exec fun t _ h _ he => hd ds i t (he ▸ h)) jids pt prio i).exec he (fun x hx _ h h' => ht x hx (h' ▸ h)) rfl

/-- As `polite`, but no session can be built. -/
def grumpy : World → (o : Op) → Except Exn o.Ret
  | _, .buildActive .. => .error .keyExchangeFailed
  | w, o => polite w o

def grumpyRun := runProg (Lib.env grumpy) Lib.next 100 (encrypt Mgr.ex ["a"] [("n", [1]), ("o", [1, 2])] none none) World.chat

/-- The hypotheses of C71 are met by a run in which the key exchange with device 8 fails, and which returns the message for device 7. -/
theorem C71_example : (∀ e ∈ grumpyRun.1, e.2 = .error .keyExchangeFailed → DeviceProblem e.1 .keyExchangeFailed) ∧
    (∃ e ∈ grumpyRun.1, e.2 = .error .keyExchangeFailed) ∧
    Exec (encrypt Mgr.ex ["a"] [("n", [1]), ("o", [1, 2])] none none) grumpyRun.1 (.ok
      ([(⟨"n", "me", 1, ⟨false, 1⟩, [(⟨"a", 7, 1⟩, none)]⟩, ⟨1⟩), (⟨"o", "me", 1, ⟨false, 2⟩, []⟩, ⟨2⟩)], [⟨"o", "a", 8, .keyExchangeFailed⟩])) := by
  refine ⟨?_, ?_, runProg_exec (Lib.env grumpy) Lib.next 100 _ World.chat⟩
  · have h : grumpyRun.1.all (fun e => match e with
        | ⟨.buildActive .., _⟩ => true
        | ⟨_, .error .keyExchangeFailed⟩ => false
        | _ => true) = true := by decide +kernel
    rintro ⟨o, r⟩ he hr
    have := List.all_eq_true.1 h _ he
    dsimp only at hr
    subst hr
    cases o <;> first | exact .inr (.inr rfl) | cases this
  · have h : grumpyRun.1.any (fun e => match e with | ⟨_, .error .keyExchangeFailed⟩ => true | _ => false) = true := by decide +kernel
    obtain ⟨⟨o, r⟩, he, h⟩ := List.any_eq_true.1 h
    split at h
    · rename_i heq
      cases heq
      exact ⟨_, he, rfl⟩
    · cases h

end Verif
