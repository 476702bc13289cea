import Verif.Proofs.RaisesSM
import Verif.Model.Api
/-
Exceptions of the public methods.
-/
namespace Verif

theorem Raises.of_exec {S : Sig} {E α : Type} {χ : S.Op → E → Prop} {ρ : E → Prop} {p : Prog S E α}
    (h : ∀ t e, Exec p t (.raised e) → (∀ x ∈ t, ∀ y, x.2 = .error y → χ x.1 y) → ρ e) : Raises χ ρ p := by
  induction p with
  | ret => trivial
  | raise e => exact h [] e (.raise e) (by simp)
  | op o k ih =>
    intro r hr
    refine ih r fun t e he ht => h (⟨o, r⟩ :: t) e (.op r he) fun x hx => ?_
    rcases List.mem_cons.1 hx with rfl | hx
    · exact hr
    · exact ht x hx

namespace SM
variable {χ : Op → Exn → Prop} {ρ : Exn → Prop} {M : Mgr} (hb : Core ρ) (h : ∀ o e, χ o e → ρ e)
include hb h

theorem raises_identityKeyPair : Raises (S := LibSig) χ ρ IdentityKeyPair.get := by
  unfold IdentityKeyPair.get IdentityKeyPair.load IdentityKeyPair.generate Sto.storeBytes
  lib_raises hb, []
  all_goals exact h _ _ (by assumption)

theorem raises_addNewDevice (hk : ρ .keyError) (ns : Ns) (jid : Jid) (dl : DevList) (d : DevId) : Raises (S := LibSig) χ ρ (addNewDevice ns jid dl d) := by
  unfold addNewDevice
  lib_raises hb, []
  all_goals exact h _ _ (by assumption)

theorem raises_updateKnownDevice (hk : ρ .keyError) (ns : Ns) (jid : Jid) (dl : DevList) (d : DevId) : Raises (S := LibSig) χ ρ (updateKnownDevice M ns jid dl d) := by
  unfold updateKnownDevice updateListed updateUnlisted
  lib_raises hb, []
  all_goals first | exact h _ _ (by assumption) | exact hk

theorem raises_updateDeviceList (hk : ρ .keyError) (hu : ρ .unknownNamespace) (ns : Ns) (jid : Jid) (dl : DevList) :
    Raises (S := LibSig) χ ρ (updateDeviceList M ns jid dl) := by
  unfold updateDeviceList ensureOwnListed
  have h1 := @raises_addNewDevice χ ρ hb h hk
  have h2 := @raises_updateKnownDevice χ ρ M hb h hk
  lib_raises hb, [h1, h2]
  all_goals first | exact h _ _ (by assumption) | exact hu

theorem raises_refreshDeviceList (hk : ρ .keyError) (hu : ρ .unknownNamespace) (ns : Ns) (jid : Jid) : Raises (S := LibSig) χ ρ (refreshDeviceList M ns jid) := by
  unfold refreshDeviceList
  have h1 := @raises_updateDeviceList χ ρ M hb h hk hu
  lib_raises hb, [h1]
  all_goals exact h _ _ (by assumption)

theorem raises_getDeviceInformation (jid : Jid) : Raises (S := LibSig) χ ρ (getDeviceInformation M jid) :=
  .bind (raises_getDeviceInformation' hb h jid) fun _ => .pure _

theorem raises_getOwnDeviceInformation (hr : ρ .runtimeError) : Raises (S := LibSig) χ ρ (getOwnDeviceInformation M) :=
  .bind (raises_getDeviceInformation hb h _) fun _ => .bind (raises_next hr _) fun _ => .pure _

omit hb in
theorem raises_setOwnLabel (label : Option String) : Raises (S := LibSig) χ ρ (setOwnLabel M label) :=
  .bind (.perform (h _)) fun _ => .bind (.perform (h _)) fun _ => .forEach fun _ _ => .bind (.perform (h _)) fun _ => .perform (h _)

theorem raises_purgeBackend (hr : ρ .runtimeError) (ns : Ns) : Raises (S := LibSig) χ ρ (purgeBackend M ns) := by
  unfold purgeBackend
  have h1 := @raises_getOwnDeviceInformation χ ρ M hb h hr
  lib_raises hb, [h1]
  all_goals exact h _ _ (by assumption)

theorem raises_purgeBareJid (jid : Jid) : Raises (S := LibSig) χ ρ (purgeBareJid M jid) := by
  unfold purgeBareJid collectIdentityKeys deleteDevice
  lib_raises hb, []
  all_goals exact h _ _ (by assumption)

omit hb in
theorem raises_retryUpload (ho : ρ .outOfFuel) (ns : Ns) (fuel : Nat) : Raises (S := LibSig) χ ρ (retryUpload M ns fuel) := by
  induction fuel with
  | zero => exact ho
  | succ n ih =>
    unfold retryUpload
    refine .tryElse (ρ' := ρ) (.bind (.perform (h _)) fun _ => .perform (h _)) (fun e he => ?_) fun _ => .pure _
    split
    · exact .bind (.perform (h _)) fun _ => ih
    · exact he

omit hb in
theorem raises_manageRotation (ho : ρ .outOfFuel) (period : Int) (fuel rounds : Nat) :
    Raises (S := LibSig) χ ρ (manageRotation M period fuel rounds) := by
  induction rounds with
  | zero => exact ho
  | succ n ih =>
    refine .bind (.bind (.perform (h _)) fun _ => .bind (.fold fun _ _ _ => .bind (.perform (h _)) fun _ => ?_) fun _ => .perform (h _)) fun _ => ih
    dsimp only
    split
    · exact .bind (.perform (h _)) fun _ => .bind (raises_retryUpload h ho ..) fun _ => .pure _
    · exact .pure _

theorem raises_ensureDataConsistency (hk : ρ .keyError) (hu : ρ .unknownNamespace) : Raises (S := LibSig) χ ρ (ensureDataConsistency M) := by
  refine .bind (.perform (h _)) fun _ => .forEach fun _ _ => .bind (raises_refreshDeviceList hb h hk hu _ _) fun _ =>
    .bind (.perform (h _)) fun _ => .bind (.tryElse (ρ' := ρ) (.perform (h _)) (fun e he => ?_) fun _ => .pure _) fun _ => .when fun _ => .perform (h _)
  split
  · exact .pure _
  · exact he

omit hb in
theorem raises_drawDeviceId (ho : ρ .outOfFuel) (taken : List DevId) (fuel : Nat) : Raises (S := LibSig) χ ρ (drawDeviceId taken fuel) := by
  induction fuel with
  | zero => exact ho
  | succ n ih =>
    refine .bind (.perform (h _)) fun _ => ?_
    dsimp only
    split
    · exact .pure _
    · exact ih

theorem raises_firstRun (hk : ρ .keyError) (ho : ρ .outOfFuel) (hu : ρ .unknownNamespace) (label : Option String) (ik : Bytes) (fuel : Nat) :
    Raises (S := LibSig) χ ρ (firstRun M label ik fuel) := by
  unfold firstRun takenDeviceIds storeOwnDevice Sto.storeBytes
  have h1 := @raises_drawDeviceId χ ρ h ho
  have h2 := fun M ns jid => raises_refreshDeviceList (M := M) hb h hk hu ns jid
  lib_raises hb, [h1, h2]
  all_goals exact h _ _ (by assumption)

theorem raises_handleChangedBackends (hk : ρ .keyError) (hr : ρ .runtimeError) (hu : ρ .unknownNamespace) : Raises (S := LibSig) χ ρ (handleChangedBackends M) := by
  unfold handleChangedBackends refillPreKeys
  have h1 := @raises_getOwnDeviceInformation χ ρ M hb h hr
  have h2 := @raises_refreshDeviceList χ ρ M hb h hk hu
  have h3 := @raises_purgeBackend χ ρ M hb h hr
  lib_raises hb, [h1, h2, h3]
  all_goals exact h _ _ (by assumption)

theorem raises_create (hk : ρ .keyError) (hr : ρ .runtimeError) (ho : ρ .outOfFuel) (hu : ρ .unknownNamespace) (bs : List Ns) (label : Option String) (fuel : Nat) :
    Raises (S := LibSig) χ ρ (create M bs label fuel) := by
  unfold create
  have h1 := @raises_identityKeyPair χ ρ hb h
  have h2 := @raises_firstRun χ ρ M hb h hk ho hu
  have h3 := fun M => @raises_handleChangedBackends χ ρ M hb h hk hr hu
  lib_raises hb, [h1, h2, h3]
  · exact hb.value
  · exact hb.value
  all_goals exact h _ _ (by assumption)

theorem raises_replaceSessions (hr : ρ .runtimeError) (jid : Jid) (d : DevId) : Raises (S := LibSig) χ ρ (replaceSessions M jid d) := by
  refine .bind (raises_getDeviceInformation hb h _) fun _ => .bind (raises_next hr _) fun _ => .bind (.perform (h _)) fun _ =>
    .bind (.filterAll fun _ _ => .bind (.perform (h _)) fun _ => .pure _) fun _ => .bind (.perform (h _)) fun _ => .fold fun _ _ _ => ?_
  split
  · refine .tryElse (ρ' := ρ) ?_ (fun e he => ?_) fun _ => .pure _
    · exact .bind (.perform (h _)) fun _ => .bind (.perform (h _)) fun _ => .bind (.perform (h _)) fun _ => .bind (.perform (h _)) fun _ => .perform (h _)
    · split
      · exact .pure _
      · exact he
  · exact .pure _

omit hb in
theorem raises_getSendingChainLength (dev : DeviceInfo) : Raises (S := LibSig) χ ρ (getSendingChainLength dev) :=
  .bind (.perform (h _)) fun _ => .mapAll fun _ _ => .bind (.perform (h _)) fun _ => .pure _

omit hb in
theorem raises_sendEmptyMessage (ns : Ns) (s : Session) : Raises (S := LibSig) χ ρ (sendEmptyMessage M ns s) :=
  .bind (.perform (h _)) fun _ => .bind (.perform (h _)) fun _ => .bind (.perform (h _)) fun _ => .perform (h _)

theorem raises_afterHistorySync : Raises (S := LibSig) χ ρ (afterHistorySync M) := by
  unfold afterHistorySync sendQueuedBackend sendQueuedJid sendQueued
  have h1 := @raises_sendEmptyMessage χ ρ M h
  lib_raises hb, [h1]
  all_goals exact h _ _ (by assumption)

theorem raises_decideTrust (hs : ρ .stillUndecided) (hd : ∀ ds i, Raises (S := LibSig) χ ρ (M.decide ds i)) (devices : List DeviceInfo) (i : Option String) :
    Raises (S := LibSig) χ ρ (decideTrust M devices i) := by
  unfold decideTrust askTrust reloadTrust devicesWithTrust
  lib_raises hb, [hd]
  all_goals first | exact h _ _ (by assumption) | exact hs

/-- `KeyError` and `UnknownNamespace` depend on what the loaded backends are. -/
theorem raisesOn_encrypt {pt : Dict Ns Bytes} {prio : Option (List Ns)} {χ' : Ev → Prop} (hχ : ∀ x, χ' x → ∀ e, x.2 = .error e → χ x.1 e)
    (hk : ∀ bs : List Ns, χ' ⟨.getBackends, .ok bs⟩ → ∀ ns ∈ bs, pt.get ns = none → ρ .keyError)
    (hu : ∀ (bs : List Ns) l, χ' ⟨.getBackends, .ok bs⟩ → prio = some l → (∃ ns ∈ l, ns ∉ bs) → ρ .unknownNamespace) (hs : ρ .stillUndecided)
    (hn : ∀ js, ρ (.noEligibleDevices js)) (hd : ∀ ds i, Raises (S := LibSig) χ ρ (M.decide ds i)) (jids : List Jid) (i : Option String) :
    RaisesOn (S := LibSig) χ' ρ (encrypt M jids pt prio i) := by
  refine .perform (fun e he => h _ e (hχ _ he e rfl)) fun available hav => .bind (.of (raises_liftE fun e he => ?_) hχ) fun order =>
    .bind (.of (raises_recipientDevices hb h _ _) hχ) fun x => .bind (.of (raises_decideTrust hb h hs hd _ _) hχ) fun devices =>
    .bind (.of ?_ hχ) fun devices' => .perform (fun e he => h _ e (hχ _ he e rfl)) fun bs hbs =>
    .of (.bind (.fold fun st ns hns => raises_encryptBackend hb h _ _ _ _ (hk bs hbs ns hns)) fun st => ?_) hχ
  · unfold effectiveOrder at he
    split at he
    · cases he
    · split at he <;> cases he
      rename_i l hl
      obtain ⟨ns, h1⟩ := List.exists_mem_of_length_pos hl
      obtain ⟨h1, h2⟩ := mem_setDiff.1 h1
      exact hu _ l hav rfl ⟨ns, mem_dedup.1 h1, h2⟩
  · unfold devicesWithTrust
    exact .filterAll fun _ _ => .bind (.perform (h _)) fun _ => .pure _
  · dsimp only
    split
    · exact hn _
    · exact .bind (.forEach fun _ _ => .perform (h _)) fun _ => .pure _

theorem raises_encrypt {pt : Dict Ns Bytes} (hk : ρ .keyError) (hu : ρ .unknownNamespace) (hs : ρ .stillUndecided) (hn : ∀ js, ρ (.noEligibleDevices js))
    (hd : ∀ ds i, Raises (S := LibSig) χ ρ (M.decide ds i)) (jids : List Jid) (prio : Option (List Ns)) (i : Option String) :
    Raises (S := LibSig) χ ρ (encrypt M jids pt prio i) := by
  refine .of_exec fun t e he ht => ?_
  exact (raisesOn_encrypt (χ' := fun x => ∀ e, x.2 = .error e → χ x.1 e) hb h (fun _ h => h) (fun _ _ _ _ _ => hk) (fun _ _ _ _ _ => hu) hs hn hd jids i).exec he ht

theorem raises_decrypt (hk : ρ .keyError) (hu : ρ .unknownNamespace) (h1 : ρ .messageNotForUs) (h2 : ρ .senderNotFound) (h3 : ρ .senderDistrusted)
    (h4 : ρ .noSession) (h5 : ρ .publicDataInconsistency) (msg : Message) : Raises (S := LibSig) χ ρ (decrypt M msg) := by
  unfold decrypt findSender decryptContent keyMaterial decryptKeyMaterial handleKeyExchange plaintextOf postDecrypt consumePreKey discardPreKey
    autoReply queueEmpty refillPreKeys
  have g1 := @raises_getDeviceInformation χ ρ M hb h
  have g2 := @raises_refreshDeviceList χ ρ M hb h hk hu
  have g3 := @raises_sendEmptyMessage χ ρ M h
  lib_raises hb, [g1, g2, g3]
  all_goals first | exact h _ _ (by assumption) | exact hu | exact h1 | exact h2 | exact h3 | exact h4 | exact h5

end SM
end Verif
