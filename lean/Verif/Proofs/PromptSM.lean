import Verif.Base.Prompt
import Verif.Proofs.RaisesCalls
/-
Failures of interactions in the functions of the session manager: passed on at once, or tolerated.
-/
namespace Verif

/-- The interactions whose failures no call tolerates. -/
def Op.quiet : Op → Bool
  | .downloadBundle .. | .buildActive .. | .encryptEmpty _ | .encryptKM .. | .sendMessage .. | .storeSession .. | .uploadBundle _ | .getBundle .. => false
  | _ => true

/-- A download of a bundle. -/
def Op.isBundleDownload : Op → Bool
  | .downloadBundle .. => true
  | _ => false

/-- What the functions shared by all calls need. -/
structure Tol (must may : Op → Exn → Prop) (ρ : Exn → Prop) : Prop extends Core ρ where
  quiet : ∀ o e, must o e → o.quiet = false
  need : ∀ ns j d e, must (.downloadBundle ns j d) e → e = .bundleDownloadFailed ∨ e = .bundleNotFound
  missing : ∀ ns j d e, e = .bundleDownloadFailed ∨ e = .bundleNotFound → may (.downloadBundle ns j d) e
  nothing' : ∀ k, may (.load k) .nothingException

/-- Failures of downloads of bundles only are tolerated. -/
def OnlyDownloads (must : Op → Exn → Prop) : Prop := ∀ o e, must o e → o.isBundleDownload = true

theorem Tol.no {must may : Op → Exn → Prop} {ρ : Exn → Prop} (hb : Tol must may ρ) {o : Op} {e : Exn} (h : must o e) (ho : o.quiet = true) : False := by
  rw [hb.quiet o e h] at ho
  cases ho

theorem OnlyDownloads.no {must : Op → Exn → Prop} (hb : OnlyDownloads must) {o : Op} {e : Exn} (h : must o e) (ho : o.isBundleDownload = false) : False := by
  rw [hb o e h] at ho
  cases ho

section
variable {α β : Type} {must may : Op → Exn → Prop} {ρ : Exn → Prop}

theorem prompt_liftE {x : Except Exn α} (h : ∀ e, x = .error e → ρ e) : Prompt (S := LibSig) must may ρ (liftE x) := by
  cases x with
  | ok a => trivial
  | error e => exact h e rfl

theorem prompt_next (hr : ρ .runtimeError) (x : Option α) : Prompt (S := LibSig) must may ρ (nextOrRuntimeError x) := by
  cases x with
  | none => exact hr
  | some a => trivial

theorem prompt_fmap {f : α → Except Exn β} {m : Option α} (h : ∀ a e, f a = .error e → ρ e) :
    Prompt (S := LibSig) must may ρ (Maybe.fmap f m : P (Option β)) := by
  cases m with
  | none => trivial
  | some a =>
    simp only [Maybe.fmap]
    cases hf : f a with
    | ok b => trivial
    | error e => exact h a e hf

theorem prompt_fromJust (hb : Core ρ) (m : Option α) : Prompt (S := LibSig) must may ρ (Maybe.fromJust m : P α) := by
  cases m with
  | none => exact hb.nothing
  | some a => trivial

section
variable (hb : Core ρ) {k : Key} (h : ∀ e, ¬ must (.load k) e)
include hb h
theorem prompt_loadInt : Prompt (S := LibSig) must may ρ (Sto.loadInt k) :=
  .bind (.perform h) fun _ => prompt_fmap fun _ _ he => by rw [checkPrimitive_error (map_error he)]; exact hb.type
theorem prompt_loadStr : Prompt (S := LibSig) must may ρ (Sto.loadStr k) :=
  .bind (.perform h) fun _ => prompt_fmap fun _ _ he => by rw [checkPrimitive_error (map_error he)]; exact hb.type
theorem prompt_loadBool : Prompt (S := LibSig) must may ρ (Sto.loadBool k) :=
  .bind (.perform h) fun _ => prompt_fmap fun _ _ he => by rw [checkPrimitive_error (map_error he)]; exact hb.type
theorem prompt_loadBytes : Prompt (S := LibSig) must may ρ (Sto.loadBytes k) :=
  .bind (.perform h) fun _ => prompt_fmap fun _ _ he => by
    rcases checkBytes_error he with rfl | rfl
    · exact hb.type
    · exact hb.value
theorem prompt_loadOptStr : Prompt (S := LibSig) must may ρ (Sto.loadOptStr k) :=
  .bind (.perform h) fun _ => prompt_fmap fun _ _ he => by rw [checkOptional_error (map_error he)]; exact hb.type
theorem prompt_loadInts : Prompt (S := LibSig) must may ρ (Sto.loadInts k) :=
  .bind (.perform h) fun _ => prompt_fmap fun _ _ he => by rw [checkList_error (map_error he)]; exact hb.type
theorem prompt_loadStrs : Prompt (S := LibSig) must may ρ (Sto.loadStrs k) :=
  .bind (.perform h) fun _ => prompt_fmap fun _ _ he => by rw [checkList_error (map_error he)]; exact hb.type
theorem prompt_loadBools : Prompt (S := LibSig) must may ρ (Sto.loadBools k) :=
  .bind (.perform h) fun _ => prompt_fmap fun _ _ he => by rw [checkDict_error (map_error he)]; exact hb.type
end

/-- `except NothingException` around loads. -/
theorem prompt_onNothing (hb : Tol must may ρ) {p h : P α}
    (hp : Prompt (S := LibSig) (fun o _ => ∀ k, o ≠ .load k) (fun _ _ => False) (fun e => Core ρ → ρ e) p) (hh : Prompt (S := LibSig) must may ρ h) :
    Prompt (S := LibSig) must may ρ (onNothing p h) := by
  unfold onNothing
  refine .tryCatch hp (fun o e ho => ?_) fun e he => ?_
  · obtain ⟨k, rfl⟩ : ∃ k, o = .load k := Classical.byContradiction fun hn => ho fun k hk => hn ⟨k, hk⟩
    by_cases h0 : e = .nothingException
    · subst h0
      exact .inl ⟨hb.nothing' k, by rw [if_pos rfl]; exact hh⟩
    · exact .inr ⟨fun h => hb.no h rfl, by rw [if_neg h0]⟩
  · split
    · exact hh
    · exact he hb.toCore
end

/-- Decompose a goal `Prompt must may ρ p`, given `hb : Core ρ` and lemmas for called functions. -/
macro "lib_prompt" hb:term "," "[" ts:term,* "]" : tactic => `(tactic| repeat' (first
  | assumption
  $[| with_reducible exact $ts ..]*
  | exact Prompt.ret _ | exact Prompt.pure _
  | exact prompt_fromJust $hb _
  | with_reducible apply prompt_loadInt $hb | with_reducible apply prompt_loadStr $hb | with_reducible apply prompt_loadBool $hb
  | with_reducible apply prompt_loadBytes $hb | with_reducible apply prompt_loadOptStr $hb
  | with_reducible apply prompt_loadInts $hb | with_reducible apply prompt_loadStrs $hb | with_reducible apply prompt_loadBools $hb
  | with_reducible apply prompt_liftE
  | with_reducible apply Prompt.bind | with_reducible apply Prompt.bind'
  | with_reducible apply Prompt.when | with_reducible apply Prompt.forEach | with_reducible apply Prompt.fold
  | with_reducible apply Prompt.mapAll | with_reducible apply Prompt.filterAll
  | with_reducible apply Prompt.perform
  | intro _
  | dsimp only
  | split))

namespace SM
variable {must may : Op → Exn → Prop} {ρ : Exn → Prop} {M : Mgr} (hb : Tol must may ρ)
include hb

omit hb in
theorem coreOf {ρ : Exn → Prop} : Core fun e => Core ρ → ρ e := ⟨(·.nothing), (·.type), (·.value)⟩

theorem prompt_fetchIdentityKey (jid : Jid) (d : DevId) (nss : List Ns) : Prompt (S := LibSig) must may ρ (fetchIdentityKey jid d nss) := by
  induction nss with
  | nil => exact .ret _
  | cons ns nss ih =>
    unfold fetchIdentityKey
    refine .tryElse (must' := fun (o : Op) _ => o ≠ .downloadBundle ns jid d) (ρ' := fun _ => False) (.perform fun _ h => h rfl) (fun o e ho => ?_)
      (fun _ h => h.elim) fun b => ?_
    · obtain rfl : o = .downloadBundle ns jid d := Classical.byContradiction ho
      by_cases h0 : e = .bundleDownloadFailed ∨ e = .bundleNotFound
      · exact .inl ⟨hb.missing _ _ _ _ h0, by rw [if_pos h0]; exact ih⟩
      · exact .inr ⟨fun hm => h0 (hb.need _ _ _ _ hm), by rw [if_neg h0]⟩
    · unfold Sto.storeBytes
      exact .bind (.perform (fun _ h => hb.no h rfl)) fun _ => .pure _

theorem prompt_identityKeyOf (jid : Jid) (d : DevId) (nss : List Ns) : Prompt (S := LibSig) must may ρ (identityKeyOf M jid d nss) := by
  unfold identityKeyOf
  refine prompt_onNothing hb ?_ ?_
  · refine .bind (prompt_loadBytes coreOf fun _ h => h _ rfl) fun _ => .bind (prompt_fromJust coreOf _) fun _ => .pure _
  · refine .bind (prompt_fetchIdentityKey hb _ _ _) fun _ => ?_
    split <;> exact .pure _

theorem prompt_deviceInformation (jid : Jid) (d : DevId) : Prompt (S := LibSig) must may ρ (deviceInformation M jid d) := by
  unfold deviceInformation repairNamespaces
  have hsub := @prompt_identityKeyOf must may ρ M hb
  lib_prompt hb.toCore, [hsub]
  all_goals (refine hb.no (by assumption) ?_; rfl)

theorem prompt_getDeviceInformation' (jid : Jid) : Prompt (S := LibSig) must may ρ (getDeviceInformation' M jid) := by
  unfold getDeviceInformation'
  have hsub := @prompt_deviceInformation must may ρ M hb
  lib_prompt hb.toCore, [hsub]
  all_goals (refine hb.no (by assumption) ?_; rfl)

theorem prompt_getDeviceInformation (jid : Jid) : Prompt (S := LibSig) must may ρ (getDeviceInformation M jid) :=
  .bind (prompt_getDeviceInformation' hb jid) fun _ => .pure _

theorem prompt_getOwnDeviceInformation (hr : ρ .runtimeError) : Prompt (S := LibSig) must may ρ (getOwnDeviceInformation M) :=
  .bind (prompt_getDeviceInformation hb _) fun _ => .bind (prompt_next hr _) fun _ => .pure _

theorem prompt_identityKeyPair : Prompt (S := LibSig) must may ρ IdentityKeyPair.get := by
  unfold IdentityKeyPair.get
  refine .bind (prompt_onNothing hb ?_ ?_) fun _ => .pure _
  · unfold IdentityKeyPair.load
    lib_prompt coreOf, []
    all_goals (rename_i h; exact h _ rfl)
  · unfold IdentityKeyPair.generate Sto.storeBytes
    lib_prompt hb.toCore, []
    all_goals (refine hb.no (by assumption) ?_; rfl)

/-! ### The calls that tolerate nothing but failing downloads -/
section
variable (hd : OnlyDownloads must)
include hd

omit hb in
theorem prompt_addNewDevice (hk : ρ .keyError) (ns : Ns) (jid : Jid) (dl : DevList) (d : DevId) : Prompt (S := LibSig) must may ρ (addNewDevice ns jid dl d) := by
  unfold addNewDevice
  lib_prompt hb.toCore, []
  all_goals (refine hd.no (by assumption) ?_; rfl)

theorem prompt_updateKnownDevice (hk : ρ .keyError) (ns : Ns) (jid : Jid) (dl : DevList) (d : DevId) : Prompt (S := LibSig) must may ρ (updateKnownDevice M ns jid dl d) := by
  unfold updateKnownDevice updateListed updateUnlisted
  lib_prompt hb.toCore, []
  all_goals first | (refine hd.no (by assumption) ?_; rfl) | exact hk

theorem prompt_updateDeviceList (hk : ρ .keyError) (hu : ρ .unknownNamespace) (ns : Ns) (jid : Jid) (dl : DevList) :
    Prompt (S := LibSig) must may ρ (updateDeviceList M ns jid dl) := by
  unfold updateDeviceList ensureOwnListed
  have h1 := @prompt_addNewDevice must may ρ hd hk
  have h2 := @prompt_updateKnownDevice must may ρ M hb hd hk
  lib_prompt hb.toCore, [h1, h2]
  all_goals first | (refine hd.no (by assumption) ?_; rfl) | exact hu

theorem prompt_refreshDeviceList (hk : ρ .keyError) (hu : ρ .unknownNamespace) (ns : Ns) (jid : Jid) : Prompt (S := LibSig) must may ρ (refreshDeviceList M ns jid) := by
  unfold refreshDeviceList
  have h1 := @prompt_updateDeviceList must may ρ M hb hd hk hu
  lib_prompt hb.toCore, [h1]
  all_goals (refine hd.no (by assumption) ?_; rfl)

omit hb in
theorem prompt_setOwnLabel (label : Option String) : Prompt (S := LibSig) must may ρ (setOwnLabel M label) :=
  .bind (.perform (fun _ h => hd.no h rfl)) fun _ => .bind (.perform (fun _ h => hd.no h rfl)) fun _ => .forEach fun _ _ =>
    .bind (.perform (fun _ h => hd.no h rfl)) fun _ => .perform (fun _ h => hd.no h rfl)

theorem prompt_purgeBackend (hr : ρ .runtimeError) (ns : Ns) : Prompt (S := LibSig) must may ρ (purgeBackend M ns) := by
  unfold purgeBackend
  have h1 := @prompt_getOwnDeviceInformation must may ρ M hb hr
  lib_prompt hb.toCore, [h1]
  all_goals (refine hd.no (by assumption) ?_; rfl)

omit hd in
theorem prompt_collectIdentityKeys (jid : Jid) (ids : List DevId) : Prompt (S := LibSig) must may ρ (collectIdentityKeys jid ids) := by
  unfold collectIdentityKeys
  refine .fold fun _ _ _ => prompt_onNothing hb ?_ (.pure _)
  exact .bind (prompt_loadBytes coreOf fun _ h => h _ rfl) fun _ => .bind (prompt_fromJust coreOf _) fun _ => .pure _

theorem prompt_purgeBareJid (jid : Jid) : Prompt (S := LibSig) must may ρ (purgeBareJid M jid) := by
  unfold purgeBareJid deleteDevice
  have h1 := @prompt_collectIdentityKeys must may ρ hb
  lib_prompt hb.toCore, [h1]
  all_goals (refine hd.no (by assumption) ?_; rfl)

theorem prompt_ensureDataConsistency (hk : ρ .keyError) (hu : ρ .unknownNamespace) : Prompt (S := LibSig) must may ρ (ensureDataConsistency M) := by
  refine .bind (.perform (fun _ h => hd.no h rfl)) fun _ => .forEach fun ns _ => .bind (prompt_refreshDeviceList hb hd hk hu _ _) fun _ =>
    .bind (.perform (fun _ h => hd.no h rfl)) fun b => .bind ?_ fun _ => .when fun _ => .perform (fun _ h => hd.no h rfl)
  refine .tryElse (must' := fun (o : Op) _ => o ≠ .downloadBundle ns M.ownJid M.ownDev) (ρ' := fun _ => False) (.perform fun _ h => h rfl) (fun o e ho => ?_)
    (fun _ h => h.elim) fun b => .pure _
  obtain rfl : o = .downloadBundle ns M.ownJid M.ownDev := Classical.byContradiction ho
  by_cases h0 : e = .bundleDownloadFailed ∨ e = .bundleNotFound
  · exact .inl ⟨hb.missing _ _ _ _ h0, by rw [if_pos h0]; exact .pure _⟩
  · exact .inr ⟨fun hm => h0 (hb.need _ _ _ _ hm), by rw [if_neg h0]⟩

omit hb in
theorem prompt_drawDeviceId (ho : ρ .outOfFuel) (taken : List DevId) (fuel : Nat) : Prompt (S := LibSig) must may ρ (drawDeviceId taken fuel) := by
  induction fuel with
  | zero => exact ho
  | succ n ih =>
    refine .bind (.perform (fun _ h => hd.no h rfl)) fun _ => ?_
    dsimp only
    split
    · exact .pure _
    · exact ih

theorem prompt_firstRun (hk : ρ .keyError) (ho : ρ .outOfFuel) (hu : ρ .unknownNamespace) (label : Option String) (ik : Bytes) (fuel : Nat) :
    Prompt (S := LibSig) must may ρ (firstRun M label ik fuel) := by
  unfold firstRun takenDeviceIds storeOwnDevice Sto.storeBytes
  have h1 := @prompt_drawDeviceId must may ρ hd ho
  have h2 := fun M ns jid => prompt_refreshDeviceList (M := M) hb hd hk hu ns jid
  lib_prompt hb.toCore, [h1, h2]
  all_goals (refine hd.no (by assumption) ?_; rfl)

theorem prompt_handleChangedBackends (hk : ρ .keyError) (hr : ρ .runtimeError) (hu : ρ .unknownNamespace) : Prompt (S := LibSig) must may ρ (handleChangedBackends M) := by
  unfold handleChangedBackends refillPreKeys
  have h1 := @prompt_getOwnDeviceInformation must may ρ M hb hr
  have h2 := @prompt_refreshDeviceList must may ρ M hb hd hk hu
  have h3 := @prompt_purgeBackend must may ρ M hb hd hr
  lib_prompt hb.toCore, [h1, h2, h3]
  all_goals (refine hd.no (by assumption) ?_; rfl)

theorem prompt_create (hk : ρ .keyError) (hr : ρ .runtimeError) (ho : ρ .outOfFuel) (hu : ρ .unknownNamespace) (bs : List Ns) (label : Option String) (fuel : Nat) :
    Prompt (S := LibSig) must may ρ (create M bs label fuel) := by
  unfold create
  have h1 := @prompt_identityKeyPair must may ρ hb
  have h3 := fun M => @prompt_handleChangedBackends must may ρ M hb hd hk hr hu
  have h4 : ∀ ik, Prompt (S := LibSig) must may ρ (onNothing (do Maybe.fromJust (← Sto.loadInt .ownDeviceId)) (firstRun M label ik fuel)) := fun ik =>
    prompt_onNothing hb (.bind (prompt_loadInt coreOf fun _ h => h _ rfl) fun _ => prompt_fromJust coreOf _) (prompt_firstRun hb hd hk ho hu _ _ _)
  lib_prompt hb.toCore, [h1, h3, h4]
  · exact hb.value
  · exact hb.value
  all_goals (refine hd.no (by assumption) ?_; rfl)

omit hb in
theorem prompt_getSendingChainLength (dev : DeviceInfo) : Prompt (S := LibSig) must may ρ (getSendingChainLength dev) :=
  .bind (.perform (fun _ h => hd.no h rfl)) fun _ => .mapAll fun _ _ => .bind (.perform (fun _ h => hd.no h rfl)) fun _ => .pure _

omit hb in
theorem prompt_sendEmptyMessage (ns : Ns) (s : Session) : Prompt (S := LibSig) must may ρ (sendEmptyMessage M ns s) :=
  .bind (.perform (fun _ h => hd.no h rfl)) fun _ => .bind (.perform (fun _ h => hd.no h rfl)) fun _ => .bind (.perform (fun _ h => hd.no h rfl)) fun _ => .perform (fun _ h => hd.no h rfl)

theorem prompt_afterHistorySync : Prompt (S := LibSig) must may ρ (afterHistorySync M) := by
  unfold afterHistorySync sendQueuedBackend sendQueuedJid sendQueued
  have h1 := @prompt_sendEmptyMessage must may ρ M hd
  lib_prompt hb.toCore, [h1]
  all_goals (refine hd.no (by assumption) ?_; rfl)

theorem prompt_decrypt (hk : ρ .keyError) (hu : ρ .unknownNamespace) (h1 : ρ .messageNotForUs) (h2 : ρ .senderNotFound) (h3 : ρ .senderDistrusted)
    (h4 : ρ .noSession) (h5 : ρ .publicDataInconsistency) (msg : Message) : Prompt (S := LibSig) must may ρ (decrypt M msg) := by
  unfold decrypt findSender decryptContent keyMaterial decryptKeyMaterial handleKeyExchange plaintextOf postDecrypt consumePreKey discardPreKey
    autoReply queueEmpty refillPreKeys
  have g1 := @prompt_getDeviceInformation must may ρ M hb
  have g2 := @prompt_refreshDeviceList must may ρ M hb hd hk hu
  have g3 := @prompt_sendEmptyMessage must may ρ M hd
  lib_prompt hb.toCore, [g1, g2, g3]
  all_goals first | (refine hd.no (by assumption) ?_; rfl) | exact hu | exact h1 | exact h2 | exact h3 | exact h4 | exact h5
end

/-! ### The rotation task -/

omit hb in
theorem prompt_retryUpload (hq : ∀ o e, must o e → (∃ b, o = .uploadBundle b) ∨ o.isBundleDownload = true) (hm : ∀ b e, must (.uploadBundle b) e → e = .bundleUploadFailed)
    (hy : ∀ b, may (.uploadBundle b) .bundleUploadFailed) (hy' : ∀ ns j d, may (.getBundle ns j d) .bundleUploadFailed) (ho : ρ .outOfFuel) (ns : Ns) (fuel : Nat) :
    Prompt (S := LibSig) must may ρ (retryUpload M ns fuel) := by
  have hs : ∀ n e, ¬ must (.sleep n) e := fun n e h => by rcases hq _ _ h with ⟨b, h⟩ | h <;> cases h
  induction fuel with
  | zero => exact ho
  | succ n ih =>
    unfold retryUpload
    refine .tryElse (must' := fun (o : Op) _ => o ≠ .getBundle ns M.ownJid M.ownDev ∧ ∀ b, o ≠ .uploadBundle b) (ρ' := fun _ => False)
      (.bind (.perform fun _ h => h.1 rfl) fun _ => .perform fun _ h => h.2 _ rfl) (fun o e ho' => ?_) (fun _ h => h.elim) fun _ => .pure _
    have hcase : o = .getBundle ns M.ownJid M.ownDev ∨ ∃ b, o = .uploadBundle b := by
      apply Classical.byContradiction
      intro hn
      exact ho' ⟨fun h => hn (.inl h), fun b h => hn (.inr ⟨b, h⟩)⟩
    by_cases h0 : e = .bundleUploadFailed
    · subst h0
      refine .inl ⟨?_, by rw [if_pos rfl]; exact .bind (.perform (hs _)) fun _ => ih⟩
      rcases hcase with rfl | ⟨b, rfl⟩
      · exact hy' _ _ _
      · exact hy b
    · refine .inr ⟨fun h => ?_, by rw [if_neg h0]⟩
      rcases hcase with rfl | ⟨b, rfl⟩
      · rcases hq _ _ h with ⟨b, h⟩ | h <;> cases h
      · exact h0 (hm b e h)

omit hb in
theorem prompt_manageRotation (hq : ∀ o e, must o e → (∃ b, o = .uploadBundle b) ∨ o.isBundleDownload = true) (hm : ∀ b e, must (.uploadBundle b) e → e = .bundleUploadFailed)
    (hy : ∀ b, may (.uploadBundle b) .bundleUploadFailed) (hy' : ∀ ns j d, may (.getBundle ns j d) .bundleUploadFailed) (ho : ρ .outOfFuel)
    (period : Int) (fuel rounds : Nat) : Prompt (S := LibSig) must may ρ (manageRotation M period fuel rounds) := by
  have hn : ∀ {o : Op} {e : Exn}, must o e → (∀ b, o ≠ .uploadBundle b) → o.isBundleDownload = false → False := fun h h1 h2 => by
    rcases hq _ _ h with ⟨b, h3⟩ | h3
    · exact h1 b h3
    · rw [h2] at h3; cases h3
  induction rounds with
  | zero => exact ho
  | succ n ih =>
    refine .bind (.bind (.perform fun _ h => hn h (fun _ h => by cases h) rfl) fun _ => .bind (.fold fun _ _ _ =>
      .bind (.perform fun _ h => hn h (fun _ h => by cases h) rfl) fun _ => ?_) fun _ => .perform fun _ h => hn h (fun _ h => by cases h) rfl) fun _ => ih
    dsimp only
    split
    · exact .bind (.perform fun _ h => hn h (fun _ h => by cases h) rfl) fun _ => .bind (prompt_retryUpload hq hm hy hy' ho ..) fun _ => .pure _
    · exact .pure _

/-! ### Replacing sessions -/

/-- The interactions of the body of `replace_sessions`. -/
def replacing : Op → Bool
  | .encryptEmpty _ | .downloadBundle .. | .buildActive .. | .sendMessage .. | .storeSession .. => true
  | _ => false

theorem prompt_replaceSessions (hr : ρ .runtimeError) (hm : ∀ o e, must o e → e.isOmemo = true)
    (hy : ∀ o e, replacing o = true → e.isOmemo = true → may o e) (jid : Jid) (d : DevId) : Prompt (S := LibSig) must may ρ (replaceSessions M jid d) := by
  refine .bind (prompt_getDeviceInformation hb _) fun _ => .bind (prompt_next hr _) fun _ => .bind (.perform fun _ h => hb.no h rfl) fun _ =>
    .bind (.filterAll fun _ _ => .bind (.perform fun _ h => hb.no h rfl) fun _ => .pure _) fun _ => .bind (.perform fun _ h => hb.no h rfl) fun _ => .fold fun _ _ _ => ?_
  split
  · refine .tryElse (must' := fun o _ => replacing o = false) (ρ' := fun _ => False) ?_ (fun o e ho => ?_) (fun _ h => h.elim) fun _ => .pure _
    · exact .bind (.perform nofun) fun _ => .bind (.perform nofun) fun _ => .bind (.perform nofun) fun _ => .bind (.perform nofun) fun _ => .perform nofun
    · by_cases h0 : e.isOmemo = true
      · exact .inl ⟨hy o e (by simpa using ho) h0, by rw [if_pos h0]; exact .pure _⟩
      · exact .inr ⟨fun h => h0 (hm o e h), by rw [if_neg h0]⟩
  · exact .pure _

/-! ### Encryption -/

/-- The interactions in which `encrypt` encrypts for one device. -/
def encrypting : Op → Bool
  | .downloadBundle .. | .buildActive .. | .encryptKM .. => true
  | _ => false

theorem prompt_recipientDevices (hk : ρ .keyError) (order : List Ns) (jids : List Jid) : Prompt (S := LibSig) must may ρ (recipientDevices M order jids) := by
  have hall : ∀ dev e, activeNamespaces dev = .error e → ρ e := by
    intro dev e he
    unfold activeNamespaces at he
    split at he <;> cases he
    exact hk
  unfold recipientDevices
  refine .bind (.mapAll fun jid _ => prompt_getDeviceInformation' hb jid) fun tmp => .bind (.filterAll fun dev _ => prompt_liftE fun e he => ?_) fun ds =>
    .bind (.mapAll fun dev _ => prompt_liftE fun e he => hall dev e (map_error he)) fun _ => .pure _
  unfold isValidRecipient at he
  split at he
  · cases he
  · exact hall dev e (map_error he)

section
variable (hm : ∀ o e, must o e → encrypting o = true ∧ isNonCritical e = true) (hy : ∀ o e, encrypting o = true → isNonCritical e = true → may o e)
include hm

omit hm in
theorem prompt_decideTrust (hs : ρ .stillUndecided) (hd : ∀ ds i, Prompt (S := LibSig) must may ρ (M.decide ds i)) (devices : List DeviceInfo) (i : Option String) :
    Prompt (S := LibSig) must may ρ (decideTrust M devices i) := by
  unfold decideTrust askTrust reloadTrust devicesWithTrust
  lib_prompt hb.toCore, [hd]
  all_goals first | (refine hb.no (by assumption) ?_; rfl) | exact hs

include hy
omit hb in
theorem prompt_encryptDevice (ns : Ns) (cache : List Bundle) (km : PlainKM) (st : EncState) (dev : DeviceInfo) :
    Prompt (S := LibSig) must may ρ (encryptDevice M ns cache km st dev) := by
  unfold encryptDevice
  refine .bind (.perform fun _ h => by cases (hm _ _ h).1) fun s => ?_
  refine .tryElse (must' := fun o _ => encrypting o = false) (ρ' := fun _ => False) ?_ (fun o e ho => ?_) (fun _ h => h.elim) fun _ => .ret _
  · unfold encryptForDevice bundleFor
    lib_prompt coreOf, []
    all_goals (rename_i h; cases h)
  · by_cases h0 : isNonCritical e = true
    · exact .inl ⟨hy o e (by simpa using ho) h0, by rw [if_pos h0]; exact .pure _⟩
    · exact .inr ⟨fun h => h0 (hm o e h).2, by rw [if_neg h0]⟩

theorem prompt_encrypt {pt : Dict Ns Bytes} (hk : ρ .keyError) (hu : ρ .unknownNamespace) (hs : ρ .stillUndecided) (hn : ∀ js, ρ (.noEligibleDevices js))
    (hd : ∀ ds i, Prompt (S := LibSig) must may ρ (M.decide ds i)) (jids : List Jid) (prio : Option (List Ns)) (i : Option String) :
    Prompt (S := LibSig) must may ρ (encrypt M jids pt prio i) := by
  unfold encrypt encryptTrusted encryptBackend devicesWithTrust
  have h1 := @prompt_recipientDevices must may ρ M hb hk
  have h2 := @prompt_decideTrust must may ρ M hb hs hd
  have h3 := @prompt_encryptDevice must may ρ M hm hy
  lib_prompt hb.toCore, [h1, h2, h3]
  all_goals first | exact hk | exact hn _ | (have := (hm _ _ (by assumption)).1; cases this) | skip
  all_goals
    rename_i he
    unfold effectiveOrder at he
    split at he
    · cases he
    · split at he <;> cases he
      exact hu
end

end SM
end Verif
