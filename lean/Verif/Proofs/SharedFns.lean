import Verif.Proofs.Shared
/-
Every function of the library (apart from `purge_bare_jid`) keeps the guarantees of Proofs/Shared.lean.
-/
namespace Verif
namespace Shared
open Spec

section forms
variable {pin : Pin} {A : Filled} {k : Key}

theorem form_ints {v : JVal} (h : ∃ l : List Int, v = .ofInts l) : ∃ b, (fun v => (checkList .int v).map (List.map JVal.asInt)) v = .ok b := by
  obtain ⟨l, rfl⟩ := h; exact ⟨l, read_ofInts l⟩
theorem form_strs {v : JVal} (h : ∃ l : List String, v = .ofStrs l) : ∃ b, (fun v => (checkList .str v).map (List.map JVal.asStr)) v = .ok b := by
  obtain ⟨l, rfl⟩ := h; exact ⟨l, read_ofStrs l⟩
theorem form_bools {v : JVal} (h : ∃ l : Dict String Bool, v = .ofBools l) :
    ∃ b, (fun v => (checkDict .bool v).map (List.map fun x => (x.1, x.2.asBool))) v = .ok b := by
  obtain ⟨l, rfl⟩ := h; exact ⟨l, read_ofBools l⟩
theorem form_optStr {v : JVal} (h : ∃ l : Option String, v = .ofOptStr l) : ∃ b, (fun v => (checkOptional .str v).map JVal.asOptStr) v = .ok b := by
  obtain ⟨l, rfl⟩ := h; exact ⟨l, read_ofOptStr l⟩
theorem form_str {v : JVal} (h : ∃ s : String, v = .str s) : ∃ b, (fun v => (checkPrimitive .str v).map JVal.asStr) v = .ok b := by
  obtain ⟨l, rfl⟩ := h; exact ⟨l, rfl⟩
theorem form_int {v : JVal} (h : ∃ s : Int, v = .int s) : ∃ b, (fun v => (checkPrimitive .int v).map JVal.asInt) v = .ok b := by
  obtain ⟨l, rfl⟩ := h; exact ⟨l, rfl⟩
theorem form_bool {v : JVal} (h : ∃ s : Bool, v = .bool s) : ∃ b, (fun v => (checkPrimitive .bool v).map JVal.asBool) v = .ok b := by
  obtain ⟨l, rfl⟩ := h; exact ⟨l, rfl⟩
theorem form_bytes {v : JVal} (h : ∃ b : Bytes, v = .str (Base64.encode b)) : ∃ b, checkBytes v = .ok b := by
  obtain ⟨l, rfl⟩ := h; exact ⟨l, by simp [checkBytes, Base64.decode_encode]⟩

theorem safe_loadInts (h : ∀ v, Form k v → ∃ l : List Int, v = .ofInts l) : Safe pin A (Sto.loadInts k) :=
  .typed fun v hv => form_ints (h v hv)
theorem safe_loadStrs (h : ∀ v, Form k v → ∃ l : List String, v = .ofStrs l) : Safe pin A (Sto.loadStrs k) :=
  .typed fun v hv => form_strs (h v hv)
theorem safe_loadStr (h : ∀ v, Form k v → ∃ l : String, v = .str l) : Safe pin A (Sto.loadStr k) :=
  .typed fun v hv => form_str (h v hv)

/-- Loading a device list: all its devices are known to have data, and no pinned device is missing. -/
theorem safe_loadList (j : Jid) : SafeX pin A (Sto.loadInts (.devList j)) (fun o l' =>
    (∀ d ∈ Maybe.maybe o [], ∀ k', Upd.Of j d k' → l' k') ∧ ∀ d, pin.known j d → d ∈ Maybe.maybe o []) (NoMiss pin) := by
  refine (SafeX.typed (k := .devList j) fun v hv => form_ints hv).mono ?_ fun _ h => h
  rintro o l' - ⟨v, rfl, h1, -, h3, h4⟩
  cases v with
  | none =>
    refine ⟨nofun, fun d hd => ?_⟩
    obtain ⟨lst, h, _⟩ := h3 d hd
    cases h
  | some x =>
    obtain ⟨lst, rfl⟩ := h1 x rfl
    have e : (checkList .int (.ofInts lst)).map (List.map JVal.asInt) = .ok lst := read_ofInts lst
    simp only [Option.map, e, Option.bind, Except.toOption, Maybe.maybe]
    refine ⟨fun d hd k' hk' => h4 k' ⟨lst, d, rfl, hd, hk'⟩, fun d hd => ?_⟩
    obtain ⟨lst', h, hm⟩ := h3 d hd
    cases form_inj_ints rfl (Option.some.inj h)
    exact hm

theorem safe_fromJust {α : Type} {o : Option α} (h : o ≠ none) : Safe pin A (Maybe.fromJust o : P α) := by
  cases o with
  | none => exact absurd rfl h
  | some a => exact .ret

end forms

/-- Facts used by almost every call: the label of the own device is stored. -/
def Own (M : Mgr) (A : Filled) : Prop := A (.devLabel M.ownJid M.ownDev)

section fns
variable {pin : Pin} {A : Filled} {M : Mgr}

theorem safe_nextOrRuntimeError {α : Type} (o : Option α) : Safe pin A (nextOrRuntimeError o) := by
  cases o
  · exact .raise ⟨nofun, nofun, nofun⟩
  · exact .ret

theorem safe_liftE {α : Type} {x : Except Exn α} (h : ∀ e, x = .error e → NoMiss pin e) : Safe pin A (liftE x) := by
  cases x with
  | error e => exact .raise (h e rfl)
  | ok a => exact .ret

theorem safe_activeNamespaces (dev : DeviceInfo) (e : Exn) (h : SM.activeNamespaces dev = .error e) : NoMiss pin e := by
  unfold SM.activeNamespaces at h
  split at h
  · cases h; exact ⟨nofun, nofun, nofun⟩
  · cases h

/-- Closes the steps of a program that need no knowledge about the storage. -/
macro "safe_tac" "[" ts:term,* "]" : tactic => `(tactic| repeat' (first
  | assumption
  $[| with_reducible exact $ts ..]*
  | exact Safe.ret | exact Safe.pure | (refine SafeX.raise ?_; assumption) | (refine SafeX.raise ⟨?_, ?_, ?_⟩ <;> (intro h; cases h; done))
  | exact safe_nextOrRuntimeError _
  | exact Safe.call rfl
  | with_reducible apply Safe.bind | with_reducible apply Safe.bind' | with_reducible apply Safe.tryElse
  | with_reducible apply Safe.when | with_reducible apply Safe.forEach | with_reducible apply Safe.fold
  | with_reducible apply Safe.mapAll | with_reducible apply Safe.filterAll
  | dsimp only
  | split
  | intro _))

/-! ### Device lists -/

theorem safe_addNewDevice (ns : Ns) (jid : Jid) (dl : DevList) (d : DevId) :
    SafeX pin A (SM.addNewDevice ns jid dl d) (fun _ l' => ∀ k, Upd.Of jid d k → l' k) (NoMiss pin) := by
  unfold SM.addNewDevice
  refine SafeX.bind (.store ⟨_, rfl⟩ trivial) fun _ l1 h1 q1 => ?_
  split
  · exact .raise ⟨nofun, nofun, nofun⟩
  refine SafeX.bind (.store ⟨_, rfl⟩ trivial) fun _ l2 h2 q2 => ?_
  refine (SafeX.store (k := .devNamespaces jid d) ⟨_, rfl⟩ trivial).mono (fun _ l3 h3 q3 => ?_) fun _ h => h
  rintro k (rfl | rfl | rfl)
  · exact h3 _ (h2 _ (q1 (perm_of (.inl rfl))))
  · exact h3 _ (q2 (perm_of (.inr (.inl rfl))))
  · exact q3 (perm_of (.inr (.inr rfl)))

theorem safe_updateListed (ns : Ns) (jid : Jid) (d : DevId) (l : Option String) (nss : List Ns) (a : Dict Ns Bool)
    (h : A (.devLabel jid d)) : Safe pin A (SM.updateListed M ns jid d l nss a) := by
  unfold SM.updateListed
  refine Safe.bind (.when fun _ => .store ⟨_, rfl⟩ trivial) fun _ => ?_
  refine Safe.typedJust (fun v hv => form_optStr hv) h fun label => ?_
  exact Safe.bind (.when fun _ => .store ⟨_, rfl⟩ trivial) fun _ => .when fun _ => .store ⟨_, rfl⟩ trivial

theorem safe_updateKnownDevice (ns : Ns) (jid : Jid) (dl : DevList) (d : DevId) (h : ∀ k, Upd.Of jid d k → A k) :
    Safe pin A (SM.updateKnownDevice M ns jid dl d) := by
  unfold SM.updateKnownDevice
  refine Safe.typedJust (fun v hv => form_strs hv) (h _ (.inr (.inr rfl))) fun nss => ?_
  refine Safe.typedJust (fun v hv => form_bools hv) (h _ (.inl rfl)) fun a => ?_
  split
  · exact safe_updateListed _ _ _ _ _ _ (h _ (.inr (.inl rfl)))
  · unfold SM.updateUnlisted
    refine .when fun _ => ?_
    split
    · exact .raise ⟨nofun, nofun, nofun⟩
    · exact .store ⟨_, rfl⟩ trivial
    · exact .ret

theorem safe_ensureOwnListed (hown : Own M A) (ns : Ns) (jid : Jid) (dl : DevList) : Safe pin A (SM.ensureOwnListed M ns jid dl) := by
  unfold SM.ensureOwnListed
  split
  · refine Safe.bind (.call rfl) fun bs => ?_
    split
    · refine Safe.typedJust (fun v hv => form_optStr hv) hown fun label => ?_
      exact Safe.bind (.call rfl) fun _ => .ret
    · exact .ret
  · exact .ret

theorem safe_updateDeviceList (hown : Own M A) (ns : Ns) (jid : Jid) (dl : DevList) :
    Safe pin A (SM.updateDeviceList M ns jid dl) := by
  unfold SM.updateDeviceList
  refine Safe.bind (.call rfl) fun bs => ?_
  split
  · exact .raise ⟨nofun, nofun, nofun⟩
  refine SafeX.bind (safe_loadList jid) fun o l1 h1 q1 => ?_
  refine SafeX.bind (safe_ensureOwnListed (h1 _ hown) ns jid dl) fun dl' l2 h2 _ => ?_
  refine SafeX.bind (SafeX.forEach (R := fun d l => ∀ k, Upd.Of jid d k → l k) (fun d l l' hl h k hk => hl k (h k hk))
    fun d _ => safe_addNewDevice ns jid dl' d) fun _ l3 h3 q3 => ?_
  refine SafeX.bind (Q := fun _ _ => True) (Safe.forEach fun d hd => safe_updateKnownDevice ns jid dl' d fun k hk => ?_) fun _ l4 h4 _ => ?_
  · exact h3 k (h2 k (q1.1 d (by simpa using hd) k hk))
  refine Safe.when fun _ => Safe.store ⟨_, rfl⟩ ?_
  intro lst hlst
  cases form_inj_ints rfl hlst
  refine ⟨fun d hd k hk => ?_, fun d hd => ?_⟩
  · rcases (show d ∈ dl.keys ∨ d ∈ dedup (Maybe.maybe o []) by simpa using hd) with hd | hd
    · by_cases hold : d ∈ dedup (Maybe.maybe o [])
      · exact h4 k (h3 k (h2 k (q1.1 d (by simpa using hold) k hk)))
      · exact h4 k (q3 d (by rw [SetOrder.mem_iter, mem_setDiff]; exact ⟨hd, hold⟩) k hk)
    · exact h4 k (h3 k (h2 k (q1.1 d (by simpa using hd) k hk)))
  · simp [q1.2 d hd]

theorem safe_refreshDeviceList (hown : Own M A) (ns : Ns) (jid : Jid) : Safe pin A (SM.refreshDeviceList M ns jid) :=
  Safe.bind (.call rfl) fun _ => safe_updateDeviceList hown _ _ _

theorem safe_refreshDeviceLists (hown : Own M A) (jid : Jid) : Safe pin A (SM.refreshDeviceLists M jid) :=
  Safe.bind (.call rfl) fun _ => .forEach fun _ _ => safe_refreshDeviceList hown _ _

/-! ### Device information -/

theorem safe_fetchIdentityKey (jid : Jid) (d : DevId) (h : pin.key jid d = none) (nss : List Ns) :
    Safe pin A (SM.fetchIdentityKey jid d nss) := by
  induction nss with
  | nil => exact .ret
  | cons ns nss ih =>
    unfold SM.fetchIdentityKey
    refine Safe.tryElse (.call rfl) (fun e he => ?_) fun b => ?_
    · split
      · exact ih
      · exact .raise he
    · refine Safe.bind (.store ⟨_, rfl⟩ ?_) fun _ => .ret
      intro b hb
      rw [h] at hb; cases hb

/-- The identity key of a pinned device is the pinned one. -/
theorem safe_identityKeyOf (jid : Jid) (d : DevId) (nss : List Ns) : SafeX pin A (SM.identityKeyOf M jid d nss)
    (fun o _ => ∀ b, pin.key jid d = some b → o = some (b, none)) (NoMiss pin) := by
  unfold SM.identityKeyOf
  refine SafeX.onNothing (N := pin.key jid d = none) ?_ fun hn => ?_
  · refine SafeX.bind ((SafeX.typed (k := .devIdentityKey jid d) fun v hv => form_bytes hv).mono
      (fun _ _ _ h => h) fun e he => ⟨he.2.1, he.2.2, fun h => absurd h he.1⟩) fun o l' hl ho => ?_
    obtain ⟨v, rfl, h1, -, h3, -⟩ := ho
    cases v with
    | none =>
      refine SafeX.bind (Q := fun _ _ => True) (.raise ⟨nofun, nofun, fun _ => ?_⟩) fun _ _ _ _ => .ret fun _ _ => ?_
      · cases hk : pin.key jid d with
        | none => rfl
        | some b => cases h3 b hk
      · intro b hb; cases h3 b hb
    | some x =>
      obtain ⟨b, rfl⟩ := h1 x rfl
      have e : checkBytes (.str (Base64.encode b)) = .ok b := by simp [checkBytes, Base64.decode_encode]
      simp only [Option.map, e, Option.bind, Except.toOption]
      refine SafeX.ret fun _ _ b' hb' => ?_
      have := h3 b' hb'
      have e' : checkBytes (.str (Base64.encode b')) = .ok b' := by simp [checkBytes, Base64.decode_encode]
      simp only [Option.some.injEq] at this
      rw [this] at e
      have := e.symm.trans e'
      cases this
      rfl
  · refine SafeX.bind (Q := fun _ _ => True) (safe_fetchIdentityKey jid d hn _) fun o l' hl _ => ?_
    split <;> exact SafeX.ret fun _ _ b hb => by rw [hn] at hb; cases hb

theorem safe_repairNamespaces (jid : Jid) (d : DevId) (nss : List Ns) (a : Dict Ns Bool) :
    Safe pin A (SM.repairNamespaces M jid d nss a) := by
  unfold SM.repairNamespaces
  split
  · exact Safe.bind (.store ⟨_, rfl⟩ trivial) fun _ => .ret
  · exact .ret

/-- The identity key reported for a pinned device is the pinned one, and it is reported. -/
theorem safe_deviceInformation (jid : Jid) (d : DevId) (h : ∀ k, Upd.Of jid d k → A k) : SafeX pin A (SM.deviceInformation M jid d)
    (fun o _ => (∀ x ∈ o, x.1.bareJid = jid ∧ x.1.deviceId = d) ∧
      ∀ b, pin.key jid d = some b → ∃ x, o = some (x, none) ∧ x.identityKey = b) (NoMiss pin) := by
  unfold SM.deviceInformation
  refine SafeX.bind (SafeX.typed fun v hv => form_strs hv) fun o l1 h1 ho => ?_
  obtain ⟨v, rfl, f1, f2, -, -⟩ := ho
  cases v with
  | none => exact absurd rfl (f2 (h _ (.inr (.inr rfl))))
  | some x =>
  obtain ⟨nss, rfl⟩ := f1 x rfl
  have e : (checkList .str (.ofStrs nss)).map (List.map JVal.asStr) = .ok nss := read_ofStrs nss
  simp only [Option.map, e, Option.bind, Except.toOption]
  refine SafeX.bind (p := Maybe.fromJust (some nss)) (SafeX.ret (Q := fun _ _ => True) fun _ _ => trivial) fun nss l2 h2 _ => ?_
  refine SafeX.bind (safe_identityKeyOf jid d _) fun o l3 h3 q3 => ?_
  split
  · refine SafeX.ret fun _ _ => ⟨nofun, fun b hb => ?_⟩
    cases q3 b hb
  · rename_i ik bundle
    have hq : ∀ b, pin.key jid d = some b → ik = b ∧ bundle = none := fun b hb => by cases q3 b hb; exact ⟨rfl, rfl⟩
    refine SafeX.bind (SafeX.typed fun v hv => form_bools hv) fun o l4 h4 ho => ?_
    obtain ⟨v, rfl, f1, f2, -, -⟩ := ho
    cases v with
    | none => exact absurd rfl (f2 (h3 _ (h2 _ (h1 _ (h _ (.inl rfl))))))
    | some x =>
    obtain ⟨act, rfl⟩ := f1 x rfl
    have e : (checkDict .bool (.ofBools act)).map (List.map fun x => (x.1, x.2.asBool)) = .ok act := read_ofBools act
    simp only [Option.map, e, Option.bind, Except.toOption]
    refine SafeX.bind (p := Maybe.fromJust (some act)) (SafeX.ret (Q := fun _ _ => True) fun _ _ => trivial) fun act l5 h5 _ => ?_
    refine SafeX.bind (SafeX.typed fun v hv => form_optStr hv) fun o l6 h6 ho => ?_
    obtain ⟨v, rfl, f1, f2, -, -⟩ := ho
    cases v with
    | none => exact absurd rfl (f2 (h5 _ (h4 _ (h3 _ (h2 _ (h1 _ (h _ (.inr (.inl rfl)))))))))
    | some x =>
    obtain ⟨lab, rfl⟩ := f1 x rfl
    have e : (checkOptional .str (.ofOptStr lab)).map JVal.asOptStr = .ok lab := read_ofOptStr lab
    simp only [Option.map, e, Option.bind, Except.toOption]
    refine SafeX.bind (p := Maybe.fromJust (some lab)) (SafeX.ret (Q := fun _ _ => True) fun _ _ => trivial) fun lab l7 h7 _ => ?_
    refine SafeX.bind (Q := fun _ _ => True) (safe_loadStr fun v hv => hv) fun lvl l8 h8 _ => ?_
    refine SafeX.bind (Q := fun _ _ => True) (safe_repairNamespaces jid d _ _) fun nss l9 h9 _ => ?_
    refine SafeX.ret fun _ _ => ⟨?_, fun b hb => ?_⟩
    · rintro x ⟨⟩; exact ⟨rfl, rfl⟩
    · obtain ⟨rfl, rfl⟩ := hq b hb
      exact ⟨_, rfl, rfl⟩

/-- ... in a list of device information. -/
def Pinned (pin : Pin) (jid : Jid) (devs : List DeviceInfo) : Prop :=
  ∀ x ∈ devs, ∀ b, pin.key jid x.deviceId = some b → x.identityKey = b

theorem safe_getDeviceInformation' (jid : Jid) : SafeX pin A (SM.getDeviceInformation' M jid)
    (fun x _ => Pinned pin jid x.1) (NoMiss pin) := by
  unfold SM.getDeviceInformation'
  refine SafeX.bind (safe_loadList jid) fun o l1 h1 q1 => ?_
  have key : ∀ (xs : List DevId) (b : List DeviceInfo × List Bundle), (∀ d ∈ xs, ∀ k, Upd.Of jid d k → l1 k) →
      Pinned pin jid b.1 → SafeX pin l1 (Prog.fold xs b fun (devices, cache) d => do
        match ← SM.deviceInformation M jid d with
        | none => pure (devices, cache)
        | some (dev, none) => pure (setAdd devices dev, cache)
        | some (dev, some bundle) => pure (setAdd devices dev, setAdd cache bundle)) (fun x _ => Pinned pin jid x.1) (NoMiss pin) := by
    intro xs
    induction xs with
    | nil => exact fun b _ hb => .ret fun _ _ => hb
    | cons d xs ih =>
      intro b hxs hb
      have hadd : ∀ x : DeviceInfo, x.bareJid = jid ∧ x.deviceId = d →
          (∀ b, pin.key jid d = some b → x.identityKey = b) → Pinned pin jid (setAdd b.1 x) := by
        intro x hx hk y hy b' hb'
        rcases (by simpa using hy : y ∈ b.1 ∨ y = x) with hy | rfl
        · exact hb y hy b' hb'
        · exact hk b' (hx.2 ▸ hb')
      refine SafeX.bind' (Q := fun x _ => Pinned pin jid x.1) ?_ fun b' l' hl hb' => (ih b' (fun d hd => hxs d (by simp [hd])) hb').weaken hl
      refine SafeX.bind (safe_deviceInformation jid d (hxs d (by simp))) fun o l2 h2 q2 => ?_
      split
      · exact .ret fun _ _ => hb
      · refine .ret fun _ _ => hadd _ (q2.1 _ rfl) fun b hb => ?_
        obtain ⟨x, hx, rfl⟩ := q2.2 b hb
        cases hx; rfl
      · refine .ret fun _ _ => hadd _ (q2.1 _ rfl) fun b hb => ?_
        obtain ⟨x, hx, rfl⟩ := q2.2 b hb
        cases hx
  exact key _ _ (fun d hd k hk => q1.1 d (by simpa using hd) k hk) nofun

theorem safe_getDeviceInformation (jid : Jid) : SafeX pin A (SM.getDeviceInformation M jid)
    (fun x _ => Pinned pin jid x) (NoMiss pin) :=
  SafeX.bind (safe_getDeviceInformation' jid) fun _ _ _ h => .ret fun _ _ => h

theorem safe_info' (jid : Jid) : Safe pin A (SM.getDeviceInformation' M jid) :=
  (safe_getDeviceInformation' jid).mono (fun _ _ _ _ => trivial) fun _ h => h

theorem safe_info (jid : Jid) : Safe pin A (SM.getDeviceInformation M jid) :=
  (safe_getDeviceInformation jid).mono (fun _ _ _ _ => trivial) fun _ h => h

theorem safe_getOwnDeviceInformation : Safe pin A (SM.getOwnDeviceInformation M) := by
  unfold SM.getOwnDeviceInformation
  safe_tac [safe_info]

theorem safe_setOwnLabel (label : Option String) : Safe pin A (SM.setOwnLabel M label) :=
  Safe.bind (.store ⟨_, rfl⟩ trivial) fun _ => by safe_tac []

theorem safe_setTrust (jid : Jid) (ik : Bytes) (l : String) : Safe pin A (SM.setTrust jid ik l) := .store ⟨_, rfl⟩ trivial

theorem safe_purgeBackend (ns : Ns) : Safe pin A (SM.purgeBackend M ns) := by
  have h1 : ∀ a, Safe pin A (call (.store (.devActive M.ownJid M.ownDev) (.ofBools a))) := fun a => .store ⟨_, rfl⟩ trivial
  have h2 : ∀ a, Safe pin A (call (.store (.devNamespaces M.ownJid M.ownDev) (.ofStrs a))) := fun a => .store ⟨_, rfl⟩ trivial
  unfold SM.purgeBackend
  safe_tac [safe_getOwnDeviceInformation, h1, h2]

theorem safe_retryUpload (ns : Ns) (fuel : Nat) : Safe pin A (SM.retryUpload M ns fuel) := by
  induction fuel with
  | zero => exact .raise ⟨nofun, nofun, nofun⟩
  | succ n ih => unfold SM.retryUpload; safe_tac []

theorem safe_manageRotation (p : Int) (fuel rounds : Nat) : Safe pin A (SM.manageRotation M p fuel rounds) := by
  induction rounds with
  | zero => exact .raise ⟨nofun, nofun, nofun⟩
  | succ n ih => unfold SM.manageRotation SM.rotationRound; safe_tac [safe_retryUpload]

theorem safe_ensureDataConsistency (hown : Own M A) : Safe pin A (SM.ensureDataConsistency M) := by
  have := fun ns => safe_refreshDeviceList (pin := pin) hown ns M.ownJid
  unfold SM.ensureDataConsistency; safe_tac [this]

theorem safe_replaceSessions (jid : Jid) (d : DevId) : Safe pin A (SM.replaceSessions M jid d) := by
  unfold SM.replaceSessions SM.replaceSession; safe_tac [safe_info]

theorem safe_getSendingChainLength (dev : DeviceInfo) : Safe pin A (SM.getSendingChainLength dev) := by
  unfold SM.getSendingChainLength; safe_tac []

theorem safe_sendEmptyMessage (ns : Ns) (s : Session) : Safe pin A (SM.sendEmptyMessage M ns s) := by
  unfold SM.sendEmptyMessage; safe_tac []

theorem safe_afterHistorySync : Safe pin A (SM.afterHistorySync M) := by
  have h1 : ∀ ns, Safe pin A (Sto.loadStrs (.queue ns)) := fun ns => safe_loadStrs fun v hv => hv
  have h2 : ∀ ns j, Safe pin A (Sto.loadInts (.queueJid ns j)) := fun ns j => safe_loadInts fun v hv => hv
  have h3 : ∀ ns, Safe pin A (call (.delete (.queue ns))) := fun ns => .delete (.inl ⟨ns, rfl⟩)
  have h4 : ∀ ns j, Safe pin A (call (.delete (.queueJid ns j))) := fun ns j => .delete (.inr ⟨ns, j, rfl⟩)
  unfold SM.afterHistorySync SM.sendQueuedBackend SM.sendQueuedJid SM.sendQueued
  safe_tac [h1, h2, h3, h4, safe_sendEmptyMessage]

/-! ### Encryption, decryption -/

theorem safe_recipientDevices (order : List Ns) (jids : List Jid) : Safe pin A (SM.recipientDevices M order jids) := by
  have h1 : ∀ dev, Safe pin A (liftE (SM.isValidRecipient M order dev)) := fun dev => safe_liftE fun e he => by
    unfold SM.isValidRecipient at he
    split at he
    · cases he
    · cases ha : SM.activeNamespaces dev with
      | error e' => rw [ha] at he; cases he; exact safe_activeNamespaces dev _ ha
      | ok a => rw [ha] at he; cases he
  have h2 : ∀ dev, Safe pin A (liftE (SM.applyPriority M order dev)) := fun dev => safe_liftE fun e he => by
    unfold SM.applyPriority at he
    cases ha : SM.activeNamespaces dev with
    | error e' => rw [ha] at he; cases he; exact safe_activeNamespaces dev _ ha
    | ok a => rw [ha] at he; cases he
  unfold SM.recipientDevices
  safe_tac [safe_info', h1, h2]

theorem safe_encryptTrusted (jids : List Jid) (cache : List Bundle) (pt : Dict Ns Bytes) (devs : List DeviceInfo) :
    Safe pin A (SM.encryptTrusted M jids cache pt devs) := by
  unfold SM.encryptTrusted SM.encryptBackend SM.encryptDevice SM.encryptForDevice SM.bundleFor SM.devicesWithTrust
  safe_tac []

theorem safe_encrypt (hd : ∀ ds i, Safe pin A (M.decide ds i)) (jids : List Jid) (pt : Dict Ns Bytes)
    (prio : Option (List Ns)) (i : Option String) : Safe pin A (SM.encrypt M jids pt prio i) := by
  have h1 : ∀ av, Safe pin A (liftE (SM.effectiveOrder av prio)) := fun av => safe_liftE fun e he => by
    unfold SM.effectiveOrder at he
    split at he
    · cases he
    · split at he
      · cases he; exact ⟨nofun, nofun, nofun⟩
      · cases he
  have h2 : ∀ j ik, Safe pin A (Sto.loadStr (.trust j ik)) := fun j ik => safe_loadStr fun v hv => hv
  unfold SM.encrypt SM.decideTrust SM.askTrust SM.devicesWithTrust SM.reloadTrust
  safe_tac [safe_recipientDevices, safe_encryptTrusted, hd, h1, h2]

theorem safe_decrypt (hown : Own M A) (msg : Message) : Safe pin A (SM.decrypt M msg) := by
  have h1 : ∀ ns, Safe pin A (Sto.loadStrs (.queue ns)) := fun ns => safe_loadStrs fun v hv => hv
  have h2 : ∀ ns j, Safe pin A (Sto.loadInts (.queueJid ns j)) := fun ns j => safe_loadInts fun v hv => hv
  have h3 : ∀ ns l, Safe pin A (call (.store (.queue ns) (.ofStrs l))) := fun ns l => .store ⟨_, rfl⟩ trivial
  have h4 : ∀ ns j l, Safe pin A (call (.store (.queueJid ns j) (.ofInts l))) := fun ns j l => .store ⟨_, rfl⟩ trivial
  have h5 := fun ns jid => safe_refreshDeviceList (pin := pin) hown ns jid
  unfold SM.decrypt SM.findSender SM.decryptContent SM.keyMaterial SM.plaintextOf SM.decryptKeyMaterial SM.handleKeyExchange
    SM.postDecrypt SM.consumePreKey SM.discardPreKey SM.refillPreKeys SM.autoReply SM.queueEmpty
  safe_tac [safe_info, h1, h2, h3, h4, h5, safe_sendEmptyMessage]

/-! ### Creation -/

theorem safe_ikp : Safe pin A IdentityKeyPair.get := by
  unfold IdentityKeyPair.get
  refine Safe.bind (SafeX.onNothing (N := True) ?_ fun _ => ?_) fun x => .ret
  · unfold IdentityKeyPair.load
    have h1 : ∀ {α : Type} (o : Option α), SafeX pin A (Maybe.fromJust o : P α) (fun _ _ => True)
        (fun e => e ≠ .typeError ∧ (e = .valueError → pin.value) ∧ (e = .nothingException → True)) := by
      intro α o
      cases o
      · exact .raise ⟨nofun, nofun, fun _ => trivial⟩
      · exact .ret fun _ _ => trivial
    have h2 : ∀ {α : Type} {p : P α}, Safe pin A p → SafeX pin A p (fun _ _ => True)
        (fun e => e ≠ .typeError ∧ (e = .valueError → pin.value) ∧ (e = .nothingException → True)) := fun h => SafeX.mono h (fun _ _ _ h => h) fun e he => ⟨he.2.1, he.2.2, fun _ => trivial⟩
    refine SafeX.bind (Q := fun _ _ => True) (h2 (Safe.typed fun v hv => form_bool hv)) fun o l hl _ => ?_
    refine SafeX.weaken ?_ hl
    refine SafeX.bind (h1 o) fun b l hl _ => SafeX.weaken ?_ hl
    refine SafeX.bind (Q := fun _ _ => True) (h2 (Safe.typed fun v hv => form_bytes hv)) fun o l hl _ => SafeX.weaken ?_ hl
    exact SafeX.bind (h1 o) fun b l hl _ => SafeX.weaken (.ret fun _ _ => trivial) hl
  · unfold IdentityKeyPair.generate
    exact Safe.bind (.call rfl) fun key => Safe.bind (.store ⟨_, rfl⟩ trivial) fun _ =>
      Safe.bind (.store ⟨_, rfl⟩ trivial) fun _ => .ret

theorem safe_handleChangedBackends (hown : Own M A) : Safe pin A (SM.handleChangedBackends M) := by
  have h1 : ∀ a, Safe pin A (call (.store (.devActive M.ownJid M.ownDev) (.ofBools a))) := fun a => .store ⟨_, rfl⟩ trivial
  have h2 : ∀ a, Safe pin A (call (.store (.devNamespaces M.ownJid M.ownDev) (.ofStrs a))) := fun a => .store ⟨_, rfl⟩ trivial
  have h3 := fun ns => safe_refreshDeviceList (pin := pin) hown ns M.ownJid
  unfold SM.handleChangedBackends SM.refillPreKeys
  safe_tac [safe_getOwnDeviceInformation, safe_purgeBackend, h1, h2, h3]

theorem safe_drawDeviceId (taken : List DevId) (fuel : Nat) : Safe pin A (SM.drawDeviceId taken fuel) := by
  induction fuel with
  | zero => exact .raise ⟨nofun, nofun, nofun⟩
  | succ n ih => unfold SM.drawDeviceId; safe_tac []

/-- The pins say nothing about the own account: nothing was stored for it yet. -/
def _root_.Verif.Pin.Fresh (pin : Pin) : Prop := (∀ d, ¬ pin.known pin.own d) ∧ ∀ d, pin.key pin.own d = none

theorem safe_storeOwnDevice (hj : M.ownJid = pin.own) (hf : pin.Fresh) (label : Option String) (ik : Bytes) (bs : List Ns) :
    SafeX pin A (SM.storeOwnDevice M label ik bs) (fun _ l' => Own M l' ∧ ∀ k, Upd.Of M.ownJid M.ownDev k → l' k) (NoMiss pin) := by
  unfold SM.storeOwnDevice
  refine SafeX.bind (.store ⟨_, rfl⟩ trivial) fun _ l1 h1 q1 => ?_
  refine SafeX.bind (.store ⟨_, rfl⟩ trivial) fun _ l2 h2 q2 => ?_
  refine SafeX.bind (.store ⟨_, rfl⟩ trivial) fun _ l3 h3 q3 => ?_
  have hall : ∀ k, Upd.Of M.ownJid M.ownDev k → l3 k := by
    rintro k (rfl | rfl | rfl)
    · exact h3 _ (q2 (perm_of (.inl rfl)))
    · exact q3 (perm_of (.inr (.inl rfl)))
    · exact h3 _ (h2 _ (q1 (perm_of (.inr (.inr rfl)))))
  refine SafeX.bind (p := Sto.storeBytes _ _) (.store ⟨_, rfl⟩ fun b hb => ?_) fun _ l4 h4 _ => ?_
  · rw [hj, hf.2] at hb; cases hb
  refine SafeX.bind (.store ⟨_, rfl⟩ fun lst hlst => ⟨fun d hd k hk => ?_, fun d hd => ?_⟩) fun _ l5 h5 _ => ?_
  · cases form_inj_ints rfl hlst
    cases (by simpa using hd : d = M.ownDev)
    exact h4 k (hall k hk)
  · rw [hj] at hd; exact absurd hd (hf.1 d)
  refine SafeX.bind (.store ⟨_, rfl⟩ trivial) fun _ l6 h6 _ => ?_
  refine (SafeX.store (k := .ownDeviceId) ⟨_, rfl⟩ fun d hd k hk => ?_).mono (fun _ l7 h7 _ => ⟨?_, fun k hk => ?_⟩) fun _ h => h
  · cases hd
    exact h6 k (h5 k (h4 k (hall k (hj ▸ hk))))
  · exact h7 _ (h6 _ (h5 _ (h4 _ (hall _ (.inr (.inl rfl))))))
  · exact h7 k (h6 k (h5 k (h4 k (hall k hk))))

theorem safe_firstRun (hj : M.ownJid = pin.own) (hf : pin.Fresh) (label : Option String) (ik : Bytes) (fuel : Nat) :
    SafeX pin A (SM.firstRun M label ik fuel) (fun d l' => l' (.devLabel M.ownJid d)) (NoMiss pin) := by
  unfold SM.firstRun
  refine SafeX.bind (Q := fun _ _ => True) (Safe.call rfl) fun bs l1 h1 _ => ?_
  refine SafeX.bind (Q := fun _ _ => True) (by unfold SM.takenDeviceIds; safe_tac []) fun taken l2 h2 _ => ?_
  refine SafeX.bind (Q := fun _ _ => True) (safe_drawDeviceId taken fuel) fun d l3 h3 _ => ?_
  refine SafeX.bind (Q := fun _ _ => True) (Safe.call rfl) fun bs' l4 h4 _ => ?_
  refine SafeX.bind (safe_storeOwnDevice (M := { M with ownDev := d }) hj hf label ik bs') fun _ l5 h5 q5 => ?_
  have h6 := fun ns => safe_refreshDeviceList (pin := pin) (M := { M with ownDev := d }) q5.1 ns M.ownJid
  refine SafeX.bind (Q := fun _ _ => True) (Safe.call rfl) fun bs l6 g6 _ => ?_
  refine SafeX.bind (Q := fun _ _ => True) (by safe_tac []) fun _ l7 g7 _ => ?_
  refine SafeX.bind (Q := fun _ _ => True) (Safe.call rfl) fun bs l8 g8 _ => ?_
  refine SafeX.bind (Q := fun _ _ => True) (by safe_tac []) fun _ l9 g9 _ => ?_
  refine SafeX.bind (Q := fun _ _ => True) (Safe.call rfl) fun bs l10 g10 _ => ?_
  refine SafeX.bind (Q := fun _ _ => True) (Safe.forEach fun ns _ => (h6 ns).weaken fun k hk => g10 k (g9 k (g8 k (g7 k (g6 k hk))))) fun _ l11 g11 _ => ?_
  exact .ret fun _ g12 => g12 _ (g11 _ (g10 _ (g9 _ (g8 _ (g7 _ (g6 _ q5.1))))))

theorem safe_create (hj : M.ownJid = pin.own) (hf : A .ownDeviceId ∨ pin.Fresh) (bs : List Ns) (label : Option String) (fuel : Nat)
    (hv : ((dedup bs).length = bs.length ∧ 25 ≤ M.threshold ∧ M.threshold ≤ 99) ∨ pin.value) :
    Safe pin A (SM.create M bs label fuel) := by
  unfold SM.create
  split
  · rename_i h
    exact .raise ⟨nofun, nofun, fun _ => hv.resolve_left fun h' => h h'.1⟩
  split
  · rename_i h
    exact .raise ⟨nofun, nofun, fun _ => hv.resolve_left fun h' => h h'.2⟩
  refine Safe.bind (.call rfl) fun _ => Safe.bind safe_ikp fun ikp => Safe.bind (.call rfl) fun _ => ?_
  refine SafeX.bind (Q := fun d l' => l' (.devLabel M.ownJid d)) (SafeX.onNothing (N := ¬ A .ownDeviceId) ?_ fun hn => ?_) fun d l' hl hd =>
    Safe.bind (safe_handleChangedBackends (M := { M with ownDev := d }) hd) fun _ => .ret
  · refine SafeX.bind ((SafeX.typed (k := .ownDeviceId) fun v hv => form_int hv).mono
      (fun _ _ _ h => h) fun e he => ⟨he.2.1, he.2.2, fun h => absurd h he.1⟩) fun o l' hl ho => ?_
    obtain ⟨v, rfl, h1, h2, -, h4⟩ := ho
    cases v with
    | none => exact .raise ⟨nofun, nofun, fun _ h => h2 h rfl⟩
    | some x =>
      obtain ⟨d, rfl⟩ := h1 x rfl
      refine SafeX.ret fun l'' hl'' => hl'' _ (h4 _ ⟨d, rfl, ?_⟩)
      rw [hj]
      exact .inr (.inl rfl)
  · exact safe_firstRun hj (hf.resolve_left hn) _ _ _

/-- Every call other than `purge_bare_jid`. -/
theorem safe_call (c : Call) (hj : M.ownJid = pin.own) (hd : ∀ ds i, Safe pin A (M.decide ds i))
    (hown : match c with
      | .create bs _ _ => (A .ownDeviceId ∨ pin.Fresh) ∧ (((dedup bs).length = bs.length ∧ 25 ≤ M.threshold ∧ M.threshold ≤ 99) ∨ pin.value)
      | .getIdentityKeyPair => True
      | .purgeBareJid _ => False
      | _ => Own M A) : Safe pin A (c.run M) := by
  cases c with
  | getIdentityKeyPair => exact Safe.bind safe_ikp fun _ => .ret
  | create bs label fuel => exact Safe.bind (safe_create hj hown.1 bs label fuel hown.2) fun _ => .ret
  | purgeBackend ns => exact safe_purgeBackend ns
  | purgeBareJid jid => exact hown.elim
  | ensureDataConsistency => exact safe_ensureDataConsistency hown
  | rotation p f r => exact safe_manageRotation p f r
  | updateDeviceList ns jid dl => exact safe_updateDeviceList hown ns jid dl
  | refreshDeviceList ns jid => exact safe_refreshDeviceList hown ns jid
  | refreshDeviceLists jid => exact safe_refreshDeviceLists hown jid
  | setTrust jid ik level => exact safe_setTrust jid ik level
  | replaceSessions jid d => exact Safe.bind (safe_replaceSessions jid d) fun _ => .ret
  | getSendingChainLength dev => exact Safe.bind (safe_getSendingChainLength dev) fun _ => .ret
  | setOwnLabel l => exact safe_setOwnLabel l
  | getDeviceInformation jid => exact Safe.bind (safe_info jid) fun _ => .ret
  | getOwnDeviceInformation => exact Safe.bind safe_getOwnDeviceInformation fun _ => .ret
  | beforeHistorySync => exact .call rfl
  | afterHistorySync => exact safe_afterHistorySync
  | encrypt jids pt prio i => exact Safe.bind (safe_encrypt hd jids pt prio i) fun _ => .ret
  | decrypt msg => exact Safe.bind (safe_decrypt hown msg) fun _ => .ret

end fns
end Shared
end Verif
