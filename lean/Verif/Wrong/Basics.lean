import Verif.Props.Fingerprint
import Verif.Props.Identity
import Verif.Props.Storage
import Verif.Props.Typed
import Verif.Wrong.Account
/-
Wrong programs in place of the storage, of the identity key pair, of fingerprints and of lengths of sending chains, and the claims that
reject them.  See Wrong/Encrypt.lean for the method.
-/
namespace Verif
namespace Wrong
open SM Spec

/-! ### Storage: C01, C02 -/

/-- The methods of a storage. -/
structure Sto where
  load : Bool → Key → R (Option JVal)
  store : Bool → Key → JVal → R Unit
  delete : Bool → Key → R Unit

/-- The methods as they are in the code. -/
def rightSto : Sto := ⟨Storage.load, Storage.store, Storage.delete⟩

/-- The calls on a storage, one after the other. -/
def callsBy (S : Sto) (cached : Bool) : List StCall → R (List Observed)
  | [] => .ret []
  | c :: cs => do
    let r ← Prog.tryElse
      (match c with
        | .load k => S.load cached k
        | .store k v => (do S.store cached k v; pure none)
        | .delete k => (do S.delete cached k; pure none))
      (fun e => pure (Except.error e)) (fun a => pure (Except.ok a))
    let rest ← callsBy S cached cs
    pure ((c, r) :: rest)

theorem callsBy_right (cached : Bool) (cs : List StCall) : callsBy rightSto cached cs = runCalls cached cs := by
  induction cs with
  | nil => rfl
  | cons c cs ih =>
    unfold callsBy runCalls
    rw [ih]
    cases c <;> rfl

/-- C01 for a storage. -/
def C01 (S : Sto) : Prop :=
  ∀ (cached : Bool) (cs : List StCall) (m : Key → Option JVal) (t : List (Event RawSig Exn)) (h : List Observed) (w' : RawW),
    Exec (callsBy S cached cs) t (.ok h) → RawKV.Runs ⟨m, fun _ => none⟩ t w' → Explains m h ∧ h.map (·.1) = cs

theorem C01_storage : C01 rightSto := fun cached cs m t h w' he hr =>
  C01_cache_transparent cached cs m t h w' (callsBy_right cached cs ▸ he) hr

/-- `store` leaves the cache alone (storage.py:269-270 forgotten). -/
def staleStore : Sto := { rightSto with store := fun _ k v => rcall (.rawStore k v) }

/-- `delete` leaves the cache alone (storage.py:286-287 forgotten). -/
def staleDelete : Sto := { rightSto with delete := fun _ k => rcall (.rawDelete k) }

/-- The cache is filled before the value was stored (storage.py:267-270 the other way around). -/
def hopefulStore (cached : Bool) (k : Key) (v : JVal) : R Unit := do
  if cached then rcall (.cacheSet k (some v)) else pure ()
  rcall (.rawStore k v)

def hopeful : Sto := { rightSto with store := hopefulStore }

/-- What happens when a program is run on the raw storage. -/
def rawTrial {α : Type} (p : R α) (m : Key → Option JVal) := runProg (RawKV.env fun _ => .error (.app 0)) RawKV.next 100 p ⟨m, fun _ => none⟩

theorem rawTrial_exec {α : Type} (p : R α) (m : Key → Option JVal) : Exec p (rawTrial p m).1 (rawTrial p m).2.1 := runProg_exec ..
theorem rawTrial_runs {α : Type} (p : R α) (m : Key → Option JVal) : RawKV.Runs ⟨m, fun _ => none⟩ (rawTrial p m).1 (rawTrial p m).2.2 :=
  runProg_runs RawKV _ (RawKV.env_ok _) 100 p _

theorem C01_staleStore : ¬ C01 staleStore := by
  intro hc
  have h := (hc true [.load .ownDeviceId, .store .ownDeviceId (.int 1), .load .ownDeviceId] (fun _ => none) _ _ _ (rawTrial_exec _ _) (rawTrial_runs _ _)).1
  cases h.2.1

theorem C01_staleDelete : ¬ C01 staleDelete := by
  intro hc
  have h := (hc true [.load .ownDeviceId, .delete .ownDeviceId, .load .ownDeviceId] (fun _ => some (.int 1)) _ _ _ (rawTrial_exec _ _) (rawTrial_runs _ _)).1
  cases h.2.1

/-- Stores fail. -/
def failing (w : RawW) : (o : ROp) → Except Exn o.Ret
  | .rawStore _ _ => .error (.app 0)
  | o => RawKV.env (fun _ => .error (.app 0)) w o

theorem failing_ok (w : RawW) (o : ROp) : RawKV.ok w ⟨o, failing w o⟩ := by
  cases o <;> first | trivial | rfl

theorem C01_hopeful : ¬ C01 hopeful := by
  intro hc
  have h := (hc true [.store .ownDeviceId (.int 1), .load .ownDeviceId] (fun _ => none) _ _ _
    (runProg_exec failing RawKV.next 100 _ ⟨fun _ => none, fun _ => none⟩) (runProg_runs RawKV failing failing_ok 100 _ _)).1
  cases h.1

/-- C02, `load_primitive`, for a program. -/
def C02 (load : Bool → Key → PyType → R (Option JVal)) : Prop :=
  ∀ (cached : Bool) (k : Key) (ty : PyType) (w w' : RawW) (t : List (Event RawSig Exn)) (r : Res Exn (Option JVal)), Coherent cached w →
    Exec (load cached k ty) t r → RawKV.Runs w t w' →
    r = .crashed ∨ (∃ e, ⟨ROp.rawLoad k, .error e⟩ ∈ t ∧ r = .raised e) ∨ TypedLoad (fun v b => b = v ∧ HasType ty v) (w.disk k) r

theorem C02_loadPrimitive : C02 Storage.loadPrimitive := C02_load_primitive

/-- The type is not checked (storage.py:318-321 forgotten). -/
def unchecked (cached : Bool) (k : Key) (_ : PyType) : R (Option JVal) := Storage.load cached k

/-- Values of the wrong type are taken for missing. -/
def shrugging (cached : Bool) (k : Key) (ty : PyType) : R (Option JVal) := do
  let v ← Storage.load cached k
  pure (v.filter fun v => isInstance v ty)

theorem C02_unchecked : ¬ C02 unchecked := by
  intro hc
  have h := hc false .ownDeviceId .int _ _ _ _ nofun (rawTrial_exec (unchecked false .ownDeviceId .int) fun _ => some (.str "x")) (rawTrial_runs _ _)
  rcases h with h | ⟨e, -, h⟩ | h
  · cases h
  · cases h
  · cases h with | value h => cases h.2

theorem C02_shrugging : ¬ C02 shrugging := by
  intro hc
  have h := hc false .ownDeviceId .int _ _ _ _ nofun (rawTrial_exec (shrugging false .ownDeviceId .int) fun _ => some (.str "x")) (rawTrial_runs _ _)
  rcases h with h | ⟨e, -, h⟩ | h
  · cases h
  · cases h
  · cases h

/-! ### Identity key pairs: C07, C08 -/

/-- `IdentityKeyPair.get` with another way to generate a key pair. -/
def getBy (generate : P (Bool × Bytes)) : P IdentityKeyPair := do
  let (isSeed, key) ← onNothing IdentityKeyPair.load generate
  pure (.of isSeed key)

theorem getBy_right : getBy IdentityKeyPair.generate = IdentityKeyPair.get := rfl

/-- C07 for a program. -/
def C07 (get : P IdentityKeyPair) : Prop :=
  ∀ (m0 m1 m2 m3 : Disk) (t1 t2 : List Ev) (kp : IdentityKeyPair) (r : Res Exn IdentityKeyPair) (cs : List (Mgr × Call)),
    Exec get t1 (.ok kp) → KV.Runs m0 t1 m1 → Hist KV m1 cs m2 →
    (∀ x ∈ cs, ∀ ds i, Pres KV (fun m => Spec.HoldsIkp m kp) (x.1.decide ds i)) → Exec get t2 r → KV.Runs m2 t2 m3 →
    (∀ kp', r = .ok kp' → kp' = kp) ∧ (∀ e, r = .raised e → e.isFailure) ∧ m3 = m2

theorem C07_get : C07 IdentityKeyPair.get := fun _ _ _ _ _ _ _ _ _ h1 hr1 hh happ h2 hr2 => C07_identity_stable h1 hr1 hh happ h2 hr2

/-- The key is not stored (identity_key_pair.py:83 forgotten). -/
def generateLost : P (Bool × Bytes) := do
  let key ← call (.tokenBytes 32)
  call (.store .ikpIsSeed (.bool true))
  pure (true, key)

/-- The key is stored as a private key (identity_key_pair.py:82: the wrong flag). -/
def generateMarked : P (Bool × Bytes) := do
  let key ← call (.tokenBytes 32)
  call (.store .ikpIsSeed (.bool false))
  Sto.storeBytes .ikpKey key
  pure (true, key)

/-- Random bytes, the n-th time they are asked for in a storage with or without a flag. -/
def random (m : Disk) : (o : Op) → Except Exn o.Ret
  | .load k => .ok (m k)
  | .store _ _ => .ok ()
  | .delete _ => .ok ()
  | .tokenBytes _ => .ok (if m .ikpIsSeed = none then [1] else [2])
  | _ => .error (.app 0)

theorem random_ok (m : Disk) (o : Op) : KV.ok m ⟨o, random m o⟩ := by
  cases o <;> first | trivial | rfl

/-- What happens when a program is run on a map. -/
def mapTrial {α : Type} (p : P α) (m : Disk) := runProg random KV.next 30 p m

theorem mapTrial_exec {α : Type} (p : P α) (m : Disk) : Exec p (mapTrial p m).1 (mapTrial p m).2.1 := runProg_exec ..
theorem mapTrial_runs {α : Type} (p : P α) (m : Disk) : KV.Runs m (mapTrial p m).1 (mapTrial p m).2.2 := runProg_runs KV random random_ok 30 p m

theorem C07_lost : ¬ C07 (getBy generateLost) := by
  intro hc
  have h := (hc (fun _ => none) _ _ _ _ _ (.seed [1]) _ [] (mapTrial_exec (getBy generateLost) _) (mapTrial_runs _ _) (.nil _) nofun
    (mapTrial_exec (getBy generateLost) _) (mapTrial_runs _ _)).1 (.seed [2]) rfl
  cases h

theorem C07_marked : ¬ C07 (getBy generateMarked) := by
  intro hc
  have h := (hc (fun _ => none) _ _ _ _ _ (.seed [1]) _ [] (mapTrial_exec (getBy generateMarked) _) (mapTrial_runs _ _) (.nil _) nofun
    (mapTrial_exec (getBy generateMarked) _) (mapTrial_runs _ _)).1 (.priv [1]) rfl
  cases h

/-- Any number of calls of the program. -/
inductive GetsBy (get : P IdentityKeyPair) : Disk → List Ev → Disk → Prop where
  | nil (m : Disk) : GetsBy get m [] m
  | snoc {m m1 m2 : Disk} {u t : List Ev} {r : Res Exn IdentityKeyPair} :
      GetsBy get m u m1 → Exec get t r → KV.Runs m1 t m2 → GetsBy get m (u ++ t) m2

/-- C08 for a program. -/
def C08 (get : P IdentityKeyPair) : Prop :=
  ∀ (m0 m1 m2 : Disk) (u t : List Ev) (kp : IdentityKeyPair), (m0 .ikpKey = none ∧ m0 .ikpIsSeed = none) → GetsBy get m0 u m1 →
    Exec get t (.ok kp) → KV.Runs m1 t m2 →
    ∃ k, kp = .seed k ∧ (⟨.tokenBytes 32, .ok k⟩ : Ev) ∈ u ++ t ∧
      m2 .ikpKey = some (.str (Base64.encode k)) ∧ m2 .ikpIsSeed = some (.bool true) ∧
      (∀ k', k' ≠ .ikpKey → k' ≠ .ikpIsSeed → m2 k' = m0 k') ∧
      (m1 .ikpKey ≠ none → m2 = m1) ∧ (m1 .ikpKey = none → (⟨.tokenBytes 32, .ok k⟩ : Ev) ∈ t) ∧
      ((∀ n b, (⟨.tokenBytes n, .ok b⟩ : Ev) ∈ u ++ t → b.length = n) → k.length = 32)

theorem GetsBy.right {m m' : Disk} {u : List Ev} (h : GetsBy IdentityKeyPair.get m u m') : Gets m u m' := by
  induction h with
  | nil => exact .nil _
  | snoc _ he hr ih => exact .snoc ih he hr

theorem C08_get : C08 IdentityKeyPair.get := fun _ _ _ _ _ _ hf hu he hr => C08_generation_crash_safe hf hu.right he hr

/-- The key is stored first (identity_key_pair.py:82-83 the other way around). -/
def generateSwapped : P (Bool × Bytes) := do
  let key ← call (.tokenBytes 32)
  Sto.storeBytes .ikpKey key
  call (.store .ikpIsSeed (.bool true))
  pure (true, key)

/-- A short key is generated (identity_key_pair.py:80). -/
def generateShort : P (Bool × Bytes) := do
  let key ← call (.tokenBytes 16)
  call (.store .ikpIsSeed (.bool true))
  Sto.storeBytes .ikpKey key
  pure (true, key)

theorem C08_short : ¬ C08 (getBy generateShort) := by
  intro hc
  obtain ⟨k, -, h, -⟩ := hc (fun _ => none) _ _ _ _ _ ⟨rfl, rfl⟩ (.nil _) (mapTrial_exec (getBy generateShort) _) (mapTrial_runs _ _)
  have h1 : (mapTrial (getBy generateShort) fun _ => none).1.any (fun e => match e.1 with | .tokenBytes 32 => true | _ => false) = false := by
    decide +kernel
  cases never h1 (e := ⟨.tokenBytes 32, .ok k⟩) (by simpa using h)

/-- If the process dies between the two stores, the key is replaced: it was stored, but not generated in the attempt that succeeds. -/
theorem C08_swapped : ¬ C08 (getBy generateSwapped) := by
  intro hc
  obtain ⟨k, -, -, -, -, -, h, -⟩ := hc (fun _ => none) _ _ _ _ _ ⟨rfl, rfl⟩
    (.snoc (.nil _) (runProg_exec random KV.next 3 (getBy generateSwapped) _) (runProg_runs KV random random_ok 3 _ _))
    (mapTrial_exec (getBy generateSwapped) _) (mapTrial_runs _ _)
  have h2 := congrFun (h nofun) .ikpIsSeed
  cases h2

/-! ### Fingerprints, chain lengths: C65, C64 -/

/-- C65 for a function. -/
def C65 (format : (Bytes → Bytes) → Bytes → List String) : Prop :=
  (∀ (conv : Bytes → Bytes) (ik : Bytes),
    Hex (conv ik) ((format conv ik).flatMap String.toList) ∧ (∀ g ∈ (format conv ik).dropLast, g.toList.length = 8) ∧
      ∀ g ∈ format conv ik, 1 ≤ g.toList.length ∧ g.toList.length ≤ 8) ∧
  (∀ (conv : Bytes → Bytes) (ik : Bytes), (conv ik).length = 32 →
    (format conv ik).length = 8 ∧ ∀ g ∈ format conv ik, g.toList.length = 8) ∧
  ∀ (conv : Bytes → Bytes) (a b : Bytes), format conv a = format conv b → conv a = conv b

theorem C65_formatIdentityKey : C65 formatIdentityKey := ⟨C65_hex, C65_groups, C65_injective⟩

/-- The key is not converted (sm:1525: `identity_key.hex()`). -/
def unconverted (_ : Bytes → Bytes) (ik : Bytes) : List String := formatIdentityKey id ik

/-- Leading zeros are left out (`hex(x)` for each byte instead of `bytes.hex()`). -/
def shortened (conv : Bytes → Bytes) (ik : Bytes) : List String :=
  (groupsOf8 ((conv ik).flatMap fun x => if x.toNat < 16 then [hexDigit x.toNat] else [hexDigit (x.toNat / 16), hexDigit (x.toNat % 16)])).map String.ofList

/-- The last group is lost (sm:1528: a range that ends early). -/
def truncated (conv : Bytes → Bytes) (ik : Bytes) : List String := (formatIdentityKey conv ik).dropLast

theorem C65_unconverted : ¬ C65 unconverted := by
  intro hc
  have h := (hc.2.1 (fun _ => List.replicate 32 0) [1] (by decide)).1
  revert h
  decide

theorem C65_shortened : ¬ C65 shortened := by
  intro hc
  have h := hc.2.2 id [1, 16] [17, 0] (by decide)
  revert h
  decide

theorem C65_truncated : ¬ C65 truncated := by
  intro hc
  have h := hc.2.2 id [1] [2] (by decide)
  revert h
  decide

/-- C64 for a program. -/
def C64 (lengths : DeviceInfo → P (Dict Ns (Option Nat))) : Prop :=
  ∀ (dev : DeviceInfo) (t : List Ev) (l : Dict Ns (Option Nat)), Exec (lengths dev) t (.ok l) →
    ∃ bs, (⟨.getBackends, .ok bs⟩ : Ev) ∈ t ∧ (bs.Nodup → (l.map (·.1)).Nodup) ∧
    (∀ ns, ns ∈ l.map (·.1) ↔ ns ∈ bs ∧ ns ∈ dev.namespaces) ∧
    ∀ ns n, (ns, n) ∈ l → ∃ s : Option Session, (⟨.loadSession ns dev.bareJid dev.deviceId, .ok s⟩ : Ev) ∈ t ∧
      n = s.map (·.sendingChainLength)

theorem C64_lengths : C64 getSendingChainLength := C64_entries

/-- All loaded backends are reported (sm:1291: no condition). -/
def reportAll (dev : DeviceInfo) : P (Dict Ns (Option Nat)) := do
  let bs ← call .getBackends
  Prog.mapAll bs fun ns => do
    let s : Option Session ← call (.loadSession ns dev.bareJid dev.deviceId)
    pure (ns, s.map fun s => s.sendingChainLength)

/-- Backends without a session are reported as 0 (sm:1295). -/
def reportZero (dev : DeviceInfo) : P (Dict Ns (Option Nat)) := do
  let bs ← call .getBackends
  Prog.mapAll (bs.filter fun ns => decide (ns ∈ dev.namespaces)) fun ns => do
    let s : Option Session ← call (.loadSession ns dev.bareJid dev.deviceId)
    pure (ns, some ((s.map fun s => s.sendingChainLength).getD 0))

def device7 : DeviceInfo := ⟨["n"], [("n", true)], "a", 7, [7], "x", none⟩

/-- There are no sessions. -/
def lonely : World → (o : Op) → Except Exn o.Ret
  | _, .loadSession .. => .ok none
  | w, o => genuine w o

theorem C64_reportAll : ¬ C64 reportAll := by
  intro hc
  obtain ⟨bs, -, -, h, -⟩ := hc device7 _ _ (trial_exec lonely (reportAll device7) World.started)
  have := (h "o").1 (by decide +kernel)
  revert this
  simp [device7]

theorem C64_reportZero : ¬ C64 reportZero := by
  intro hc
  obtain ⟨bs, -, -, -, h⟩ := hc device7 _ _ (trial_exec lonely (reportZero device7) World.started)
  obtain ⟨s, h1, h2⟩ := h "n" (some 0) (by decide +kernel)
  obtain ⟨w, h3⟩ := runProg_answers (Lib.env lonely) Lib.next 300 (reportZero device7) World.started _ h1
  cases h3
  cases h2

end Wrong
end Verif
