import Verif.Props.Failures
import Verif.Props.Frame
import Verif.Props.Outward
import Verif.Props.Secrecy
import Verif.Props.Work
import Verif.Wrong.Decrypt
import Verif.Wrong.Account
/-
Wrong programs in place of `get_device_information` and of device list updates, and programs that look at plaintexts.  See Wrong/Encrypt.lean for
the method.
-/
namespace Verif
namespace Wrong
open SM Spec

/-- A program in place of `get_device_information`. -/
abbrev Inf := Mgr → Jid → P (List DeviceInfo)

/-- The steps of `get_device_information`. -/
structure InfSteps where
  /-- sm:1427-1462 -/
  fetch : Jid → DevId → List Ns → P (Option Bundle)
  /-- sm:1467-1470 -/
  level : Jid → Bytes → P String
  /-- sm:1472-1479 -/
  repair : Jid → DevId → List Ns → Dict Ns Bool → P (List Ns)

/-- The steps as they are in the code. -/
def rightInf (M : Mgr) : InfSteps where
  fetch := fetchIdentityKey
  level := fun jid ik => do pure (Maybe.maybe (← Sto.loadStr (.trust jid ik)) M.undecided)
  repair := repairNamespaces M

def infoKeyBy (S : InfSteps) (M : Mgr) (jid : Jid) (d : DevId) (namespaces : List Ns) : P (Option (Bytes × Option Bundle)) :=
  onNothing
    (do
      let ik ← Maybe.fromJust (← Sto.loadBytes (.devIdentityKey jid d))
      pure (some (ik, none)))
    (do
      match ← S.fetch jid d (M.O.iter namespaces) with
      | none => pure none
      | some bundle => pure (some (bundle.identityKey, some bundle)))

def deviceBy (S : InfSteps) (M : Mgr) (jid : Jid) (d : DevId) : P (Option (DeviceInfo × Option Bundle)) := do
  let namespaces := dedup (← Maybe.fromJust (← Sto.loadStrs (.devNamespaces jid d)))
  match ← infoKeyBy S M jid d namespaces with
  | none => pure none
  | some (ik, bundle) => do
    let active ← Maybe.fromJust (← Sto.loadBools (.devActive jid d))
    let label ← Maybe.fromJust (← Sto.loadOptStr (.devLabel jid d))
    let level ← S.level jid ik
    let namespaces ← S.repair jid d namespaces active
    pure (some ({ namespaces := namespaces, active := active, bareJid := jid, deviceId := d, identityKey := ik,
                  trustLevelName := level, label := label }, bundle))

def infoBy (S : Mgr → InfSteps) : Inf := fun M jid => do
  let deviceList := dedup (Maybe.maybe (← Sto.loadInts (.devList jid)) [])
  let (devices, _) ← Prog.fold (M.O.iter deviceList) (([], []) : List DeviceInfo × List Bundle) fun (devices, cache) d => do
    match ← deviceBy (S M) M jid d with
    | none => pure (devices, cache)
    | some (dev, none) => pure (setAdd devices dev, cache)
    | some (dev, some bundle) => pure (setAdd devices dev, setAdd cache bundle)
  pure devices

theorem bind_assoc {α β γ : Type} (p : P α) (f : α → P β) (g : β → P γ) : (p >>= f) >>= g = p >>= fun a => f a >>= g := by
  induction p with
  | ret | raise => rfl
  | op o k ih => exact congrArg (Prog.op o) (funext ih)

theorem infoBy_right : infoBy rightInf = getDeviceInformation := by
  have hk (M : Mgr) : infoKeyBy (rightInf M) M = identityKeyOf M := rfl
  have hd (M : Mgr) : deviceBy (rightInf M) M = deviceInformation M := by
    funext jid d
    unfold deviceBy deviceInformation
    rw [hk]
    refine congrArg (Bind.bind _) (funext fun a => congrArg (Bind.bind _) (funext fun b => congrArg (Bind.bind _) (funext fun c => ?_)))
    cases c with
    | none => rfl
    | some x =>
      refine congrArg (Bind.bind _) (funext fun a => congrArg (Bind.bind _) (funext fun b => congrArg (Bind.bind _) (funext fun c => ?_)))
      refine congrArg (Bind.bind _) (funext fun e => ?_)
      exact bind_assoc ..
  funext M jid
  unfold infoBy getDeviceInformation getDeviceInformation'
  rw [hd]
  exact (bind_assoc ..).symm

/-! ### C21, C23: what is returned -/

/-- C21 for a program. -/
def C21 (info : Inf) : Prop :=
  ∀ (M : Mgr) (jid : Jid) (t : List Ev) (w w' : World) (devs : List DeviceInfo), Exec (info M jid) t (.ok devs) → Lib.Runs w t w' →
    (devs.map (·.deviceId)).Nodup ∧
      (∀ dev ∈ devs, Describes M.undecided jid w.disk w'.disk dev ∧ Origin jid w.disk t dev.deviceId dev.identityKey) ∧
      ∀ d, Known w.disk jid d → (∃ dev ∈ devs, dev.deviceId = d) ∨ Spec.NoKey jid w.disk t d

theorem C21_info : C21 getDeviceInformation := C21_exact

/-- C23 for a program. -/
def C23 (info : Inf) : Prop :=
  ∀ (M : Mgr) (jid : Jid) (t : List Ev) (devs : List DeviceInfo), Exec (info M jid) t (.ok devs) →
    ∀ dev ∈ devs, ∀ ns ∈ dev.namespaces, ∃ b, dev.active.get ns = some b

theorem C23_info : C23 getDeviceInformation := C23_activity

/-- Only the bundle of the first namespace is tried (sm:1443: `break` for `continue`). -/
def fetchFirst (jid : Jid) (d : DevId) : List Ns → P (Option Bundle)
  | [] => .ret none
  | ns :: _ =>
    Prog.tryElse (call (.downloadBundle ns jid d))
      (fun e => if e = .bundleDownloadFailed ∨ e = .bundleNotFound then pure none else throwE e)
      (fun bundle => do
        Sto.storeBytes (.devIdentityKey jid d) bundle.identityKey
        pure (some bundle))

/-- The identity key found in a bundle is not stored (sm:1449-1452 forgotten). -/
def fetchOnly (jid : Jid) (d : DevId) : List Ns → P (Option Bundle)
  | [] => .ret none
  | ns :: rest =>
    Prog.tryElse (call (.downloadBundle ns jid d))
      (fun e => if e = .bundleDownloadFailed ∨ e = .bundleNotFound then fetchOnly jid d rest else throwE e)
      (fun bundle => pure (some bundle))

def halfhearted : Inf := infoBy fun M => { rightInf M with fetch := fetchFirst }
def unretentive : Inf := infoBy fun M => { rightInf M with fetch := fetchOnly }

/-- Devices nothing was decided about have the level of the first one that was (a constant here; sm:1469: the wrong default). -/
def wellMeaning : Inf := infoBy fun M => { rightInf M with level := fun jid ik => do pure (Maybe.maybe (← Sto.loadStr (.trust jid ik)) "trusted") }

/-- Namespaces without activity information stay (sm:1472-1479 forgotten). -/
def unrepaired : Inf := infoBy fun M => { rightInf M with repair := fun _ _ namespaces _ => pure namespaces }

/-- Bundles of "n" cannot be found. -/
def halfGone : World → (o : Op) → Except Exn o.Ret
  | w, .downloadBundle ns j d => if ns = "n" then .error .bundleNotFound else genuine w (.downloadBundle ns j d)
  | w, o => genuine w o

theorem halfGone_ok (w : World) (o : Op) (e : Exn) (h : halfGone w o = .error e) : e.isInternal = false := by
  cases o <;> simp only [halfGone] at h <;> first
    | exact genuine_ok w _ e h
    | (split at h
       · cases h; rfl
       · exact genuine_ok w _ e h)

/-- A device of "a" with two namespaces and no identity key yet. -/
def World.keyless : World := ⟨fun k => match k with
  | .devList "a" => some (.ofInts [7])
  | .devNamespaces "a" 7 => some (.ofStrs ["n", "o"])
  | .devActive "a" 7 => some (.ofBools [("n", true), ("o", true)])
  | .devLabel "a" 7 => some (.ofOptStr none)
  | _ => none, ["n", "o"], false, []⟩

theorem keyless_known : Known World.keyless.disk "a" 7 := ⟨[7], rfl, by simp⟩
theorem torn_known : Known World.torn.disk "a" 7 := ⟨[7], rfl, by simp⟩

/-- The real program returns the device. -/
theorem info_keyless : (trial halfGone (getDeviceInformation Mgr.ex "a") World.keyless).2.1 =
    .ok [⟨["n", "o"], [("n", true), ("o", true)], "a", 7, [7], "undecided", none⟩] := by decide +kernel

theorem C21_halfhearted : ¬ C21 halfhearted := by
  intro hc
  have hr : (trial halfGone (halfhearted Mgr.ex "a") World.keyless).2.1 = .ok [] := by decide +kernel
  rcases (hc Mgr.ex "a" _ _ _ _ (hr ▸ trial_exec halfGone (halfhearted Mgr.ex "a") World.keyless) (trial_runs halfGone_ok _ _)).2.2 7 keyless_known with h | h
  · obtain ⟨_, h, -⟩ := h; cases h
  · have h1 := h.2 "o" ⟨["n", "o"], rfl, by simp⟩
    have hn : (trial halfGone (halfhearted Mgr.ex "a") World.keyless).1.any (fun e => match e with | ⟨.downloadBundle "o" _ _, _⟩ => true | _ => false) = false := by
      decide +kernel
    rcases h1 with h1 | h1 <;> cases never hn h1

theorem C21_unretentive : ¬ C21 unretentive := by
  intro hc
  have hr : (trial halfGone (unretentive Mgr.ex "a") World.keyless).2.1 = .ok [⟨["n", "o"], [("n", true), ("o", true)], "a", 7, [7], "undecided", none⟩] := by
    decide +kernel
  obtain ⟨s, h, -⟩ := ((hc Mgr.ex "a" _ _ _ _ (hr ▸ trial_exec halfGone (unretentive Mgr.ex "a") World.keyless) (trial_runs halfGone_ok _ _)).2.1 _ (.head _)).1.key
  have hn : (trial halfGone (unretentive Mgr.ex "a") World.keyless).2.2.disk (.devIdentityKey "a" 7) = none := rfl
  rw [hn] at h
  cases h

theorem C21_wellMeaning : ¬ C21 wellMeaning := by
  intro hc
  have hr : (trial halfGone (wellMeaning Mgr.ex "a") World.keyless).2.1 = .ok [⟨["n", "o"], [("n", true), ("o", true)], "a", 7, [7], "trusted", none⟩] := by
    decide +kernel
  rcases ((hc Mgr.ex "a" _ _ _ _ (hr ▸ trial_exec halfGone (wellMeaning Mgr.ex "a") World.keyless) (trial_runs halfGone_ok _ _)).2.1 _ (.head _)).1.level with h | ⟨-, h⟩
  · cases h
  · exact absurd h (by decide)

theorem C23_unrepaired : ¬ C23 unrepaired := by
  intro hc
  have hr : (trial picky (unrepaired Mgr.ex "a") World.torn).2.1 = .ok [⟨["n", "o"], [("o", false)], "a", 7, [5], "undecided", none⟩] := by decide +kernel
  obtain ⟨b, h⟩ := hc Mgr.ex "a" _ _ (hr ▸ trial_exec picky (unrepaired Mgr.ex "a") World.torn) _ (.head _) "n" (.head _)
  cases h

/-! ### C80: what is written -/

/-- C80 for a program in place of `get_device_information`. -/
def C80 (info : Inf) : Prop :=
  ∀ (M : Mgr) (jid : Jid) (t : List Ev) (r : Res Exn (List DeviceInfo)), Exec (info M jid) t r →
    Within (MayStore M (.getDeviceInformation jid)) (MayDelete (.getDeviceInformation jid)) t

/-- A program whose result is not looked at. -/
theorem exec_forget {α : Type} {p : P α} {t r} (h : Exec p t r) : ∃ r', Exec (do let _ ← p; pure ()) t r' := by
  cases r with
  | ok a => exact ⟨.ok (), exec_seq_ok.2 ⟨t, a, [], by simp, h, .ret _⟩⟩
  | raised e => exact ⟨.raised e, exec_seq.2 (.inr (.inl ⟨_, h, rfl⟩))⟩
  | crashed => exact ⟨.crashed, exec_seq.2 (.inr (.inr ⟨h, rfl⟩))⟩

theorem C80_info : C80 getDeviceInformation := fun M jid t r he => by
  obtain ⟨r', h⟩ := exec_forget he
  have := Verif.C80 { M with decide := fun _ _ => pure () } (.getDeviceInformation jid) (fun _ => False) (fun _ => False)
    (fun _ _ t r h => by cases h; exact ⟨nofun, nofun⟩) t r' h
  exact ⟨fun k v a hm => (this.stores k v a hm).resolve_right fun h => h.1, fun k a hm => (this.deletes k a hm).resolve_right fun h => h.1⟩

/-- The level of devices nothing was decided about is written down. -/
def settling : Inf := infoBy fun M => { rightInf M with level := fun jid ik => do
  let l ← Sto.loadStr (.trust jid ik)
  Prog.when (l = none) (SM.setTrust jid ik M.undecided)
  pure (Maybe.maybe l M.undecided) }

theorem C80_settling : ¬ C80 settling := by
  intro hc
  obtain ⟨u, ⟨o, x⟩, v, ht, hb⟩ := find (t := (trial halfGone (settling Mgr.ex "a") World.keyless).1)
    (f := fun e => match e with | ⟨.store (.trust ..) _, _⟩ => true | _ => false) (by decide +kernel)
  split at hb
  · rename_i heq
    rw [heq] at ht
    have := (hc Mgr.ex "a" _ _ (trial_exec halfGone (settling Mgr.ex "a") World.keyless)).stores _ _ _ (ht ▸ List.mem_append_right _ (.head _))
    obtain ⟨d, h | h⟩ := this <;> cases h
  · cases hb

/-! ### C110: failures -/

/-- C110, failures that are not tolerated, for a program in place of `get_device_information`. -/
def C110 (info : Inf) : Prop :=
  ∀ (M : Mgr) (jid : Jid) (u v : List Ev) (o : Op) (e : Exn) (r : Res Exn (List DeviceInfo)), Exec (info M jid) (u ++ ⟨o, .error e⟩ :: v) r →
    ¬ Tolerated (.getDeviceInformation jid) o e → ¬ Odd (.getDeviceInformation jid) o e → v = [] ∧ r = .raised e

theorem C110_info : C110 getDeviceInformation := fun M jid u v o e r he h1 h2 => by
  have hf : ∀ r', Exec (do let _ ← getDeviceInformation M jid; pure ()) (u ++ ⟨o, .error e⟩ :: v) r' → v = [] ∧ r' = .raised e := fun r' h =>
    (Verif.C110_failures M (.getDeviceInformation jid) nofun _ r' h).passed u o e v rfl h1 h2
  cases r with
  | ok a => cases (hf _ (exec_seq_ok.2 ⟨_, a, [], by simp, he, .ret _⟩)).2
  | raised x =>
    obtain ⟨h3, h4⟩ := hf _ (exec_seq.2 (.inr (.inl ⟨_, he, rfl⟩)))
    cases h4
    exact ⟨h3, rfl⟩
  | crashed => cases (hf _ (exec_seq.2 (.inr (.inr ⟨he, rfl⟩)))).2

/-- Every exception while downloading a bundle is taken for a missing bundle (sm:1440: `except Exception`). -/
def fetchAnyhow (jid : Jid) (d : DevId) : List Ns → P (Option Bundle)
  | [] => .ret none
  | ns :: rest =>
    Prog.tryElse (call (.downloadBundle ns jid d))
      (fun _ => fetchAnyhow jid d rest)
      (fun bundle => do
        Sto.storeBytes (.devIdentityKey jid d) bundle.identityKey
        pure (some bundle))

def imperturbable : Inf := infoBy fun M => { rightInf M with fetch := fetchAnyhow }

/-- Downloading bundles is interrupted. -/
def interrupted : World → (o : Op) → Except Exn o.Ret
  | _, .downloadBundle .. => .error (.app 3)
  | w, o => genuine w o

theorem C110_imperturbable : ¬ C110 imperturbable := by
  intro hc
  obtain ⟨u, ⟨o, x⟩, v, ht, hb⟩ := find (t := (trial interrupted (imperturbable Mgr.ex "a") World.keyless).1)
    (f := fun e => match e with | ⟨.downloadBundle .., .error (.app 3)⟩ => true | _ => false) (by decide +kernel)
  split at hb
  · rename_i heq
    rw [heq] at ht
    have h := hc Mgr.ex "a" u v _ _ _ (ht ▸ trial_exec interrupted (imperturbable Mgr.ex "a") World.keyless) (by rintro (h | h) <;> cases h) (by rintro ⟨⟩)
    have hr : (trial interrupted (imperturbable Mgr.ex "a") World.keyless).2.1 = .ok [] := by decide +kernel
    rw [hr] at h
    cases h.2
  · cases hb

/-! ### C72: backends that are not loaded -/

/-- C72 for a program in place of `decrypt`. -/
def C72 (dec : Dec) : Prop := ∀ (M : Mgr) (msg : Message) (t : List Ev) (r), Exec (dec M msg) t r → Guarded UsesLoaded t

theorem C72_decrypt : C72 decrypt := fun M msg t r he => by
  obtain ⟨r', h⟩ := exec_forget he
  exact Verif.C72 { M with decide := fun _ _ => pure () } (.decrypt msg) (fun _ _ t r h => by cases h; exact fun h1 e h2 hh => by simp at hh) h

theorem C72_open : ¬ C72 open' := by
  intro hc
  obtain ⟨u, ⟨o, x⟩, v, ht, hb⟩ := find (t := (trial friendly (open' Mgr.ex alienMessage) World.chat).1)
    (f := fun e => match backendOf e.1 with | some ns => decide (ns ∉ ["n", "o"]) | none => false) (by decide +kernel)
  have h := hc Mgr.ex alienMessage _ _ (trial_exec friendly (open' Mgr.ex alienMessage) World.chat) u _ v ht
  cases hx : backendOf o with
  | none => simp only [hx] at hb; cases hb
  | some ns =>
    simp only [hx] at hb
    obtain ⟨bs, hm, hn⟩ := h ns hx
    have : bs = World.chat.backends := trial_backends friendly_ok (p := open' Mgr.ex alienMessage) (by decide +kernel) bs (by rw [ht]; simp [hm])
    have h2 : World.chat.backends = ["n", "o"] := rfl
    rw [this, h2] at hn
    exact of_decide_eq_true hb hn

/-! ### C117: requests -/

/-- C117, device lists, for a program. -/
def C117 (upd : Upd) : Prop :=
  ∀ (M : Mgr) (ns : Ns) (jid : Jid) (dl : DevList) (t : List Ev) (r : Res Exn Unit), Exec (upd M ns jid dl) t r →
    total (fun e => Op.network e.1) t ≤ 1 + total namespacesRead t

theorem C117_update : C117 updateDeviceList := C117_list

/-- The bundle of every new device is downloaded at once. -/
def inquisitive : Upd := updateBy { rightUpd with fresh := fun ns jid dl d => do
  addNewDevice ns jid dl d
  let _ ← call (.downloadBundle ns jid d)
  pure () }

theorem C117_inquisitive : ¬ C117 inquisitive := by
  intro hc
  have h := hc Mgr.ex "n" "a" [(7, none), (8, none)] _ _ (trial_exec genuine (inquisitive Mgr.ex "n" "a" [(7, none), (8, none)]) World.started)
  exact absurd h (by decide +kernel)

/-! ### C109: plaintexts -/

/-- C109, encrypting, for a program. -/
def C109 (enc : Enc) : Prop :=
  ∀ (M : Mgr) (jids : List Jid) (pt pt' : Dict Ns Bytes) (prio : Option (List Ns)) (i : Option String),
    (∀ ns, (pt.get ns).isSome = (pt'.get ns).isSome) → ∀ t r, Exec (enc M jids pt prio i) t r →
    ∃ t', Exec (enc M jids pt' prio i) t' r ∧ Along (GivenOther pt pt') t t'

theorem C109_encrypt : C109 encrypt := fun M jids pt pt' prio i hpt _ _ he => Verif.C109_encrypt M jids pt pt' prio i hpt he

/-- Nothing is done if there is nothing to say. -/
def terse : Enc := fun M jids pt prio i => if pt.all (fun x => x.2.isEmpty) then pure ([], []) else encrypt M jids pt prio i

theorem C109_terse : ¬ C109 terse := by
  intro hc
  have he := trial_exec polite (terse Mgr.ex ["a"] [("n", [1]), ("o", [1])] none none) World.chat
  obtain ⟨t', h1, h2⟩ := hc Mgr.ex ["a"] [("n", [1]), ("o", [1])] [("n", []), ("o", [])] none none (fun ns => by
    simp only [Dict.get]
    by_cases hn : "n" = ns <;> by_cases ho : "o" = ns <;> simp_all) _ _ he
  have h3 : Exec (pure ([], []) : P (Dict Message PlainKM × List EncError)) t' _ := h1
  have h4 : ∀ {a r} {t : List Ev}, Exec (pure a : P (Dict Message PlainKM × List EncError)) t r → t = [] := fun h => by cases h; rfl
  rw [h4 h3] at h2
  have hn : (trial polite (terse Mgr.ex ["a"] [("n", [1]), ("o", [1])] none none) World.chat).1.isEmpty = false := by decide +kernel
  generalize (trial polite (terse Mgr.ex ["a"] [("n", [1]), ("o", [1])] none none) World.chat).1 = t at h2 hn
  cases h2
  cases hn

/-- C109, decrypting, for a program. -/
def C109' (dec : Dec) : Prop :=
  ∀ (M : Mgr) (msg : Message) (y : Bytes) (t : List Ev) (r), Exec (dec M msg) t r → ∃ t', Exec (dec M msg) t' (withPlaintext y r) ∧ Along (ReadsOther y) t t'

theorem C109'_decrypt : C109' decrypt := fun M msg y _ _ he => Verif.C109_decrypt M msg y he

/-- An empty plaintext is taken for none. -/
def plainly : Dec := fun M msg => do
  let (p, dev, km) ← decrypt M msg
  pure (if p = some [] then none else p, dev, km)

theorem C109'_plainly : ¬ C109' plainly := by
  intro hc
  have h1 : (match (trial friendly (plainly Mgr.ex kexMessage) World.inbox).2.1 with | .ok (p, _, _) => p.isSome | _ => false) = true := by decide +kernel
  have he := trial_exec friendly (plainly Mgr.ex kexMessage) World.inbox
  obtain ⟨t', h, -⟩ := hc Mgr.ex kexMessage [] _ _ he
  cases hx : (trial friendly (plainly Mgr.ex kexMessage) World.inbox).2.1 with
  | ok a =>
    rw [hx] at h
    obtain ⟨p, dev, km⟩ := a
    have hp : p.isSome = true := by
      rw [hx] at h1
      exact h1
    obtain ⟨t1, ⟨q, dev', km'⟩, t2, -, -, h2⟩ := exec_seq_ok.1 h
    obtain ⟨x, rfl⟩ := Option.isSome_iff_exists.1 hp
    have h4 : ∀ {a b : Option Bytes × DeviceInfo × PlainKM} {t}, Exec (pure a : P _) t (.ok b) → a = b := fun h => by cases h; rfl
    have h3 := congrArg Prod.fst (h4 h2)
    have h3 : (if q = some [] then none else q) = some [] := h3
    split at h3
    · cases h3
    · exact absurd h3 ‹_›
  | raised e => rw [hx] at h1; cases h1
  | crashed => rw [hx] at h1; cases h1

end Wrong
end Verif
