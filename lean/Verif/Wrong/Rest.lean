import Verif.Props.Contact
import Verif.Props.Handed
import Verif.Wrong.Life
/-
Wrong programs for further claims: C29 and others.  See Wrong/Encrypt.lean for the method.
-/
namespace Verif
namespace Wrong
open SM Spec

/-! ### C29: the user is asked once, about all undecided devices -/

/-- C29 for a program. -/
def C29 (enc : Enc) : Prop :=
  ∀ (M : Mgr) (jids : List Jid) (pt : Dict Ns Bytes) (prio : Option (List Ns)) (i : Option String) (t : List Ev)
    (r : Res Exn (Dict Message PlainKM × List EncError)), Exec (enc M jids pt prio i) t r →
    ((∀ decide', Exec (enc { M with decide := decide' } jids pt prio i) t r) ∧
      ((∃ u w, t = u ++ w ∧ (∀ dev, (⟨.evalTrust dev, .ok .undecided⟩ : Ev) ∉ u) ∧
            ∀ dev a, (⟨.evalTrust dev, a⟩ : Ev) ∈ w → ∃ l, (⟨.evalTrust dev, .ok l⟩ : Ev) ∈ u) ∨
        r = .crashed ∨ ∃ y, r = .raised y ∧ (y = .stillUndecided → ErrIn t y))) ∨
    ∃ ds u td w r', t = u ++ td ++ w ∧ Exec (M.decide ds i) td r' ∧ ds ≠ [] ∧ ds.Nodup ∧
      (∀ dev, dev ∈ ds ↔ (⟨.evalTrust dev, .ok .undecided⟩ : Ev) ∈ u) ∧
      ((r' = .ok () ∧ ∀ decide' td', Exec (decide' ds i) td' (.ok ()) →
          Exec (enc { M with decide := decide' } jids pt prio i) (u ++ td' ++ w) r) ∨
        (w = [] ∧ (r' = .crashed ∧ r = .crashed ∨ ∃ y, r' = .raised y ∧ r = .raised y)))

theorem C29_encrypt : C29 encrypt := C29_bulk

/-- `encrypt` with another way to decide on trust. -/
def deciding (T : Mgr → List DeviceInfo → Option String → P (List DeviceInfo)) : Enc := encryptBy fun M => { right M with trust := T M }

/-- What `M.decide` of `Mgr.marking` does. -/
def marking : Op → Bool | .store .ownDeviceId _ => true | _ => false
def unmarked (o : Op) : Prop := marking o = false

theorem ops_deciding {T : Mgr → List DeviceInfo → Option String → P (List DeviceInfo)} {M : Mgr} (hT : ∀ ds i, AllOps (S := LibSig) unmarked (T M ds i))
    (jids pt prio i) : AllOps (S := LibSig) unmarked (deciding T M jids pt prio i) := by
  have hi : ∀ jid, AllOps (S := LibSig) unmarked (getDeviceInformation' M jid) := fun jid =>
    (ops_getDeviceInformation' M jid).mono fun o h => by cases h <;> rfl
  unfold deciding encryptBy recipientsBy trustedBy backendBy right encryptDevice encryptForDevice bundleFor devicesWithTrust
  lib_ops [hi, hT]
  all_goals rfl

/-- The user is asked about every undecided device, one after the other (sm:1817-1823: a loop). -/
def oneByOne (M : Mgr) (devices : List DeviceInfo) (identifier : Option String) : P (List DeviceInfo) := do
  let undecided ← devicesWithTrust .undecided (M.O.iter devices)
  Prog.forEach undecided fun dev => M.decide [dev] identifier
  let devices ← Prog.mapAll (M.O.iter devices) (reloadTrust M)
  let stillUndecided ← devicesWithTrust .undecided (M.O.iter devices)
  if stillUndecided.length > 0 then throwE .stillUndecided
  else pure devices

def piecemeal : Enc := deciding oneByOne

/-- The user is not asked (sm:1817-1829 forgotten). -/
def unasked (M : Mgr) (devices : List DeviceInfo) (_ : Option String) : P (List DeviceInfo) := do
  let stillUndecided ← devicesWithTrust .undecided (M.O.iter devices)
  if stillUndecided.length > 0 then throwE .stillUndecided
  else pure devices

def deaf : Enc := deciding unasked

/-- The user is asked even if there is nothing to decide (sm:1817: the condition forgotten). -/
def always (M : Mgr) (devices : List DeviceInfo) (identifier : Option String) : P (List DeviceInfo) := do
  let undecided ← devicesWithTrust .undecided (M.O.iter devices)
  M.decide undecided identifier
  let devices ← Prog.mapAll (M.O.iter devices) (reloadTrust M)
  let stillUndecided ← devicesWithTrust .undecided (M.O.iter devices)
  if stillUndecided.length > 0 then throwE .stillUndecided
  else pure devices

def nagging : Enc := deciding always

/-- The decision of `Mgr.marking` leaves one mark. -/
theorem marking_exec {ds : List DeviceInfo} {i : Option String} {td : List Ev} {r} (h : Exec (Mgr.marking.decide ds i) td r) :
    (td = [] ∧ r = .crashed) ∨ ∃ x, td = [⟨.store .ownDeviceId (.int ds.length), x⟩] := by
  cases h with
  | crash => exact .inl ⟨rfl, rfl⟩
  | op x h => cases x <;> cases h <;> exact .inr ⟨_, rfl⟩

def isMark (e : Ev) : Bool := marking e.1
def isUndecided : Ev → Bool | ⟨.evalTrust _, .ok .undecided⟩ => true | _ => false

def deafRun := trial polite (deaf Mgr.marking ["a"] [("n", [1]), ("o", [1, 2])] none none) World.unsure

theorem C29_deaf : ¬ C29 deaf := by
  intro hc
  have hr : (match deafRun.2.1 with | .raised .stillUndecided => true | _ => false) = true := by decide +kernel
  have hm : deafRun.1.any isMark = false := by decide +kernel
  rcases hc Mgr.marking ["a"] [("n", [1]), ("o", [1, 2])] none none _ _ (trial_exec polite _ World.unsure) with ⟨-, ⟨u, w, ht, hu, hw⟩ | h | ⟨y, h, h'⟩⟩ |
    ⟨ds, u, td, w, r', ht, he, -, -, -, h⟩
  · obtain ⟨a, ⟨o, x⟩, b, hab, hb⟩ := find (t := deafRun.1) (f := isUndecided) (by decide +kernel)
    cases o <;> try (cases hb; done)
    rename_i dev
    match x, hb with
    | .ok .undecided, _ =>
      have hin : (⟨.evalTrust dev, .ok .undecided⟩ : Ev) ∈ deafRun.1 := by rw [hab]; simp
      rcases List.mem_append.1 (show _ ∈ u ++ w from ht ▸ hin) with h1 | h1
      · exact hu dev h1
      · obtain ⟨l, hl⟩ := hw dev _ h1
        have hin' : (⟨.evalTrust dev, .ok l⟩ : Ev) ∈ deafRun.1 := (show deafRun.1 = _ from ht) ▸ List.mem_append_left _ hl
        have hans := runProg_answers (Lib.env polite) Lib.next 300 (deaf Mgr.marking ["a"] [("n", [1]), ("o", [1, 2])] none none) World.unsure
        obtain ⟨w1, h1⟩ := hans _ hin
        obtain ⟨w2, h2⟩ := hans _ hin'
        have h3 : Lib.env polite w1 (.evalTrust dev) = Lib.env polite w2 (.evalTrust dev) := rfl
        simp only at h1 h2
        rw [← h1, ← h2] at h3
        cases h3
        exact hu dev hl
  · rw [show deafRun.2.1 = _ from h] at hr
    cases hr
  · rw [show deafRun.2.1 = _ from h] at hr
    have : y = .stillUndecided := by
      split at hr
      · rename_i h1; cases h1; rfl
      · cases hr
    obtain ⟨e, he, hy⟩ := h' this
    have hall : deafRun.1.all (fun e => match e.2 with | .error _ => false | .ok _ => true) = true := by decide +kernel
    have := List.all_eq_true.1 hall e he
    rw [hy] at this
    cases this
  · rcases marking_exec he with ⟨rfl, rfl⟩ | ⟨x, rfl⟩
    · rcases h with ⟨h, -⟩ | ⟨-, ⟨-, h⟩ | ⟨_, h, -⟩⟩
      · cases h
      · rw [show deafRun.2.1 = _ from h] at hr
        cases hr
      · cases h
    · have := never hm (e := ⟨.store .ownDeviceId (.int ds.length), x⟩) ((show deafRun.1 = _ from ht) ▸ by simp)
      cases this

def naggingRun := trial polite (nagging Mgr.marking ["a"] [("n", [1]), ("o", [1, 2])] none none) World.chat

theorem C29_nagging : ¬ C29 nagging := by
  intro hc
  have hn : naggingRun.1.any isUndecided = false := by decide +kernel
  rcases hc Mgr.marking ["a"] [("n", [1]), ("o", [1, 2])] none none _ _ (trial_exec polite _ World.chat) with ⟨h, -⟩ | ⟨ds, u, td, w, r', ht, -, hne, -, hds, -⟩
  · obtain ⟨a, ⟨o, x⟩, b, hab, hb⟩ := find (t := naggingRun.1) (f := isMark) (by decide +kernel)
    have hops : ∀ ds i, AllOps (S := LibSig) unmarked (always { Mgr.marking with decide := fun _ _ => pure () } ds i) := by
      intro ds i
      unfold always devicesWithTrust reloadTrust
      lib_ops []
    have h1 := (ops_deciding hops _ _ _ _).exec (h fun _ _ => pure ()) ⟨o, x⟩ (show _ ∈ naggingRun.1 by rw [hab]; simp)
    exact absurd (show marking o = true from hb) (by rw [show marking o = false from h1]; decide)
  · obtain ⟨dev, hd⟩ := List.exists_mem_of_ne_nil _ hne
    have := never hn (e := ⟨.evalTrust dev, .ok .undecided⟩) ((show naggingRun.1 = _ from ht) ▸ by simp [(hds dev).1 hd])
    cases this

/-- Device 8 of "a" and the own device 2 are undecided. -/
def torn2 : World := { World.unsure with disk := World.unsure.disk.upd (.trust "a" [8]) none }

def piecemealRun := trial polite (piecemeal Mgr.marking ["a"] [("n", [1]), ("o", [1, 2])] none none) torn2

def undecidedOf (j : Jid) (d : DevId) : Ev → Bool
  | ⟨.evalTrust dev, .ok .undecided⟩ => decide (dev.bareJid = j ∧ dev.deviceId = d)
  | _ => false

theorem undecided_of {t : List Ev} {j : Jid} {d : DevId} (h : t.any (undecidedOf j d) = true) :
    ∃ dev, dev.bareJid = j ∧ dev.deviceId = d ∧ (⟨.evalTrust dev, .ok .undecided⟩ : Ev) ∈ t := by
  obtain ⟨e, he, h⟩ := List.any_eq_true.1 h
  unfold undecidedOf at h
  split at h
  · rename_i dev
    simp only [decide_eq_true_eq] at h
    exact ⟨dev, h.1, h.2, he⟩
  · cases h

theorem C29_piecemeal : ¬ C29 piecemeal := by
  intro hc
  have hr : (match piecemealRun.2.1 with | .crashed => false | _ => true) = true := by decide +kernel
  rcases hc Mgr.marking ["a"] [("n", [1]), ("o", [1, 2])] none none _ _ (trial_exec polite _ torn2) with ⟨h, -⟩ | ⟨ds, u, td, w, r', ht, he, hne, hnd, hds, h⟩
  · obtain ⟨a, ⟨o, x⟩, b, hab, hb⟩ := find (t := piecemealRun.1) (f := isMark) (by decide +kernel)
    have hops : ∀ ds i, AllOps (S := LibSig) unmarked (oneByOne { Mgr.marking with decide := fun _ _ => pure () } ds i) := by
      intro ds i
      unfold oneByOne devicesWithTrust reloadTrust
      lib_ops []
    have h1 := (ops_deciding hops _ _ _ _).exec (h fun _ _ => pure ()) ⟨o, x⟩ (show _ ∈ piecemealRun.1 by rw [hab]; simp)
    exact absurd (show marking o = true from hb) (by rw [show marking o = false from h1]; decide)
  · rcases marking_exec he with ⟨rfl, rfl⟩ | ⟨x, rfl⟩
    · rcases h with ⟨h, -⟩ | ⟨-, ⟨-, h⟩ | ⟨_, h, -⟩⟩
      · cases h
      · rw [show piecemealRun.2.1 = _ from h] at hr
        cases hr
      · cases h
    · have ht : piecemealRun.1 = u ++ [⟨.store .ownDeviceId (.int ds.length), x⟩] ++ w := ht
      have h1 : (marks piecemealRun.1).all (· = 1) = true := by decide +kernel
      have h2 : (List.range piecemealRun.1.length).all (fun n => !((piecemealRun.1.drop n).head?.any isMark) ||
          ((piecemealRun.1.take n).any (undecidedOf "a" 8) && (piecemealRun.1.take n).any (undecidedOf "me" 2))) = true := by decide +kernel
      have h3 := List.all_eq_true.1 h2 u.length (by rw [ht]; simp)
      rw [ht, List.append_assoc] at h3
      simp [isMark, marking] at h3
      rw [ht] at h1
      have h4 : ds.length = 1 := by
        have := List.all_eq_true.1 h1 (ds.length : Int) (by unfold marks; simp)
        simp only [decide_eq_true_eq] at this
        omega
      obtain ⟨d, rfl⟩ := List.length_eq_one_iff.1 h4
      obtain ⟨d1, e1, -, m1⟩ := undecided_of (t := u) (j := "a") (d := 8) (by simpa using h3.1)
      obtain ⟨d2, e2, -, m2⟩ := undecided_of (t := u) (j := "me") (d := 2) (by simpa using h3.2)
      have := (hds d1).2 m1
      have := (hds d2).2 m2
      simp only [List.mem_singleton] at *
      subst d1 d2
      rw [e1] at e2
      revert e2
      decide

/-! ### C22: bundles that cannot be downloaded -/

/-- C22, what holds of it, for a program. -/
def C22 (info : Inf) : Prop :=
  ∀ (M : Mgr) (jid : Jid) (t : List Ev) (e : Exn), Exec (info M jid) t (.raised e) →
    (∀ ns j d x, (⟨.downloadBundle ns j d, .error x⟩ : Ev) ∈ t → Unavailable x) → StorageFailed t e ∨ BadData e

theorem C22_info : C22 getDeviceInformation := C22_partial

/-- Bundles that do not exist are skipped, but not those whose download fails (sm:1440-1450: one handler forgotten). -/
def fetchOrFail (jid : Jid) (d : DevId) : List Ns → P (Option Bundle)
  | [] => .ret none
  | ns :: rest =>
    Prog.tryElse (call (.downloadBundle ns jid d))
      (fun e => if e = .bundleNotFound then fetchOrFail jid d rest else throwE e)
      (fun bundle => do
        Sto.storeBytes (.devIdentityKey jid d) bundle.identityKey
        pure (some bundle))

def intolerant : Inf := infoBy fun M => { rightInf M with fetch := fetchOrFail }

/-- Like `polite`, but the server with the bundles cannot be reached. -/
def unreachable : World → (o : Op) → Except Exn o.Ret
  | _, .downloadBundle .. => .error .bundleDownloadFailed
  | w, o => polite w o

def intolerantRun := trial unreachable (intolerant Mgr.ex "a") World.chat

theorem C22_intolerant : ¬ C22 intolerant := by
  intro hc
  have hr : intolerantRun.2.1 = .raised .bundleDownloadFailed := by decide +kernel
  rcases hc Mgr.ex "a" _ _ (hr ▸ trial_exec unreachable (intolerant Mgr.ex "a") World.chat) (fun ns j d x hm => by
    obtain ⟨w, hw⟩ := runProg_answers (Lib.env unreachable) Lib.next 300 (intolerant Mgr.ex "a") World.chat _ hm
    cases hw
    exact .inl rfl) with ⟨e, he, hs, hx⟩ | h
  · have := never (t := intolerantRun.1) (f := fun e => e.1.isStorage && (match e.2 with | .error _ => true | .ok _ => false)) (by decide +kernel) he
    rw [hs, hx] at this
    cases this
  · rcases h with h | h | h <;> cases h

/-! ### C36: the bundle of another device -/

/-- C36, what holds of it, for a program. -/
def C36 (enc : Enc) : Prop :=
  ∀ (M : Mgr) (jids : List Jid) (pt : Dict Ns Bytes) (prio : Option (List Ns)) (i : Option String)
    (t : List Ev) (r : Res Exn (Dict Message PlainKM × List EncError)), CallbackQuiet M.decide → Exec (enc M jids pt prio i) t r → BackendsOnce t →
    (∀ ns j d b, (⟨.downloadBundle ns j d, .ok b⟩ : Ev) ∈ t → b.bareJid = j ∧ b.deviceId = d) →
    Guarded (fun h e => ∀ ns j d b m, e.1 = .buildActive ns j d b m →
      ∃ dev, dev.bareJid = j ∧ dev.deviceId = d ∧ LastEval h dev .trusted ∧
        (b.identityKey = dev.identityKey ∨ h.getLast? = some ⟨.downloadBundle ns j d, .ok b⟩)) t

theorem C36_encrypt : C36 encrypt := C36_evaluated_key_partial

/-- The device id is not compared when a bundle is looked up among those at hand (sm:1888-1893: half of the condition). -/
def anyBundle (M : Mgr) (ns : Ns) (cache : List Bundle) (km : PlainKM) (st : EncState) (dev : DeviceInfo) : P EncState := do
  let session : Option Session ← call (.loadSession ns dev.bareJid dev.deviceId)
  let bundle := (M.O.iter cache).find? fun b => decide (b.ns = ns ∧ b.bareJid = dev.bareJid)
  Prog.tryElse (encryptForDevice ns dev session bundle km)
    (fun e => if isNonCritical e then
        pure { st with devices := setDiff st.devices [dev]
                       errors := st.errors ++ [{ ns := ns, bareJid := dev.bareJid, deviceId := dev.deviceId, exn := e }] }
      else throwE e)
    (fun (session, ekm) =>
        pure { st with keys := setAdd st.keys (ekm, kexFor session)
                       sessions := st.sessions ++ [(ns, session)] })

def confused : Enc := encryptBy fun M => { right M with device := anyBundle M }

/-- The key of device 8 of "a" is known, and it is active for "n"; the bundle of device 7 has to be downloaded. -/
def crowdedDisk : Disk :=
  ((World.chat.disk.upd (.devIdentityKey "a" 8) (some (.str (Base64.encode [8])))).upd (.devIdentityKey "a" 7) none).upd (.devActive "a" 8)
    (some (.ofBools [("n", true), ("o", true)]))

def crowded : World := { World.chat with disk := crowdedDisk }

def confusedRun := trial polite (confused Mgr.ex ["a"] [("n", [1]), ("o", [1, 2])] none none) crowded

/-- A session with device 8 is built from a bundle with the key of device 7. -/
def mixedUp : Ev → Bool | ⟨.buildActive _ _ d b _, _⟩ => decide (d = 8 ∧ b.identityKey = [7]) | _ => false

def evalOther : Ev → Bool | ⟨.evalTrust dev, _⟩ => decide (dev.deviceId = 8 ∧ dev.identityKey = [7]) | _ => false

theorem C36_confused : ¬ C36 confused := by
  intro hc
  obtain ⟨u, ⟨o, x⟩, v, ht, hb⟩ := find (t := confusedRun.1) (f := mixedUp) (by decide +kernel)
  cases o <;> try (cases hb; done)
  rename_i ns j d b m
  simp only [mixedUp, decide_eq_true_eq] at hb
  obtain ⟨rfl, hk⟩ := hb
  obtain ⟨dev, -, h2, ⟨a, c, h3, -⟩, h4⟩ := hc Mgr.ex ["a"] [("n", [1]), ("o", [1, 2])] none none _ _ Mgr.ex_quiet (trial_exec polite _ crowded)
    (trial_once polite_ok (by decide +kernel) (by decide)) (fun ns j d b hm => by
      obtain ⟨w, hw⟩ := runProg_answers (Lib.env polite) Lib.next 300 _ _ _ hm
      cases hw
      exact ⟨rfl, rfl⟩) u _ v ht ns j 8 b m rfl
  rcases h4 with h4 | h4
  · have := never (t := confusedRun.1) (f := evalOther) (by decide +kernel) (e := ⟨.evalTrust dev, .ok .trusted⟩) (by rw [ht, h3]; simp)
    simp [evalOther, h2, ← h4, hk] at this
  · have hm : (⟨.downloadBundle ns j 8, .ok b⟩ : Ev) ∈ confusedRun.1 := by
      rw [ht]
      exact List.mem_append_left _ (List.mem_of_getLast? h4)
    have := never (t := confusedRun.1) (f := fun e => match e.1 with | .downloadBundle _ _ d => decide (d = 8) | _ => false) (by decide +kernel) hm
    simp at this

/-! ### C16: repeating an update -/

/-- C16 for a program. -/
def C16 (upd : Upd) : Prop :=
  ∀ (M : Mgr) (ns : Ns) (jid : Jid) (dl : DevList) (w w1 w1' w2 : World) (t1 t2 : List Ev),
    Exec (upd M ns jid dl) t1 (.ok ()) → Lib.Runs w t1 w1 → w1'.disk = w1.disk → Exec (upd M ns jid dl) t2 (.ok ()) → Lib.Runs w1' t2 w2 → w2.disk = w1.disk

theorem C16_update : C16 updateDeviceList := fun M ns jid dl w w1 w1' w2 t1 t2 h1 h2 h3 h4 h5 => C16_idempotent M ns jid dl w w1 w1' w2 t1 t2 h1 h2 h3 h4 h5

/-- The namespace is added to those of a known device whether it is there or not (sm:1069-1072: a list in place of a set). -/
def listing : Upd := updateBy { rightUpd with known := fun M ns jid dl d => do
  updateKnownDevice M ns jid dl d
  let namespaces ← Maybe.fromJust (← Sto.loadStrs (.devNamespaces jid d))
  Prog.when (d ∈ dl.keys) (call (.store (.devNamespaces jid d) (.ofStrs (namespaces ++ [ns])))) }

def listed := trial quiet (listing Mgr.ex "n" "a" [(7, none)]) World.ex
def listed2 := trial quiet (listing Mgr.ex "n" "a" [(7, none)]) listed.2.2

/-- The length of a stored list. -/
def sizeOf' : Option JVal → Nat | some (.list l) => l.length | _ => 0

theorem C16_listing : ¬ C16 listing := by
  intro hc
  have h1 : listed.2.1 = .ok () := by decide +kernel
  have h2 : listed2.2.1 = .ok () := by decide +kernel
  have h := hc Mgr.ex "n" "a" [(7, none)] World.ex listed.2.2 listed.2.2 listed2.2.2 _ _ (h1 ▸ trial_exec quiet _ World.ex) (trial_runs quiet_ok _ _) rfl
    (h2 ▸ trial_exec quiet _ listed.2.2) (trial_runs quiet_ok _ _)
  have h3 : sizeOf' (listed2.2.2.disk (.devNamespaces "a" 7)) ≠ sizeOf' (listed.2.2.disk (.devNamespaces "a" 7)) := by decide +kernel
  rw [h] at h3
  exact h3 rfl

/-! ### C47: plaintexts are not lost -/

/-- C47, what holds of it, for a program. -/
def C47 (dec : Dec) : Prop :=
  ∀ (M : Mgr) (msg : Message) (t : List Ev) (r), Exec (dec M msg) t r → ∀ (s : Session), (⟨.storeSession msg.ns s, .ok ()⟩ : Ev) ∈ t →
    ∀ (ekm : EncKM), keyForUs M msg = some (ekm, none) →
    (∀ g ∈ t, ∀ s km, GaveKM msg.ns g ekm s km → ∀ n, s.receivingChainLength = some n → n ≤ 53) → ∃ p dev km, r = .ok (p, dev, km)

theorem C47_decrypt : C47 decrypt := fun M msg t r he s hs ekm hk hg => C47_partial M msg t r he s hs ekm hk hg

def rashRun := trial tampered (rash Mgr.ex plainMessage) World.chat

theorem C47_rash : ¬ C47 rash := by
  intro hc
  have hr : (match rashRun.2.1 with | .ok _ => false | _ => true) = true := by decide +kernel
  obtain ⟨u, ⟨o, x⟩, v, ht, hb⟩ := find (t := rashRun.1) (f := fun e => match e with | ⟨.storeSession ns _, .ok ()⟩ => decide (ns = "n") | _ => false)
    (by decide +kernel)
  cases o <;> try (cases hb; done)
  rename_i ns s
  cases x with
  | error => cases hb
  | ok x =>
    obtain rfl : ns = "n" := by simpa using hb
    obtain ⟨p, dev, km, h⟩ := hc Mgr.ex plainMessage _ _ (trial_exec tampered (rash Mgr.ex plainMessage) World.chat) s
      (show _ ∈ rashRun.1 by rw [ht]; simp [plainMessage, kexMessage]) ⟨"me", 1, 3⟩ rfl (fun g hg s km h n hn => by
        have hall : rashRun.1.all (fun e => match e with
            | ⟨.decryptKM _ _ _, .ok (_, s)⟩ => decide (s.receivingChainLength.getD 0 ≤ 53)
            | ⟨.buildPassive .., .ok (s, _)⟩ => decide (s.receivingChainLength.getD 0 ≤ 53)
            | _ => true) = true := by decide +kernel
        have := List.all_eq_true.1 hall g hg
        rcases h with ⟨s0, rfl⟩ | ⟨j, d, x, rfl⟩ <;> simpa [hn] using this)
    rw [show rashRun.2.1 = _ from h] at hr
    cases hr

/-! ### C49: what is queued -/

/-- C49, what holds of it, for a program. -/
def C49 (leave : Mgr → P Unit) : Prop :=
  ∀ (M : Mgr) (w w' : World) (t : List Ev) (r : Res Exn Unit), Exec (leave M) t r → Lib.Runs w t w' →
    ∃ ns0, ∀ x, x.1 ∈ w.backends → Queued w.disk x → x.1 ≠ ns0 → (∃ r, (⟨.loadSession x.1 x.2.1 x.2.2, r⟩ : Ev) ∈ t) ∨ Queued w'.disk x

theorem C49_leave : C49 afterHistorySync := C49_partial

/-- The queues of all backends are emptied before any of the messages are sent. -/
def emptying : Mgr → P Unit := fun M => do
  call (.setSync false)
  Prog.forEach (← call .getBackends) fun ns => call (.deleteHidden ns)
  let queues ← Prog.mapAll (← call .getBackends) fun ns => do
    let jids := dedup (Maybe.maybe (← Sto.loadStrs (.queue ns)) [])
    call (.delete (.queue ns))
    pure (ns, jids)
  Prog.forEach queues fun (ns, jids) => Prog.forEach (M.O.iter jids) fun jid => sendQueuedJid M ns jid

def emptied := runProg (Lib.env sunny) Lib.next 9 (emptying Mgr.ex) World.inbox

theorem C49_emptying : ¬ C49 emptying := by
  intro hc
  obtain ⟨ns0, h⟩ := hc Mgr.ex World.inbox emptied.2.2 _ _ (runProg_exec (Lib.env sunny) Lib.next 9 _ _)
    (runProg_runs Lib (Lib.env sunny) (Lib.env_ok sunny sunny_ok) 9 _ _)
  have hn : emptied.1.any (fun e => match e.1 with | .loadSession .. => true | _ => false) = false := by decide +kernel
  have lost : ∀ ns j d, ns ∈ World.inbox.backends → Queued World.inbox.disk (ns, j, d) → emptied.2.2.disk (.queue ns) = none → ns = ns0 := by
    intro ns j d h1 h2 h3
    apply Classical.byContradiction
    intro hne
    rcases h (ns, j, d) h1 h2 hne with ⟨r, hm⟩ | ⟨⟨l, hl, -⟩, -⟩
    · have := never hn hm
      cases this
    · rw [h3] at hl
      cases hl
  have e1 := lost "o" "a" 7 (by decide +kernel) World.inbox_queued.1 rfl
  have e2 := lost "n" "a" 8 (by decide +kernel) World.inbox_queued.2.2 rfl
  rw [← e2] at e1
  revert e1
  decide

/-! ### C100: objects of another backend -/

/-- C100 for a program in place of `decrypt`. -/
def C100 (dec : Dec) : Prop :=
  ∀ (M : Mgr) (msg : Message), (∀ ds i t r, Exec (M.decide ds i) t r → Guarded (Belongs M.ownJid M.ownDev fun m => Call.decrypt msg = .decrypt m) t) →
    ∀ (t : List Ev) (r), Exec (dec M msg) t r → Guarded (Belongs M.ownJid M.ownDev fun m => Call.decrypt msg = .decrypt m) t

theorem C100_decrypt : C100 decrypt := fun M msg hd t r he => by
  have : ∃ r', Exec ((Call.decrypt msg).run M) t r' := by
    cases r with
    | ok a => exact ⟨_, exec_seq.2 (.inl ⟨t, a, [], by simp, he, .ret ()⟩)⟩
    | raised e => exact ⟨_, exec_seq.2 (.inr (.inl ⟨e, he, rfl⟩))⟩
    | crashed => exact ⟨_, exec_seq.2 (.inr (.inr ⟨he, rfl⟩))⟩
  obtain ⟨r', he'⟩ := this
  exact Verif.C100 M (.decrypt msg) hd he'

/-- The session is given to the first backend that is loaded (sm:2198: a leftover variable of a loop). -/
def misplacing : Dec := decryptBy fun M => { rightly M with keep := fun _ session => do
  match ← call .getBackends with
  | ns :: _ => call (.storeSession ns session)
  | [] => pure () }

def misplacedRun := trial chatty (misplacing Mgr.ex (firstMessage "o" 7)) World.met4

theorem C100_misplacing : ¬ C100 misplacing := by
  intro hc
  obtain ⟨u, ⟨o, x⟩, v, ht, hb⟩ := find (t := misplacedRun.1) (f := fun e => match e.1 with | .storeSession ns _ => decide (ns = "n") | _ => false) (by decide +kernel)
  cases o <;> try (cases hb; done)
  rename_i ns s
  obtain rfl : ns = "n" := by simpa using hb
  obtain ⟨j, d, h⟩ := hc Mgr.ex (firstMessage "o" 7) Handed.silent _ _ (trial_exec chatty _ World.met4) u _ v ht
  have hn : misplacedRun.1.any (fun e => (match e.1 with | .storeSession .. => false | _ => true) && decide (backendOf e.1 = some "n")) = false := by decide +kernel
  have hx : ∀ e ∈ u, (match e.1 with | .storeSession .. => false | _ => true) = true → backendOf e.1 ≠ some "n" := fun e he h1 h2 => by
    have := never hn (e := e) (by rw [ht]; exact List.mem_append_left _ he)
    simp [h1, h2] at this
  cases h with
  | load h => exact hx _ h rfl rfl
  | active h => exact hx _ h rfl rfl
  | passive h => exact hx _ h rfl rfl
  | encrypt _ h => exact hx _ h rfl rfl
  | decrypt _ h => exact hx _ h rfl rfl

/-! ### C15: repeating an interrupted update -/

/-- `Attempts` with another program. -/
inductive AttemptsBy (upd : Upd) (M : Mgr) (ns : Ns) (jid : Jid) (dl : DevList) (m : Disk) : Disk → Prop where
  | none : AttemptsBy upd M ns jid dl m m
  | more {w w' : World} {t : List Ev} {r : Res Exn Unit} : AttemptsBy upd M ns jid dl m w.disk →
      Exec (upd M ns jid dl) t r → r ≠ .ok () → Lib.Runs w t w' → AttemptsBy upd M ns jid dl m w'.disk

/-- C15 for a program. -/
def C15 (upd : Upd) : Prop :=
  ∀ (M : Mgr) (ns : Ns) (jid : Jid) (dl : DevList) (w0 w0' w w' : World) (t0 t : List Ev), Exec (upd M ns jid dl) t0 (.ok ()) → Lib.Runs w0 t0 w0' →
    AttemptsBy upd M ns jid dl w0.disk w.disk → Exec (upd M ns jid dl) t (.ok ()) → Lib.Runs w t w' → w'.disk = w0'.disk

theorem attempts_real {M : Mgr} {ns : Ns} {jid : Jid} {dl : DevList} {m m' : Disk} (h : AttemptsBy updateDeviceList M ns jid dl m m') :
    Attempts M ns jid dl m m' := by
  induction h with
  | none => exact .none
  | more _ he hn hr ih => exact .more ih he hn hr

theorem C15_update : C15 updateDeviceList := fun M ns jid dl w0 w0' w w' t0 t h0 hr0 ha h hr =>
  C15_retry M ns jid dl w0 w0' w w' t0 t h0 hr0 (attempts_real ha) h hr

/-- New devices for which something is stored already are skipped. -/
def presuming : Upd := updateBy { rightUpd with fresh := fun ns jid dl d => do
  let known ← call (.load (.devActive jid d))
  Prog.when (Option.isNone known = true) (addNewDevice ns jid dl d) }

def cutShort := runProg (Lib.env quiet) Lib.next 4 (presuming Mgr.ex "n" "a" [(8, some "pc")]) World.ex
def atOnce := trial quiet (presuming Mgr.ex "n" "a" [(8, some "pc")]) World.ex
def repeated := trial quiet (presuming Mgr.ex "n" "a" [(8, some "pc")]) cutShort.2.2

theorem C15_presuming : ¬ C15 presuming := by
  intro hc
  have h1 : atOnce.2.1 = .ok () := by decide +kernel
  have h2 : repeated.2.1 = .ok () := by decide +kernel
  have h3 : cutShort.2.1 ≠ .ok () := by decide +kernel
  have he : Exec (presuming Mgr.ex "n" "a" [(8, some "pc")]) cutShort.1 cutShort.2.1 := runProg_exec (Lib.env quiet) Lib.next 4 _ World.ex
  have h := hc Mgr.ex "n" "a" [(8, some "pc")] World.ex atOnce.2.2 cutShort.2.2 repeated.2.2 _ _ (h1 ▸ trial_exec quiet _ World.ex) (trial_runs quiet_ok _ _)
    (.more (w := World.ex) .none he h3 (runProg_runs Lib (Lib.env quiet) (Lib.env_ok quiet quiet_ok) 4 _ World.ex))
    (h2 ▸ trial_exec quiet _ cutShort.2.2) (trial_runs quiet_ok _ _)
  have h4 : (repeated.2.2.disk (.devLabel "a" 8)).isNone = true := by decide +kernel
  have h5 : (atOnce.2.2.disk (.devLabel "a" 8)).isNone = false := by decide +kernel
  rw [h, h5] at h4
  cases h4

/-! ### C91: starting again -/

/-- C91 for other methods. -/
def C91 (K : Code) : Prop :=
  ∀ (own : Jid) (x : XEdDSA) (s0 s s' : Use) (cs cs' : List (Mgr × Call)) (M0 M : Mgr) (bs bs' : List Ns) (label0 label : Option String) (fuel0 fuel : Nat)
    (d : DevId) (t0 t : List Ev) (w0 w' : World) (r : Res Exn DevId), New s0 → LifeBy K own x s0 cs s → (∀ c ∈ cs, ViaApi c.1) →
    (∀ c ∈ cs, c.2 ≠ .purgeBareJid own) → M0.ownJid = own → M0.x = x → ViaApi M0 → Exec (K.create M0 bs label0 fuel0) t0 (.ok d) →
    Lib.Runs s.world t0 w0 → LifeBy K own x ⟨w0, s.mgrs ++ [{ M0 with ownDev := d }]⟩ cs' s' → (∀ c ∈ cs', Between own bs c.2) →
    (∀ c ∈ cs', RetainsAll c.1) → M.ownJid = own → (∀ ns, ns ∈ bs' ↔ ns ∈ bs) → Exec (K.create M bs' label fuel) t r → Lib.Runs s'.world t w' →
    (∀ e ∈ t, Startup own d e.1) ∧ (∀ d', r = .ok d' → d' = d) ∧ ∃ kp, HoldsIkp w'.disk kp ∧ OwnDevice w'.disk own d (kp.identityKey x) bs

theorem C91_real : C91 real := fun own x s0 s s' cs cs' M0 M bs bs' label0 label fuel0 fuel d t0 t w0 w' r hnew h happ hp hj0 hx0 hv he0 hr0 h' =>
  Verif.C91 own x s0 s s' cs cs' M0 M bs bs' label0 label fuel0 fuel d t0 t w0 w' r hnew (life_real h) happ hp hj0 hx0 hv he0 hr0 (life_real h')

/-- Bundles and device lists are published at each start (sm:418-429: not only the first time). -/
def republishing : Cre := fun M bs label fuel => do
  let d ← create M bs label fuel
  publishRight { M with ownDev := d }
  pure d

def opened := Friendly.genuine.run (republishing Mgr.ex ["n", "o"] none 5) World.fresh
def reopened := Friendly.genuine.run (republishing Mgr.ex ["n", "o"] none 5) opened.2.2

theorem C91_republishing : ¬ C91 (.creating republishing) := by
  intro hc
  have h1 : opened.2.1 = .ok 1 := by decide +kernel
  have h := (hc "me" Mgr.ex.x Use.fresh Use.fresh _ [] [] Mgr.ex Mgr.ex ["n", "o"] ["n", "o"] none none 5 5 1 _ _ _ _ _ fresh_new (.nil _) nofun nofun rfl rfl viaApi_ex
    (h1 ▸ Friendly.genuine.exec (republishing Mgr.ex ["n", "o"] none 5) World.fresh) (Friendly.genuine.runs _ _) (.nil _) nofun nofun rfl (fun _ => Iff.rfl)
    (Friendly.genuine.exec _ opened.2.2) (Friendly.genuine.runs _ _)).1
  obtain ⟨u, ⟨o, x⟩, v, ht, hb⟩ := find (t := reopened.1) (f := fun e => match e.1 with | .uploadBundle _ => true | _ => false) (by decide +kernel)
  cases o <;> try (cases hb; done)
  have := h _ (show _ ∈ reopened.1 by rw [ht]; exact List.mem_append_right _ (.head _))
  cases this

/-! ### C116: nobody else is contacted -/

/-- C116 for other methods. -/
def C116 (K : Code) : Prop :=
  ∀ (own : Jid) (x : XEdDSA) (s0 s : Use) (cs : List (Mgr × Call)), New s0 → s0.world.log = [] → LifeBy K own x s0 cs s → (∀ c ∈ cs, Reserved c.1) →
    (∀ e ∈ s.world.log, Lasts e) → ∀ (e : Ev), e ∈ s.world.log → ∀ (j : Jid), Contacts j e.1 → j = own ∨ ∃ c ∈ cs, Names j c.2

theorem C116_real : C116 real := fun own x s0 s cs h0 hlog h => Verif.C116 own x s0 s cs h0 hlog (life_real h)

/-- The device lists of all recipients of a message are downloaded, not only that of the sender (sm:2050: the wrong JIDs). -/
def nosy : Dec := fun M msg => do
  Prog.forEach msg.keys fun k => refreshDeviceList M msg.ns k.1.bareJid
  decrypt M msg

/-- A message for the own device and one of "c". -/
def circular : Message := ⟨"n", "a", 7, ⟨false, 5⟩, [(⟨"me", 1, 3⟩, none), (⟨"c", 4, 3⟩, none)]⟩

def nosyWorld : World := (Friendly.genuine.run ((Code.decrypting nosy).run Mgr.ex (.decrypt circular)) World.started).2.2

theorem C116_nosy : ¬ C116 (.decrypting nosy) := by
  intro hc
  have hl : ∀ e ∈ nosyWorld.log, Lasts e := Run.keeps_of (by decide +kernel)
  obtain ⟨u, ⟨o, x⟩, v, ht, hb⟩ := find (t := nosyWorld.log) (f := fun e => match e.1 with | .downloadList _ j => decide (j = "c") | _ => false) (by decide +kernel)
  cases o <;> try (cases hb; done)
  rename_i ns j
  obtain rfl : j = "c" := by simpa using hb
  rcases hc "me" Mgr.ex.x Use.fresh ⟨nosyWorld, [Mgr.ex]⟩ _ fresh_new rfl
    (begin rfl (next (M := Mgr.ex) (c := .decrypt circular) .genuine (by simp [Use.started]) nofun (.nil _)))
    (by simp [Contact.discreet_ex]) hl _ (show _ ∈ nosyWorld.log by rw [ht]; exact List.mem_append_right _ (.head _)) "c" (by constructor) with h | ⟨c, hm, h⟩
  · exact absurd h (by decide)
  · simp at hm
    rcases hm with rfl | rfl
    · cases h
    · cases h with
      | sender _ h => exact absurd h (by decide)

end Wrong
end Verif
