import Verif.Props.KeyExchange
import Verif.Props.EncryptResult
/-
Wrong programs in place of `encrypt`, and the claims that reject them.

Each claim about `encrypt` is written down here as a predicate on programs, word for word as in the theorem, with the program as a
variable.  The theorem shows the predicate for `encrypt`; for a program with a realistic mistake the predicate is refuted.  The programs are
made from one skeleton, `encryptBy`, with the steps of `encrypt` as parameters; with the right steps it is `encrypt` (`encryptBy_right`).
-/
namespace Verif
namespace Wrong
open SM Spec

/-- A program in place of `encrypt`. -/
abbrev Enc := Mgr → List Jid → Dict Ns Bytes → Option (List Ns) → Option String → P (Dict Message PlainKM × List EncError)

/-- The steps of `encrypt`. -/
structure Steps where
  /-- sm:1710-1722 -/
  order : List Ns → Option (List Ns) → Except Exn (List Ns)
  /-- sm:1733-1763 -/
  valid : List Ns → DeviceInfo → Except Exn Bool
  /-- sm:1781-1803 -/
  prefer : List Ns → DeviceInfo → Except Exn DeviceInfo
  /-- sm:1814-1842 -/
  trust : List DeviceInfo → Option String → P (List DeviceInfo)
  /-- sm:1845-1848 -/
  trusted : List DeviceInfo → P (List DeviceInfo)
  /-- sm:1884-1931 -/
  device : Ns → List Bundle → PlainKM → EncState → DeviceInfo → P EncState
  /-- sm:1944-1948 -/
  missing : List DeviceInfo → List Jid → List Jid
  /-- sm:1960-1963 -/
  persist : List (Ns × Session) → P Unit

/-- The steps as they are in the code. -/
def right (M : Mgr) : Steps where
  order := effectiveOrder
  valid := isValidRecipient M
  prefer := applyPriority M
  trust := decideTrust M
  trusted := fun devices => devicesWithTrust .trusted (M.O.iter devices)
  device := encryptDevice M
  missing := noEligible M
  persist := fun sessions => Prog.forEach (M.O.iter sessions) fun (ns, session) => call (.storeSession ns session)

/-- `recipientDevices` with other steps. -/
def recipientsBy (S : Steps) (M : Mgr) (order : List Ns) (jids : List Jid) : P (List DeviceInfo × List Bundle) := do
  let tmp ← Prog.mapAll (M.O.iter jids) (getDeviceInformation' M)
  let devices := dedup (tmp.map (·.1)).flatten
  let devices ← Prog.filterAll (M.O.iter devices) fun dev => liftE (S.valid order dev)
  let cache := dedup (tmp.map (·.2)).flatten
  let devices ← Prog.mapAll (M.O.iter devices) fun dev => liftE (S.prefer order dev)
  let devices := (dedup devices).filter fun dev => decide (dev.namespaces.length > 0)
  pure (devices, cache)

/-- `encryptBackend` with other steps. -/
def backendBy (S : Steps) (M : Mgr) (cache : List Bundle) (plaintext : Dict Ns Bytes) (st : EncAll) (ns : Ns) : P EncAll := do
  let backendDevices := st.devices.filter fun dev => decide (dev.namespaces.head? = some ns)
  if backendDevices.length = 0 then pure st
  else do
    match plaintext.get ns with
    | none => throwE .keyError
    | some pt => do
      let (content, km) ← call (.encryptPlaintext ns pt)
      let st' ← Prog.fold (M.O.iter backendDevices)
        { devices := st.devices, errors := st.errors, sessions := st.sessions, keys := [] } (S.device ns cache km)
      let message : Message := { ns := ns, bareJid := M.ownJid, deviceId := M.ownDev, content := content, keys := st'.keys }
      pure { devices := st'.devices, errors := st'.errors, sessions := st'.sessions,
             messages := Dict.set st.messages message km }

/-- `encryptTrusted` with other steps. -/
def trustedBy (S : Steps) (M : Mgr) (jids : List Jid) (cache : List Bundle) (plaintext : Dict Ns Bytes)
    (devices : List DeviceInfo) : P (Dict Message PlainKM × List EncError) := do
  let devices ← S.trusted devices
  let st ← Prog.fold (← call .getBackends) { devices := devices, errors := [], sessions := [], messages := [] }
    (backendBy S M cache plaintext)
  let missing := S.missing st.devices jids
  if missing.length > 0 then throwE (.noEligibleDevices missing)
  else do
    S.persist st.sessions
    pure (st.messages, st.errors)

/-- `encrypt` with other steps. -/
def encryptBy (S : Mgr → Steps) : Enc := fun M jids plaintext priority identifier => do
  let available ← call .getBackends
  let order ← liftE ((S M).order available priority)
  let jids := setUnion jids [M.ownJid]
  let (devices, cache) ← recipientsBy (S M) M order jids
  let devices ← (S M).trust devices identifier
  trustedBy (S M) M jids cache plaintext devices

theorem encryptBy_right : encryptBy right = encrypt := by
  have hb (M : Mgr) : backendBy (right M) M = encryptBackend M := by
    funext cache pt st ns
    simp only [backendBy, encryptBackend]
    rfl
  funext M jids pt prio i
  simp only [encryptBy, encrypt, trustedBy, encryptTrusted, hb]
  rfl

/-! ### Trying a program -/

/-- What happens when the program is run in a world with the given answers. -/
def trial {α : Type} (a : World → (o : Op) → Except Exn o.Ret) (p : P α) (w : World) := runProg (Lib.env a) Lib.next 300 p w

theorem trial_exec {α : Type} (a) (p : P α) (w : World) : Exec p (trial a p w).1 (trial a p w).2.1 := runProg_exec ..

/-- The program looked for the loaded backends, but did not change them. -/
def settled : Ev → Bool | ⟨.setBackends _, _⟩ => false | _ => true

theorem trial_backends {α : Type} {a} {p : P α} {w : World} (ha : ∀ w o e, a w o = .error e → e.isInternal = false)
    (h : (trial a p w).1.all settled = true) (bs : List Ns) (hm : (⟨.getBackends, .ok bs⟩ : Ev) ∈ (trial a p w).1) : bs = w.backends := by
  refine lib_backends (runProg_runs Lib (Lib.env a) (Lib.env_ok a ha) 300 p w) ?_ bs hm
  rw [List.all_eq_true] at h
  rintro ⟨o, x⟩ he bs hb
  have := h _ he
  cases hb
  cases this

theorem trial_once {α : Type} {a} {p : P α} {w : World} (ha : ∀ w o e, a w o = .error e → e.isInternal = false)
    (h : (trial a p w).1.all settled = true) (hw : w.backends.Nodup) : BackendsOnce (trial a p w).1 := fun bs hm => by
  rw [trial_backends ha h bs hm]; exact hw

theorem trial_stay {α : Type} {a} {p : P α} {w : World} (ha : ∀ w o e, a w o = .error e → e.isInternal = false)
    (h : (trial a p w).1.all settled = true) : BackendsStay (trial a p w).1 := fun bs bs' hm hm' => by
  rw [trial_backends ha h bs hm, trial_backends ha h bs' hm']

/-- A trace with a step that passes a test. -/
theorem find {t : List Ev} {f : Ev → Bool} (h : t.any f = true) : ∃ u e v, t = u ++ e :: v ∧ f e = true := by
  obtain ⟨e, he, hf⟩ := List.any_eq_true.1 h
  obtain ⟨u, v, rfl⟩ := List.append_of_mem he
  exact ⟨u, e, v, rfl, hf⟩

theorem never {t : List Ev} {f : Ev → Bool} (h : t.any f = false) {e : Ev} (he : e ∈ t) : f e = false := by
  cases hf : f e with
  | false => rfl
  | true => rw [List.any_eq_true.2 ⟨e, he, hf⟩] at h; cases h

theorem evaluated {h : List Ev} {dev : DeviceInfo} {l : TrustLevel} (hl : LastEval h dev l) : (⟨.evalTrust dev, .ok l⟩ : Ev) ∈ h := by
  obtain ⟨u, v, rfl, -⟩ := hl
  simp

/-- A new session is built for this device. -/
def builds (ns : Ns) (j : Jid) (d : DevId) : Ev → Bool
  | ⟨.buildActive ns' j' d' _ _, _⟩ => decide (ns' = ns ∧ j' = j ∧ d' = d)
  | _ => false

/-- Building a session for a device is handing out keys for this device. -/
theorem builds_hands {h : List Ev} {e : Ev} {ns ns' : Ns} {j j' : Jid} {d d' : DevId} {m : PlainKM} (hb : builds ns j d e = true)
    (hh : HandsOut h e ns' j' d' m) : ns' = ns ∧ j' = j ∧ d' = d := by
  obtain ⟨o, x⟩ := e
  rcases hh with ⟨b, he⟩ | ⟨s, he, -⟩ <;> cases he
  · simpa [builds] using hb
  · cases hb

theorem builds_handsOut {e : Ev} {ns : Ns} {j : Jid} {d : DevId} (hb : builds ns j d e = true) : Op.handsOut e.1 = true := by
  obtain ⟨o, x⟩ := e
  cases o <;> first | rfl | cases hb

/-- A chat for two, in which both devices of "me" are trusted. -/
def trusting : World :=
  { World.chat with disk := (World.chat.disk.upd (.trust "me" [1]) (some (.str "trusted"))).upd (.trust "me" [2]) (some (.str "trusted")) }

/-! ### C27: no trust filter -/

/-- C27 for a program. -/
def C27 (enc : Enc) : Prop :=
  ∀ (M : Mgr) (jids : List Jid) (pt : Dict Ns Bytes) (prio : Option (List Ns)) (i : Option String)
    (t : List Ev) (r : Res Exn (Dict Message PlainKM × List EncError)), CallbackQuiet M.decide →
    Exec (enc M jids pt prio i) t r → BackendsOnce t →
    Guarded (fun h e => Op.handsOut e.1 = true →
      ∃ dev ns m, HandsOut h e ns dev.bareJid dev.deviceId m ∧ LastEval h dev .trusted) t

theorem C27_encrypt : C27 encrypt := C27_only_trusted

/-- The devices are not filtered by trust (sm:1845-1848 forgotten). -/
def unfiltered : Enc := encryptBy fun M => { right M with trusted := fun devices => pure devices }

theorem C27_unfiltered : ¬ C27 unfiltered := by
  intro hc
  have hx := hc _ _ _ _ _ _ _ Mgr.ex_quiet (trial_exec polite (unfiltered Mgr.ex ["a"] [("n", [1]), ("o", [1, 2])] none none) World.chat)
    (trial_once polite_ok (by decide +kernel) (by decide))
  obtain ⟨u, e, v, ht, hb⟩ := find (t := (trial polite (unfiltered Mgr.ex ["a"] [("n", [1]), ("o", [1, 2])] none none) World.chat).1)
    (f := builds "n" "me" 2) (by decide +kernel)
  obtain ⟨dev, ns, m, hh, hl⟩ := hx u e v ht (builds_handsOut hb)
  obtain ⟨-, h1, h2⟩ := builds_hands hb hh
  have := never (t := (trial polite (unfiltered Mgr.ex ["a"] [("n", [1]), ("o", [1, 2])] none none) World.chat).1)
    (f := fun e => match e with | ⟨.evalTrust dev, .ok .trusted⟩ => decide (dev.bareJid = "me" ∧ dev.deviceId = 2) | _ => false)
    (by decide +kernel) (by rw [ht]; exact List.mem_append_left _ (evaluated hl))
  simp [h1, h2] at this

/-! ### C30: this device among the recipients; activity ignored -/

/-- C30 for a program. -/
def C30 (enc : Enc) : Prop :=
  ∀ (M : Mgr) (jids : List Jid) (pt : Dict Ns Bytes) (prio : Option (List Ns)) (i : Option String)
    (t : List Ev) (r : Res Exn (Dict Message PlainKM × List EncError)), CallbackQuiet M.decide →
    Exec (enc M jids pt prio i) t r → BackendsOnce t →
    Guarded (fun h e => Op.handsOut e.1 = true → ∃ ns j d m, HandsOut h e ns j d m ∧ (j ∈ jids ∨ j = M.ownJid) ∧
      ¬ (j = M.ownJid ∧ d = M.ownDev) ∧
      ∃ active, Loaded h (.devActive j d) (.ofBools active) ∧ active.get ns = some true) t

theorem C30_encrypt : C30 encrypt := C30_only_recipients

/-- This device is not left out (sm:1745-1747 forgotten). -/
def selfish : Enc := encryptBy fun M => { right M with
  valid := fun order dev => (activeNamespaces dev).map fun active => decide (setInter active order ≠ []) }

theorem C30_selfish : ¬ C30 selfish := by
  intro hc
  have hx := hc _ _ _ _ _ _ _ Mgr.ex_quiet (trial_exec polite (selfish Mgr.ex ["a"] [("n", [1]), ("o", [1, 2])] none none) trusting)
    (trial_once polite_ok (by decide +kernel) (by decide))
  obtain ⟨u, e, v, ht, hb⟩ := find (t := (trial polite (selfish Mgr.ex ["a"] [("n", [1]), ("o", [1, 2])] none none) trusting).1)
    (f := builds "n" "me" 1) (by decide +kernel)
  obtain ⟨ns, j, d, m, hh, -, hn, -⟩ := hx u e v ht (builds_handsOut hb)
  obtain ⟨-, rfl, rfl⟩ := builds_hands hb hh
  exact hn ⟨rfl, rfl⟩

/-- The activity of devices is ignored (sm:1753-1756, 1799-1802: `device.namespaces` instead of the active ones). -/
def hasty : Enc := encryptBy fun M => { right M with
  valid := fun order dev => .ok (decide (¬ (dev.bareJid = M.ownJid ∧ dev.deviceId = M.ownDev) ∧ setInter dev.namespaces order ≠ []))
  prefer := fun order dev => .ok { dev with namespaces := (sortedBy (fun ns => order.idxOf ns)
    ((M.O.iter dev.namespaces).filter fun ns => decide (ns ∈ order))).take 1 } }

/-- The activity of the device was loaded, and it is not this one. -/
def otherActivity (j : Jid) (d : DevId) (a : Dict Ns Bool) : Ev → Bool
  | ⟨.load (.devActive j' d'), .ok (some v)⟩ => decide (j' = j ∧ d' = d) && match chkBools v with | .ok a' => decide (a' ≠ a) | .error _ => false
  | _ => false

theorem activity {t : List Ev} {j : Jid} {d : DevId} {a a' : Dict Ns Bool} (h : t.any (otherActivity j d a) = false)
    (hl : Loaded t (.devActive j d) (.ofBools a')) : a' = a := by
  have := never h hl
  simpa [otherActivity] using this

theorem loaded_mono {h h' : List Ev} {k : Key} {v : JVal} (hl : Loaded h k v) (hh : ∀ e ∈ h, e ∈ h') : Loaded h' k v := hh _ hl

theorem C30_hasty : ¬ C30 hasty := by
  intro hc
  have hx := hc _ _ _ _ _ _ _ Mgr.ex_quiet (trial_exec polite (hasty Mgr.ex ["a"] [("n", [1]), ("o", [1, 2])] none none) trusting)
    (trial_once polite_ok (by decide +kernel) (by decide))
  obtain ⟨u, e, v, ht, hb⟩ := find (t := (trial polite (hasty Mgr.ex ["a"] [("n", [1]), ("o", [1, 2])] none none) trusting).1)
    (f := builds "n" "a" 8) (by decide +kernel)
  obtain ⟨ns, j, d, m, hh, -, -, active, hl, ha⟩ := hx u e v ht (builds_handsOut hb)
  obtain ⟨rfl, rfl, rfl⟩ := builds_hands hb hh
  have := activity (t := (trial polite (hasty Mgr.ex ["a"] [("n", [1]), ("o", [1, 2])] none none) trusting).1)
    (a := [("n", false), ("o", true)]) (by decide +kernel) (loaded_mono hl (by rw [ht]; intro e he; exact List.mem_append_left _ he))
  rw [this] at ha
  revert ha
  decide

/-! ### C31: the priority order is read backwards -/

/-- C31 for a program. -/
def C31 (enc : Enc) : Prop :=
  ∀ (M : Mgr) (jids : List Jid) (pt : Dict Ns Bytes) (prio : Option (List Ns)) (i : Option String)
    (t : List Ev) (r : Res Exn (Dict Message PlainKM × List EncError)), CallbackQuiet M.decide →
    Exec (enc M jids pt prio i) t r → BackendsOnce t →
    Guarded (fun h e => Op.handsOut e.1 = true → ∃ ns j d m, HandsOut h e ns j d m ∧
      (∃ bs order l active, h.head? = some ⟨.getBackends, .ok bs⟩ ∧ order = prio.getD bs ∧ (∀ n ∈ order, n ∈ bs) ∧
        Loaded h (.devNamespaces j d) (.ofStrs l) ∧ Loaded h (.devActive j d) (.ofBools active) ∧
        ns ∈ order ∧ ns ∈ l ∧ active.get ns = some true ∧
        ∀ ns' ∈ order, ns' ∈ l → active.get ns' = some true → order.idxOf ns ≤ order.idxOf ns') ∧
      ∀ h' f h'' ns' m', h = h' ++ f :: h'' → ¬ HandsOut h' f ns' j d m') t

theorem C31_encrypt : C31 encrypt := C31_priority

/-- The order is read backwards (sm:1799: `reverse=True`). -/
def preferLast (M : Mgr) (order : List Ns) (dev : DeviceInfo) : Except Exn DeviceInfo :=
  (activeNamespaces dev).map fun active => { dev with namespaces := (sortedBy (fun ns => order.length - order.idxOf ns)
    ((M.O.iter active).filter fun ns => decide (ns ∈ order))).take 1 }

def backwards : Enc := encryptBy fun M => { right M with prefer := preferLast M }

/-- The namespaces of the device were loaded, and "n" is not among them. -/
def withoutN (j : Jid) (d : DevId) : Ev → Bool
  | ⟨.load (.devNamespaces j' d'), .ok (some v)⟩ => decide (j' = j ∧ d' = d) && match chkStrs v with | .ok l => decide ("n" ∉ l) | .error _ => false
  | _ => false

theorem C31_backwards : ¬ C31 backwards := by
  intro hc
  have hx := hc _ _ _ _ _ _ _ Mgr.ex_quiet
    (trial_exec polite (backwards Mgr.ex ["a"] [("n", [1]), ("o", [1, 2])] (some ["n", "o"]) none) World.chat)
    (trial_once polite_ok (by decide +kernel) (by decide))
  obtain ⟨u, e, v, ht, hb⟩ := find
    (t := (trial polite (backwards Mgr.ex ["a"] [("n", [1]), ("o", [1, 2])] (some ["n", "o"]) none) World.chat).1)
    (f := builds "o" "a" 7) (by decide +kernel)
  obtain ⟨ns, j, d, m, hh, ⟨bs, order, l, active, -, ho, -, hl, ha, -, -, -, hmin⟩, -⟩ := hx u e v ht (builds_handsOut hb)
  obtain ⟨rfl, rfl, rfl⟩ := builds_hands hb hh
  have hs : ∀ e ∈ u, e ∈ (trial polite (backwards Mgr.ex ["a"] [("n", [1]), ("o", [1, 2])] (some ["n", "o"]) none) World.chat).1 := by
    rw [ht]; intro e he; exact List.mem_append_left _ he
  have h1 := activity (a := [("n", true), ("o", true)]) (by decide +kernel) (loaded_mono ha hs)
  have h2 := never (f := withoutN "a" 7) (by decide +kernel) (loaded_mono hl hs)
  have h3 : "n" ∈ l := by simpa [withoutN] using h2
  simp only [Option.getD_some] at ho
  subst h1 ho
  have := hmin "n" (by decide) h3 (by decide)
  revert this
  decide

/-! ### C28: undecided devices do not block -/

/-- C28, second half, for a program. -/
def C28 (enc : Enc) : Prop :=
  ∀ (M : Mgr) (jids : List Jid) (pt : Dict Ns Bytes) (prio : Option (List Ns)) (i : Option String) (t : List Ev)
    (r : Res Exn (Dict Message PlainKM × List EncError)), CallbackQuiet M.decide → Exec (enc M jids pt prio i) t r → BackendsOnce t →
    (∀ dev l l', (⟨.evalTrust dev, .ok l⟩ : Ev) ∈ t → (⟨.evalTrust dev, .ok l'⟩ : Ev) ∈ t → l = l') →
    ∀ (dev : DeviceInfo), LastEval t dev .undecided →
    (∀ e ∈ t, Op.encrypts e.1 = false) ∧ (r = .crashed ∨ r = .raised .stillUndecided ∨ ∃ y, r = .raised y ∧
      ((∃ dev', (⟨.evalTrust dev', .error y⟩ : Ev) ∈ t) ∨ (∃ ds u td v, t = u ++ td ++ v ∧ Exec (M.decide ds i) td (.raised y)) ∨ TrustLoadFailed t y))

theorem C28_encrypt : C28 encrypt := C28_undecided_blocks

/-- Devices left undecided are skipped like distrusted ones (sm:1834-1842 forgotten). -/
def indifferent : Enc := encryptBy fun M => { right M with trust := fun devices i => do
  let undecided ← devicesWithTrust .undecided (M.O.iter devices)
  askTrust M devices undecided i }

/-- Device 8 of "a" is undecided. -/
def unsure : World := { World.chat with disk := World.chat.disk.upd (.trust "a" [8]) (some (.str "undecided")) }

/-- The last step that passes a test. -/
theorem findLast {t : List Ev} {f : Ev → Bool} (h : t.any f = true) : ∃ u e v, t = u ++ e :: v ∧ f e = true ∧ ∀ e ∈ v, f e = false := by
  induction t with
  | nil => cases h
  | cons a t ih =>
    cases ht : t.any f with
    | true =>
      obtain ⟨u, e, v, rfl, h1, h2⟩ := ih ht
      exact ⟨a :: u, e, v, rfl, h1, h2⟩
    | false =>
      refine ⟨[], a, t, rfl, ?_, fun e he => never ht he⟩
      simpa [List.any_cons, ht] using h

/-- The trust in this device is evaluated. -/
def evaluates (j : Jid) (d : DevId) : Ev → Bool
  | ⟨.evalTrust dev, _⟩ => decide (dev.bareJid = j ∧ dev.deviceId = d)
  | _ => false

/-- The trust in this device is evaluated, with another result. -/
def evaluatesElse (j : Jid) (d : DevId) (l : TrustLevel) : Ev → Bool
  | ⟨.evalTrust dev, x⟩ => decide (dev.bareJid = j ∧ dev.deviceId = d) && (match x with | .ok l' => decide (l' ≠ l) | .error _ => true)
  | _ => false

/-- If all evaluations of a device have the same result, it is that of the last one. -/
theorem lastEval {t : List Ev} {j : Jid} {d : DevId} {l : TrustLevel} (h : t.any (evaluates j d) = true)
    (h' : t.any (evaluatesElse j d l) = false) : ∃ dev, dev.bareJid = j ∧ dev.deviceId = d ∧ LastEval t dev l := by
  obtain ⟨u, ⟨o, x⟩, v, rfl, he, hv⟩ := findLast h
  have hn := never h' (e := ⟨o, x⟩) (by simp)
  cases o <;> try (cases he; done)
  rename_i dev
  simp only [evaluates, decide_eq_true_eq] at he
  cases x with
  | error y => simp [evaluatesElse, he] at hn
  | ok l' =>
    simp [evaluatesElse, he] at hn
    subst hn
    refine ⟨dev, he.1, he.2, u, v, rfl, fun e hev dev' h1 h2 h3 => ?_⟩
    have := hv e hev
    obtain ⟨o, x⟩ := e
    cases h3
    simp [evaluates, h1, h2, he] at this

theorem C28_indifferent : ¬ C28 indifferent := by
  intro hc
  obtain ⟨dev, -, -, hd⟩ := lastEval (t := (trial polite (indifferent Mgr.ex ["a"] [("n", [1]), ("o", [1, 2])] none none) unsure).1)
    (j := "a") (d := 8) (l := .undecided) (by decide +kernel) (by decide +kernel)
  have hans := runProg_answers (Lib.env polite) Lib.next 300 (indifferent Mgr.ex ["a"] [("n", [1]), ("o", [1, 2])] none none) unsure
  have hx := hc _ _ _ _ _ _ _ Mgr.ex_quiet
    (trial_exec polite (indifferent Mgr.ex ["a"] [("n", [1]), ("o", [1, 2])] none none) unsure)
    (trial_once polite_ok (by decide +kernel) (by decide))
    (fun dev l l' h h' => by
      obtain ⟨w1, h1⟩ := hans _ h
      obtain ⟨w2, h2⟩ := hans _ h'
      have h3 : Lib.env polite w1 (.evalTrust dev) = Lib.env polite w2 (.evalTrust dev) := rfl
      simp only at h1 h2
      rw [← h1, ← h2] at h3
      cases h3; rfl) dev hd
  obtain ⟨u, e, v, ht, hb⟩ := find (t := (trial polite (indifferent Mgr.ex ["a"] [("n", [1]), ("o", [1, 2])] none none) unsure).1)
    (f := fun e => Op.encrypts e.1) (by decide +kernel)
  rw [hx.1 e (by rw [ht]; simp)] at hb
  cases hb

/-! ### C34: sessions are stored on the way; sessions are not stored -/

/-- C34, first half, for a program. -/
def C34 (enc : Enc) : Prop :=
  ∀ (M : Mgr) (jids : List Jid) (pt : Dict Ns Bytes) (prio : Option (List Ns)) (i : Option String) (t : List Ev)
    (r : Res Exn (Dict Message PlainKM × List EncError)), CallbackQuiet M.decide → Exec (enc M jids pt prio i) t r →
    BackendsOnce t → ∃ u w, t = u ++ w ∧ (∀ e ∈ u, Op.storesSession e.1 = false) ∧ ∀ e ∈ w, Op.storesSession e.1 = true

theorem C34_encrypt : C34 encrypt := C34_stored_last

/-- Each session is stored as soon as it was used. -/
def storing (M : Mgr) (ns : Ns) (cache : List Bundle) (km : PlainKM) (st : EncState) (dev : DeviceInfo) : P EncState := do
  let st' ← encryptDevice M ns cache km st dev
  Prog.forEach (st'.sessions.drop st.sessions.length) fun (ns, session) => call (.storeSession ns session)
  pure st'

def eager : Enc := encryptBy fun M => { right M with device := storing M, persist := fun _ => pure () }

/-- The position of a test in a trace. -/
theorem split_at {t : List Ev} {f g : Ev → Bool} (h : (t.dropWhile fun e => !f e).any g = true) : ∃ u v, t = u ++ v ∧
    (∃ e, v.head? = some e ∧ f e = true) ∧ v.any g = true := by
  refine ⟨t.takeWhile fun e => !f e, t.dropWhile fun e => !f e, (List.takeWhile_append_dropWhile).symm, ?_, h⟩
  cases hd : t.dropWhile fun e => !f e with
  | nil => rw [hd] at h; cases h
  | cons e v =>
    have := List.head_dropWhile_not (fun e => !f e) (l := t) (by rw [hd]; simp)
    simp only [hd, List.head_cons] at this
    exact ⟨e, rfl, by simpa using this⟩

theorem C34_eager : ¬ C34 eager := by
  intro hc
  obtain ⟨a, b, hab, ha, hb⟩ := hc _ _ _ _ _ _ _ Mgr.ex_quiet
    (trial_exec polite (eager Mgr.ex ["a"] [("n", [1]), ("o", [1, 2])] none none) World.chat)
    (trial_once polite_ok (by decide +kernel) (by decide))
  obtain ⟨u, v, huv, ⟨e, he, hs⟩, hv⟩ := split_at (t := (trial polite (eager Mgr.ex ["a"] [("n", [1]), ("o", [1, 2])] none none) World.chat).1)
    (f := fun e => Op.storesSession e.1) (g := fun e => Op.handsOut e.1) (by decide +kernel)
  obtain ⟨e', he', hg⟩ := List.any_eq_true.1 hv
  have hne : Op.storesSession e'.1 = false := by
    obtain ⟨o, x⟩ := e'
    cases o <;> first | rfl | cases hg
  rw [hab] at huv
  rcases List.append_eq_append_iff.1 huv with ⟨c, rfl, rfl⟩ | ⟨c, rfl, rfl⟩
  · have := hb e' (List.mem_append_right _ he')
    rw [hne] at this; cases this
  · cases c with
    | nil =>
      have := hb e' he'
      rw [hne] at this; cases this
    | cons x c =>
      cases he
      rw [ha e (by simp)] at hs
      cases hs

/-- C34, second half, for a program. -/
def C34' (enc : Enc) : Prop :=
  ∀ (M : Mgr) (jids : List Jid) (pt : Dict Ns Bytes) (prio : Option (List Ns)) (i : Option String) (t : List Ev)
    (msgs : Dict Message PlainKM) (errs : List EncError), CallbackQuiet M.decide →
    Exec (enc M jids pt prio i) t (.ok (msgs, errs)) → BackendsOnce t → Addressed t →
    (stored t).Perm (given t) ∧ (stored t).length = (msgs.map fun x => x.1.keys.length).sum

theorem C34'_encrypt : C34' encrypt := C34_all_stored

/-- Only the last session is stored (an indentation error in sm:1960-1963). -/
def lax : Enc := encryptBy fun M => { right M with persist := fun sessions => (right M).persist (sessions.drop (sessions.length - 1)) }

theorem C34'_lax : ¬ C34' lax := by
  intro hc
  have hr : (trial polite (lax Mgr.ex ["a"] [("n", [1]), ("o", [1, 2])] none none) World.chat).2.1 =
    .ok ([(⟨"n", "me", 1, ⟨false, 1⟩, [(⟨"a", 7, 1⟩, none)]⟩, ⟨1⟩), (⟨"o", "me", 1, ⟨false, 2⟩, [(⟨"a", 8, 2⟩, some ⟨[8], 0⟩)]⟩, ⟨2⟩)], []) := rfl
  have hx := hc _ _ _ _ _ _ _ _ Mgr.ex_quiet
    (hr ▸ trial_exec polite (lax Mgr.ex ["a"] [("n", [1]), ("o", [1, 2])] none none) World.chat)
    (trial_once polite_ok (by decide +kernel) (by decide)) (polite_addressed (runProg_answers _ _ _ _ _))
  have : (stored (trial polite (lax Mgr.ex ["a"] [("n", [1]), ("o", [1, 2])] none none) World.chat).1).length = 1 := by decide +kernel
  rw [this] at hx
  exact absurd hx.2 (by decide)

/-! ### C35: the key exchange is left out -/

/-- C35 for a program. -/
def C35 (enc : Enc) : Prop :=
  ∀ (M : Mgr) (jids : List Jid) (pt : Dict Ns Bytes) (prio : Option (List Ns)) (i : Option String) (t : List Ev)
    (msgs : Dict Message PlainKM) (errs : List EncError), CallbackQuiet M.decide →
    Exec (enc M jids pt prio i) t (.ok (msgs, errs)) → BackendsOnce t →
    ∀ x ∈ msgs, ∀ k ∈ x.1.keys, ∃ j d s, Served t x.1.ns j d x.2 k.1 s ∧ KexRule s k.2

theorem C35_encrypt : C35 encrypt := Verif.C35_encrypt

/-- The key exchange is never attached. -/
def bare (M : Mgr) (ns : Ns) (cache : List Bundle) (km : PlainKM) (st : EncState) (dev : DeviceInfo) : P EncState := do
  let st' ← encryptDevice M ns cache km st dev
  pure { st' with keys := st'.keys.map fun k => (k.1, none) }

def keyless : Enc := encryptBy fun M => { right M with device := bare M }

/-- The backend gave a session that is not to be announced. -/
def quietGift : Ev → Bool
  | ⟨.buildActive .., .ok (s, _)⟩ => decide (s.initiation ≠ .active ∨ s.confirmed ≠ false)
  | ⟨.encryptKM .., .ok (k, _)⟩ => decide (k.deviceId = 8)
  | _ => false

theorem C35_keyless : ¬ C35 keyless := by
  intro hc
  have hr : (trial polite (keyless Mgr.ex ["a"] [("n", [1]), ("o", [1, 2])] none none) World.chat).2.1 =
    .ok ([(⟨"n", "me", 1, ⟨false, 1⟩, [(⟨"a", 7, 1⟩, none)]⟩, ⟨1⟩), (⟨"o", "me", 1, ⟨false, 2⟩, [(⟨"a", 8, 2⟩, none)]⟩, ⟨2⟩)], []) := rfl
  obtain ⟨j, d, s, ⟨u, e, v, ht, -, hg⟩, hk⟩ := hc _ _ _ _ _ _ _ _ Mgr.ex_quiet
    (hr ▸ trial_exec polite (keyless Mgr.ex ["a"] [("n", [1]), ("o", [1, 2])] none none) World.chat)
    (trial_once polite_ok (by decide +kernel) (by decide)) _ (List.mem_cons_of_mem _ List.mem_cons_self) _ List.mem_cons_self
  have hn := never (f := quietGift) (t := (trial polite (keyless Mgr.ex ["a"] [("n", [1]), ("o", [1, 2])] none none) World.chat).1)
    (by decide +kernel) (e := e) (by rw [ht]; simp)
  rcases hg with ⟨_, _, _, _, _, rfl⟩ | ⟨_, _, _, rfl⟩
  · have h1 : s.initiation = .active ∧ s.confirmed = false := by simpa [quietGift] using hn
    have := hk.1 h1
    cases this
  · simp [quietGift] at hn

/-! ### C33: devices that failed are taken for served -/

/-- C33, converse, for a program. -/
def C33 (enc : Enc) : Prop :=
  ∀ (M : Mgr) (jids : List Jid) (pt : Dict Ns Bytes) (prio : Option (List Ns)) (i : Option String) (t : List Ev)
    (msgs : Dict Message PlainKM) (errs : List EncError), CallbackQuiet M.decide →
    Exec (enc M jids pt prio i) t (.ok (msgs, errs)) → BackendsOnce t → BackendsStay t → Addressed t →
    ∀ j ∈ jids, j ≠ M.ownJid → Reached t j

theorem C33_encrypt : C33 encrypt := fun M jids pt prio i t msgs errs h1 h2 h3 h4 h5 j hj hn =>
  C33_reached M jids pt prio i t msgs errs h1 h2 h3 h4 h5 j hj hn

/-- Devices that failed are not removed (sm:1915 forgotten). -/
def keeping (M : Mgr) (ns : Ns) (cache : List Bundle) (km : PlainKM) (st : EncState) (dev : DeviceInfo) : P EncState := do
  let st' ← encryptDevice M ns cache km st dev
  pure { st' with devices := st.devices }

def optimistic : Enc := encryptBy fun M => { right M with device := keeping M }

/-- Like `polite`, but there are no sessions, and none can be built. -/
def barren : World → (o : Op) → Except Exn o.Ret
  | _, .loadSession .. => .ok none
  | _, .buildActive .. => .error .keyExchangeFailed
  | w, o => polite w o

theorem barren_ok (w : World) (o : Op) (e : Exn) (h : barren w o = .error e) : e.isInternal = false := by
  cases o <;> cases h <;> rfl

theorem barren_addressed {t : List Ev} (h : ∀ e ∈ t, ∃ w, e.2 = Lib.env barren w e.1) : Addressed t where
  load ns j d s hm := by
    obtain ⟨w, hw⟩ := h _ hm
    cases hw
  build ns j d b m s k hm := by
    obtain ⟨w, hw⟩ := h _ hm
    cases hw
  encrypt ns s m k s' hm := by
    obtain ⟨w, hw⟩ := h _ hm
    cases hw
    exact ⟨⟨rfl, rfl⟩, rfl, rfl⟩

/-- The backend gave a session. -/
def gift : Ev → Bool | ⟨.buildActive .., .ok _⟩ => true | ⟨.encryptKM .., .ok _⟩ => true | _ => false

theorem C33_optimistic : ¬ C33 optimistic := by
  intro hc
  have hr : (trial barren (optimistic Mgr.ex ["a"] [("n", [1]), ("o", [1, 2])] none none) World.chat).2.1 =
    .ok ([(⟨"n", "me", 1, ⟨false, 1⟩, []⟩, ⟨1⟩), (⟨"o", "me", 1, ⟨false, 2⟩, []⟩, ⟨2⟩)],
      [⟨"n", "a", 7, .keyExchangeFailed⟩, ⟨"o", "a", 8, .keyExchangeFailed⟩]) := rfl
  obtain ⟨ns, d, m, k, s, u, e, v, ht, -, hg⟩ := hc _ _ _ _ _ _ _ _ Mgr.ex_quiet
    (hr ▸ trial_exec barren (optimistic Mgr.ex ["a"] [("n", [1]), ("o", [1, 2])] none none) World.chat)
    (trial_once barren_ok (by decide +kernel) (by decide)) (trial_stay barren_ok (by decide +kernel))
    (barren_addressed (runProg_answers _ _ _ _ _)) "a" (by simp) (by decide)
  have hn := never (f := gift) (t := (trial barren (optimistic Mgr.ex ["a"] [("n", [1]), ("o", [1, 2])] none none) World.chat).1)
    (by decide +kernel) (e := e) (by rw [ht]; simp)
  rcases hg with ⟨_, _, _, _, _, rfl⟩ | ⟨_, _, _, rfl⟩ <;> cases hn

/-! ### C32: errors are swallowed -/

/-- C32, first part, for a program. -/
def C32 (enc : Enc) : Prop :=
  ∀ (M : Mgr) (jids : List Jid) (pt : Dict Ns Bytes) (prio : Option (List Ns)) (i : Option String) (t : List Ev)
    (msgs : Dict Message PlainKM) (errs : List EncError), CallbackQuiet M.decide →
    Exec (enc M jids pt prio i) t (.ok (msgs, errs)) → BackendsOnce t → BackendsStay t → Addressed t →
    ∀ dev, LastEval t dev .trusted → ∃ ns, dev.namespaces = [ns] ∧
      (((∃ x ∈ msgs, x.1.ns = ns ∧ (∃ k, keysFor x.1 dev.bareJid dev.deviceId = [k]) ∧
          ∀ x' ∈ msgs, x' ≠ x → keysFor x'.1 dev.bareJid dev.deviceId = []) ∧ errorsFor errs dev.bareJid dev.deviceId = []) ∨
       ((∀ x ∈ msgs, keysFor x.1 dev.bareJid dev.deviceId = []) ∧ ∃ e, errorsFor errs dev.bareJid dev.deviceId = [e] ∧ e.ns = ns))

theorem C32_encrypt : C32 encrypt := fun M jids pt prio i t msgs errs h1 h2 h3 h4 h5 =>
  (C32_served_or_reported M jids pt prio i t msgs errs h1 h2 h3 h4 h5).1

/-- Errors are not collected (sm:1918-1925 forgotten). -/
def swallowing (M : Mgr) (ns : Ns) (cache : List Bundle) (km : PlainKM) (st : EncState) (dev : DeviceInfo) : P EncState := do
  let st' ← encryptDevice M ns cache km st dev
  pure { st' with errors := st.errors }

def silent : Enc := encryptBy fun M => { right M with device := swallowing M }

/-- Like `polite`, but no sessions can be built. -/
def stuck : World → (o : Op) → Except Exn o.Ret
  | _, .buildActive .. => .error .keyExchangeFailed
  | w, o => polite w o

theorem stuck_ok (w : World) (o : Op) (e : Exn) (h : stuck w o = .error e) : e.isInternal = false := by
  cases o <;> cases h <;> rfl

theorem stuck_addressed {t : List Ev} (h : ∀ e ∈ t, ∃ w, e.2 = Lib.env stuck w e.1) : Addressed t where
  load ns j d s hm := by
    obtain ⟨w, hw⟩ := h _ hm
    simp only [Lib.env, stuck, polite] at hw
    split at hw
    · cases hw; exact ⟨rfl, rfl⟩
    · cases hw
  build ns j d b m s k hm := by
    obtain ⟨w, hw⟩ := h _ hm
    cases hw
  encrypt ns s m k s' hm := by
    obtain ⟨w, hw⟩ := h _ hm
    cases hw
    exact ⟨⟨rfl, rfl⟩, rfl, rfl⟩

theorem C32_silent : ¬ C32 silent := by
  intro hc
  have hr : (trial stuck (silent Mgr.ex ["a"] [("n", [1]), ("o", [1, 2])] none none) World.chat).2.1 =
    .ok ([(⟨"n", "me", 1, ⟨false, 1⟩, [(⟨"a", 7, 1⟩, none)]⟩, ⟨1⟩), (⟨"o", "me", 1, ⟨false, 2⟩, []⟩, ⟨2⟩)], []) := rfl
  obtain ⟨dev, h1, h2, hd⟩ := lastEval (t := (trial stuck (silent Mgr.ex ["a"] [("n", [1]), ("o", [1, 2])] none none) World.chat).1)
    (j := "a") (d := 8) (l := .trusted) (by decide +kernel) (by decide +kernel)
  obtain ⟨ns, -, hx⟩ := hc _ _ _ _ _ _ _ _ Mgr.ex_quiet
    (hr ▸ trial_exec stuck (silent Mgr.ex ["a"] [("n", [1]), ("o", [1, 2])] none none) World.chat)
    (trial_once stuck_ok (by decide +kernel) (by decide)) (trial_stay stuck_ok (by decide +kernel))
    (stuck_addressed (runProg_answers _ _ _ _ _)) dev hd
  rw [h1, h2] at hx
  rcases hx with ⟨⟨x, hm, -, ⟨k, hk⟩, -⟩, -⟩ | ⟨-, e, he, -⟩
  · simp only [List.mem_cons, List.not_mem_nil, or_false] at hm
    rcases hm with rfl | rfl <;> (revert hk; simp [keysFor])
  · cases he

/-! ### C37: unknown namespaces in the priority order are ignored -/

/-- C37 for a program. -/
def C37 (enc : Enc) : Prop :=
  ∀ (M : Mgr) (jids : List Jid) (pt : Dict Ns Bytes) (l : List Ns) (i : Option String) (bs : List Ns)
    (t : List Ev) (r : Res Exn (Dict Message PlainKM × List EncError)), Exec (enc M jids pt (some l) i) (⟨.getBackends, .ok bs⟩ :: t) r →
    (∃ ns ∈ l, ns ∉ bs) → t = [] ∧ r = .raised .unknownNamespace

theorem C37_encrypt : C37 encrypt := C37_unknown_priority

/-- The given order is not compared with the loaded backends (sm:1715-1722 forgotten). -/
def tolerant : Enc := encryptBy fun M => { right M with order := fun available priority => .ok (priority.getD available) }

theorem C37_tolerant : ¬ C37 tolerant := by
  intro hc
  have hx := hc _ _ _ ["x", "n", "o"] none ["n", "o"]
    ((trial polite (tolerant Mgr.ex ["a"] [("n", [1]), ("o", [1, 2])] (some ["x", "n", "o"]) none) World.chat).1.drop 1) _
    (trial_exec polite (tolerant Mgr.ex ["a"] [("n", [1]), ("o", [1, 2])] (some ["x", "n", "o"]) none) World.chat) ⟨"x", by decide, by decide⟩
  have : ((trial polite (tolerant Mgr.ex ["a"] [("n", [1]), ("o", [1, 2])] (some ["x", "n", "o"]) none) World.chat).1.drop 1).isEmpty = false := by
    decide +kernel
  rw [hx.1] at this
  cases this

end Wrong
end Verif
