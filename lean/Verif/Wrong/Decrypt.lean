import Verif.Props.DecryptAfter
import Verif.Props.Sync
import Verif.Wrong.Encrypt
/-
Wrong programs in place of `decrypt`, and the claims that reject them.  See Wrong/Encrypt.lean for the method.
-/
namespace Verif
namespace Wrong
open SM Spec

/-- A program in place of `decrypt`. -/
abbrev Dec := Mgr → Message → P (Option Bytes × DeviceInfo × PlainKM)

/-- The steps of `decrypt`. -/
structure DecSteps where
  /-- sm:2023-2025 -/
  loaded : List Ns → Message → Bool
  /-- sm:2027-2038 -/
  key : Message → Option (EncKM × Option KeyExchange)
  /-- sm:2040-2070 -/
  sender : Message → P DeviceInfo
  /-- sm:2072-2076 -/
  rejected : TrustLevel → Bool
  /-- sm:2112-2179 -/
  exchange : Ns → DeviceInfo → KeyExchange → EncKM → P (Session × PlainKM)
  /-- sm:2190-2194, with the session at hand -/
  plaintext : Message → Session → PlainKM → P (Option Bytes)
  /-- sm:2198 -/
  keep : Ns → Session → P Unit
  /-- sm:2201-2221 -/
  consume : Ns → Session → P Unit
  /-- sm:2223-2249 -/
  reply : Ns → Option KeyExchange → Session → P Unit

/-- The steps as they are in the code. -/
def rightly (M : Mgr) : DecSteps where
  loaded := fun bs msg => decide (msg.ns ∈ bs)
  key := fun msg => (M.O.iter msg.keys).find? fun k => decide (k.1.bareJid = M.ownJid ∧ k.1.deviceId = M.ownDev)
  sender := findSender M
  rejected := fun l => decide (l = .distrusted)
  exchange := handleKeyExchange M
  plaintext := fun msg _ km => plaintextOf msg km
  keep := fun ns session => call (.storeSession ns session)
  consume := consumePreKey M
  reply := autoReply M

/-- `keyMaterial` with other steps. -/
def keysBy (S : DecSteps) (msg : Message) (dev : DeviceInfo) (ekm : EncKM) (kex : Option KeyExchange) : P (Session × PlainKM) :=
  match kex with
  | none => decryptKeyMaterial msg.ns dev ekm
  | some kex => S.exchange msg.ns dev kex ekm

/-- `decryptContent` with other steps. -/
def contentBy (S : DecSteps) (msg : Message) (dev : DeviceInfo) (ekm : EncKM) (kex : Option KeyExchange) :
    P (Option Bytes × Session × PlainKM) := do
  let level : TrustLevel ← call (.evalTrust dev)
  if S.rejected level = true then throwE .senderDistrusted
  else do
    let (session, km) ← keysBy S msg dev ekm kex
    let plaintext ← S.plaintext msg session km
    pure (plaintext, session, km)

/-- `postDecrypt` with other steps. -/
def postBy (S : DecSteps) (ns : Ns) (kex : Option KeyExchange) (session : Session) : P Unit := do
  S.keep ns session
  Prog.when (kex ≠ none) (S.consume ns session)
  S.reply ns kex session

/-- `decrypt` with other steps. -/
def decryptBy (S : Mgr → DecSteps) : Dec := fun M msg => do
  let bs ← call .getBackends
  if (S M).loaded bs msg = false then throwE .unknownNamespace
  else do
    match (S M).key msg with
    | none => throwE .messageNotForUs
    | some (ekm, kex) => do
      let dev ← (S M).sender msg
      let (plaintext, session, km) ← contentBy (S M) msg dev ekm kex
      postBy (S M) msg.ns kex session
      pure (plaintext, dev, km)

theorem decryptBy_right : decryptBy rightly = decrypt := by
  have hc (M : Mgr) : contentBy (rightly M) = decryptContent M := by
    funext msg dev ekm kex
    have hk : keysBy (rightly M) = keyMaterial M := rfl
    simp only [contentBy, decryptContent, rightly, decide_eq_true_eq] at *
    simp only [hk]
  have hp (M : Mgr) : postBy (rightly M) = postDecrypt M := rfl
  funext M msg
  simp only [decryptBy, decrypt, hc, hp]
  refine congrArg (Bind.bind _) (funext fun bs => ?_)
  by_cases h : msg.ns ∈ bs <;> simp only [rightly, h, not_true, not_false_eq_true, if_true, if_false, decide_true, decide_false, Bool.true_eq_false]
  rfl

/-! ### C38: distrusted senders, foreign keys, backends not loaded -/

/-- C38, distrust, for a program. -/
def C38 (dec : Dec) : Prop :=
  ∀ (M : Mgr) (msg : Message) (dev : DeviceInfo) (t : List Ev) (r), Exec (dec M msg) t r →
    (⟨.evalTrust dev, .ok .distrusted⟩ : Ev) ∈ t →
    (r = .raised .senderDistrusted) ∧ t.getLast? = some ⟨.evalTrust dev, .ok .distrusted⟩

theorem C38_decrypt : C38 decrypt := fun M msg dev t r he hd => C38_distrusted M msg dev t r he hd

/-- The trust in the sender is evaluated, but only undecided senders are rejected (sm:2074: the wrong level). -/
def credulous : Dec := decryptBy fun M => { rightly M with rejected := fun l => decide (l = .undecided) }

theorem C38_credulous : ¬ C38 credulous := by
  intro hc
  obtain ⟨u, ⟨o, x⟩, v, ht, hb⟩ := find (t := (trial friendly (credulous Mgr.ex kexMessage) World.betrayed).1)
    (f := fun e => match e with | ⟨.evalTrust _, .ok .distrusted⟩ => true | _ => false) (by decide +kernel)
  split at hb
  · rename_i dev heq
    rw [heq] at ht
    have hx := (hc _ _ dev _ _ (trial_exec friendly (credulous Mgr.ex kexMessage) World.betrayed) (by rw [ht]; simp)).1
    have hr : (trial friendly (credulous Mgr.ex kexMessage) World.betrayed).2.1 =
      .ok (some [5, 3], { phone with trustLevelName := "bad" }, ⟨3⟩) := rfl
    rw [hr] at hx
    cases hx
  · cases hb

/-- C38, early errors, for a program. -/
def C38' (dec : Dec) : Prop :=
  ∀ (M : Mgr) (msg : Message) (bs : List Ns) (t : List Ev) (r), Exec (dec M msg) (⟨.getBackends, .ok bs⟩ :: t) r →
    (msg.ns ∉ bs → t = [] ∧ r = .raised .unknownNamespace) ∧
    (msg.ns ∈ bs → (∀ k ∈ msg.keys, ¬ (k.1.bareJid = M.ownJid ∧ k.1.deviceId = M.ownDev)) → t = [] ∧ r = .raised .messageNotForUs)

theorem C38'_decrypt : C38' decrypt := C38_rejected

/-- Only the JID of the keys is looked at (sm:2030: half of the condition). -/
def sloppy : Dec := decryptBy fun M => { rightly M with key := fun msg => (M.O.iter msg.keys).find? fun k => decide (k.1.bareJid = M.ownJid) }

theorem C38'_sloppy : ¬ C38' sloppy := by
  intro hc
  have hx := (hc Mgr.ex otherMessage ["n", "o"] ((trial friendly (sloppy Mgr.ex otherMessage) World.chat).1.drop 1) _
    (trial_exec friendly (sloppy Mgr.ex otherMessage) World.chat)).2 (by decide) (by decide)
  have : ((trial friendly (sloppy Mgr.ex otherMessage) World.chat).1.drop 1).isEmpty = false := by decide +kernel
  rw [hx.1] at this
  cases this

/-- Messages for backends that are not loaded are not turned down (sm:2023-2025 forgotten). -/
def open' : Dec := decryptBy fun M => { rightly M with loaded := fun _ _ => true }

theorem C38'_open : ¬ C38' open' := by
  intro hc
  have hx := (hc Mgr.ex alienMessage ["n", "o"] ((trial friendly (open' Mgr.ex alienMessage) World.chat).1.drop 1) _
    (trial_exec friendly (open' Mgr.ex alienMessage) World.chat)).1 (by decide)
  have : ((trial friendly (open' Mgr.ex alienMessage) World.chat).1.drop 1).isEmpty = false := by decide +kernel
  rw [hx.1] at this
  cases this

/-! ### C39: the identity key of the key exchange is not compared -/

/-- C39 for a program. -/
def C39 (dec : Dec) : Prop :=
  ∀ (M : Mgr) (msg : Message) (t : List Ev) (r), Exec (dec M msg) t r → ∀ (ekm : EncKM) (x : KeyExchange),
    keyForUs M msg = some (ekm, some x) → ∀ (dev : DeviceInfo) (l : TrustLevel), (⟨.evalTrust dev, .ok l⟩ : Ev) ∈ t →
    l ≠ .distrusted → x.identityKey ≠ dev.identityKey →
    r = .raised .publicDataInconsistency ∧ ∃ u l, t = u ++ [⟨.evalTrust dev, .ok l⟩]

theorem C39_decrypt : C39 decrypt := C39_rejected

/-- `handle_key_exchange` without the comparison (sm:2124-2130 forgotten). -/
def uncompared (M : Mgr) (ns : Ns) (dev : DeviceInfo) (kex : KeyExchange) (ekm : EncKM) : P (Session × PlainKM) := do
  let s : Option Session ← call (.loadSession ns dev.bareJid dev.deviceId)
  match s.filter (fun s => decide (s.initiation = .passive) && M.sameSession s.keyExchange kex) with
  | none => call (.buildPassive ns dev.bareJid dev.deviceId kex ekm)
  | some session => do
    let (km, session) ← call (.decryptKM ns session ekm)
    pure (session, km)

def gullible : Dec := decryptBy fun M => { rightly M with exchange := uncompared M }

theorem C39_gullible : ¬ C39 gullible := by
  intro hc
  obtain ⟨u, ⟨o, x⟩, v, ht, hb⟩ := find (t := (trial friendly (gullible Mgr.ex foreignMessage) World.chat).1)
    (f := fun e => match e with | ⟨.evalTrust dev, .ok .trusted⟩ => decide (dev.identityKey = [7]) | _ => false) (by decide +kernel)
  split at hb
  · rename_i dev heq
    rw [heq] at ht
    have hk : dev.identityKey = [7] := by simpa using hb
    have hx := (hc _ _ _ _ (trial_exec friendly (gullible Mgr.ex foreignMessage) World.chat) _ _ foreign_key dev .trusted (by rw [ht]; simp)
      (by decide) (by rw [hk]; decide)).1
    have hr : (trial friendly (gullible Mgr.ex foreignMessage) World.chat).2.1 = .ok (some [5, 3], phone, ⟨3⟩) := rfl
    rw [hr] at hx
    cases hx
  · cases hb

/-! ### C40: the session is stored before the content is known to be good; not stored -/

/-- C40, failures, for a program. -/
def C40 (dec : Dec) : Prop :=
  ∀ (M : Mgr) (msg : Message) (t : List Ev) (r), Exec (dec M msg) t r →
    ((∀ g ∈ t, ∀ ekm s km, ¬ GaveKM msg.ns g ekm s km) ∨
      (msg.content.empty = false ∧ ∀ km p, (⟨.decryptPlaintext msg.ns msg.content km, .ok p⟩ : Ev) ∉ t)) →
    ∀ e ∈ t, Op.lasting e.1 = false

theorem C40_decrypt : C40 decrypt := C40_failed

/-- The session is stored right after the key material was recovered. -/
def rash : Dec := decryptBy fun M => { rightly M with
  plaintext := fun msg session km => do
    call (.storeSession msg.ns session)
    plaintextOf msg km
  keep := fun _ _ => pure () }

theorem C40_rash : ¬ C40 rash := by
  intro hc
  obtain ⟨u, e, v, ht, hb⟩ := find (t := (trial tampered (rash Mgr.ex kexMessage) World.chat).1) (f := fun e => Op.lasting e.1) (by decide +kernel)
  have hx := hc _ _ _ _ (trial_exec tampered (rash Mgr.ex kexMessage) World.chat) (.inr ⟨rfl, fun km p hm => by
    obtain ⟨w, hw⟩ := runProg_answers (Lib.env tampered) Lib.next 300 (rash Mgr.ex kexMessage) World.chat _ hm
    cases hw⟩) e (by rw [ht]; simp)
  rw [hx] at hb
  cases hb

/-- C40, success, for a program. -/
def C40' (dec : Dec) : Prop :=
  ∀ (M : Mgr) (msg : Message) (t : List Ev) (p : Option Bytes) (dev : DeviceInfo) (km : PlainKM), Exec (dec M msg) t (.ok (p, dev, km)) →
    ∃ ekm kex s u v, keyForUs M msg = some (ekm, kex) ∧ t = u ++ ⟨.storeSession msg.ns s, .ok ()⟩ :: v ∧ ∃ g ∈ u, GaveKM msg.ns g ekm s km

theorem C40'_decrypt : C40' decrypt := C40_stored

/-- The session is not stored (sm:2198 forgotten). -/
def forgetting : Dec := decryptBy fun M => { rightly M with keep := fun _ _ => pure () }

theorem C40'_forgetting : ¬ C40' forgetting := by
  intro hc
  have hr : (trial friendly (forgetting Mgr.ex plainMessage) World.chat).2.1 = .ok (some [5, 3], phone, ⟨3⟩) := rfl
  obtain ⟨ekm, kex, s, u, v, -, ht, -⟩ := hc _ _ _ _ _ _ (hr ▸ trial_exec friendly (forgetting Mgr.ex plainMessage) World.chat)
  have := never (f := isStored) (t := (trial friendly (forgetting Mgr.ex plainMessage) World.chat).1) (by decide +kernel)
    (e := ⟨.storeSession "n" s, .ok ()⟩) (by rw [ht]; simp [plainMessage, kexMessage])
  cases this

/-! ### C41: stored sessions are ignored; stored sessions are used without comparing the key exchange -/

/-- C41, new sessions, for a program. -/
def C41 (dec : Dec) : Prop :=
  ∀ (M : Mgr) (msg : Message) (t : List Ev) (r), Exec (dec M msg) t r → ∀ (ns : Ns) (j : Jid) (d : DevId)
    (x : KeyExchange) (k : EncKM) (a), (⟨.buildPassive ns j d x k, a⟩ : Ev) ∈ t →
    ns = msg.ns ∧ j = msg.bareJid ∧ d = msg.deviceId ∧ keyForUs M msg = some (k, some x) ∧
      ∃ o, (⟨.loadSession msg.ns msg.bareJid msg.deviceId, .ok o⟩ : Ev) ∈ t ∧ ∀ s0, o = some s0 → ¬ Same M s0 x

theorem C41_decrypt : C41 decrypt := C41_built

/-- A session is built for every key exchange, whatever is stored. -/
def rebuilding : Dec := decryptBy fun M => { rightly M with
  exchange := fun ns dev kex ekm =>
    if kex.identityKey ≠ dev.identityKey then throwE .publicDataInconsistency
    else do
      let _s : Option Session ← call (.loadSession ns dev.bareJid dev.deviceId)
      call (.buildPassive ns dev.bareJid dev.deviceId kex ekm) }

theorem C41_rebuilding : ¬ C41 rebuilding := by
  intro hc
  obtain ⟨u, ⟨o, a⟩, v, ht, hb⟩ := find (t := (trial remembering (rebuilding Mgr.ex kexMessage) World.chat).1)
    (f := fun e => match e.1 with | .buildPassive .. => true | _ => false) (by decide +kernel)
  cases o <;> try (cases hb; done)
  rename_i ns j d x k
  obtain ⟨-, -, -, hk, o, ho, hs⟩ := hc _ _ _ _ (trial_exec remembering (rebuilding Mgr.ex kexMessage) World.chat) ns j d x k a (by rw [ht]; simp)
  rw [kex_key] at hk
  cases hk
  obtain ⟨w, hw⟩ := runProg_answers (Lib.env remembering) Lib.next 300 (rebuilding Mgr.ex kexMessage) World.chat _ ho
  cases hw
  exact hs _ rfl ⟨rfl, by decide⟩

/-- C41, existing sessions, for a program. -/
def C41' (dec : Dec) : Prop :=
  ∀ (M : Mgr) (msg : Message) (t : List Ev) (r), Exec (dec M msg) t r → ∀ (ns : Ns) (s0 : Session) (k : EncKM) (a),
    (⟨.decryptKM ns s0 k, a⟩ : Ev) ∈ t →
    ns = msg.ns ∧ (⟨.loadSession msg.ns msg.bareJid msg.deviceId, .ok (some s0)⟩ : Ev) ∈ t ∧
      ∃ kex, keyForUs M msg = some (k, kex) ∧ ∀ x, kex = some x → Same M s0 x

theorem C41'_decrypt : C41' decrypt := C41_used

/-- Any stored session is used (sm:2143-2152: the comparison forgotten). -/
def reusing : Dec := decryptBy fun M => { rightly M with
  exchange := fun ns dev kex ekm =>
    if kex.identityKey ≠ dev.identityKey then throwE .publicDataInconsistency
    else do
      let s : Option Session ← call (.loadSession ns dev.bareJid dev.deviceId)
      match s with
      | none => call (.buildPassive ns dev.bareJid dev.deviceId kex ekm)
      | some session => do
        let (km, session) ← call (.decryptKM ns session ekm)
        pure (session, km) }

theorem C41'_reusing : ¬ C41' reusing := by
  intro hc
  obtain ⟨u, ⟨o, a⟩, v, ht, hb⟩ := find (t := (trial friendly (reusing Mgr.ex kexMessage) World.chat).1)
    (f := fun e => match e.1 with | .decryptKM _ s _ => decide (s.initiation = .active) | _ => false) (by decide +kernel)
  cases o <;> try (cases hb; done)
  rename_i ns s0 k
  obtain ⟨-, -, kex, hk, hs⟩ := hc _ _ _ _ (trial_exec friendly (reusing Mgr.ex kexMessage) World.chat) ns s0 k a (by rw [ht]; simp)
  rw [kex_key] at hk
  cases hk
  have h1 := (hs _ rfl).1
  simp [h1] at hb

/-! ### C42: pre keys are not given up -/

/-- C42, with key exchange, for a program. -/
def C42 (dec : Dec) : Prop :=
  ∀ (M : Mgr) (msg : Message) (t : List Ev) (p : Option Bytes) (dev : DeviceInfo) (km : PlainKM),
    Exec (dec M msg) t (.ok (p, dev, km)) → ∀ (ekm : EncKM) (x : KeyExchange), keyForUs M msg = some (ekm, some x) →
    ∃ s u v sync e, t = u ++ ⟨.getSync, .ok sync⟩ :: e :: v ∧ (e.1 = if sync then .hidePreKey msg.ns s else .deletePreKey msg.ns s) ∧
      (∃ g ∈ u, GaveKM msg.ns g ekm s km) ∧ ∀ e' ∈ u ++ v, Op.givesUp e'.1 = false

theorem C42_decrypt : C42 decrypt := C42_givesUp

/-- Pre keys are used again (sm:2201-2221 forgotten). -/
def hoarding : Dec := decryptBy fun M => { rightly M with consume := fun _ _ => pure () }

theorem C42_hoarding : ¬ C42 hoarding := by
  intro hc
  have hr : (trial friendly (hoarding Mgr.ex kexMessage) World.chat).2.1 = .ok (some [5, 3], phone, ⟨3⟩) := rfl
  obtain ⟨s, u, v, sync, e, ht, he, -⟩ := hc _ _ _ _ _ _ (hr ▸ trial_exec friendly (hoarding Mgr.ex kexMessage) World.chat) _ _ kex_key
  have := never (f := fun e => Op.givesUp e.1) (t := (trial friendly (hoarding Mgr.ex kexMessage) World.chat).1) (by decide +kernel)
    (e := e) (by rw [ht]; simp)
  simp only [he] at this
  cases sync <;> cases this

/-! ### C44: the bundle is obtained too early -/

/-- C44 for a program. -/
def C44 (dec : Dec) : Prop :=
  ∀ (M : Mgr) (msg : Message) (t : List Ev) (p : Option Bytes) (dev : DeviceInfo) (km : PlainKM), Exec (dec M msg) t (.ok (p, dev, km)) →
    (∃ s, (⟨.hidePreKey msg.ns s, .ok true⟩ : Ev) ∈ t ∨ (⟨.deletePreKey msg.ns s, .ok true⟩ : Ev) ∈ t) →
    ∃ u b v, t = u ++ ⟨.getBundle msg.ns M.ownJid M.ownDev, .ok b⟩ :: ⟨.uploadBundle b, .ok ()⟩ :: v ∧
      (∀ e ∈ v, Op.preKeys e.1 = false) ∧ ∀ e ∈ u ++ v, Op.publishes e.1 = false

theorem C44_decrypt : C44 decrypt := C44_published

/-- The pre keys are refilled after the bundle was uploaded. -/
def early (M : Mgr) (ns : Ns) (session : Session) : P Unit := do
  let sync : Bool ← call .getSync
  let changed ← discardPreKey ns sync session
  Prog.when (changed = true) do
    let bundle ← call (.getBundle ns M.ownJid M.ownDev)
    call (.uploadBundle bundle)
    refillPreKeys M ns

def premature : Dec := decryptBy fun M => { rightly M with consume := early M }

theorem C44_premature : ¬ C44 premature := by
  intro hc
  have hr : (trial friendly (premature Mgr.ex kexMessage) World.chat).2.1 = .ok (some [5, 3], phone, ⟨3⟩) := rfl
  obtain ⟨u0, ⟨o, a⟩, v0, ht0, hb⟩ := find (t := (trial friendly (premature Mgr.ex kexMessage) World.chat).1) (f := isDeleted) (by decide +kernel)
  have hd : ∃ s, (⟨o, a⟩ : Ev) = ⟨.deletePreKey "n" s, .ok true⟩ := by
    revert hb
    simp only [isDeleted]
    split
    · rename_i heq
      intro hn
      rw [heq]
      simp only [decide_eq_true_eq] at hn
      exact ⟨_, by rw [hn]⟩
    · intro h; cases h
  obtain ⟨s, hd⟩ := hd
  obtain ⟨u, b, v, ht, hv, hp⟩ := hc _ _ _ _ _ _ (hr ▸ trial_exec friendly (premature Mgr.ex kexMessage) World.chat)
    ⟨s, .inr (by rw [ht0, hd]; simp [kexMessage])⟩
  obtain ⟨a1, b1, hab, ⟨e1, he1, hs1⟩, hb1⟩ := split_at (t := (trial friendly (premature Mgr.ex kexMessage) World.chat).1)
    (f := fun e => Op.publishes e.1) (g := fun e => Op.preKeys e.1) (by decide +kernel)
  obtain ⟨e2, he2, hg2⟩ := List.any_eq_true.1 hb1
  have hq : e1 ∈ b1 := List.mem_of_mem_head? he1
  cases b1 with
  | nil => cases he1
  | cons y b1 =>
    cases he1
    have hsplit : u ++ [⟨.getBundle "n" "me" 1, .ok b⟩] ++ ⟨.uploadBundle b, .ok ()⟩ :: v = a1 ++ e1 :: b1 := by
      have := ht.symm.trans hab
      simpa [kexMessage, Mgr.ex] using this
    have hne : e2 ∈ v := by
      rcases List.append_eq_append_iff.1 hsplit with ⟨c, h1, h2⟩ | ⟨c, h1, h2⟩
      · cases c with
        | nil =>
          cases h2
          rcases List.mem_cons.1 he2 with rfl | h
          · cases hg2
          · exact h
        | cons x c =>
          cases h2
          have := hp e1 (by simp)
          rw [this] at hs1; cases hs1
      · cases c with
        | nil =>
          cases h2
          rcases List.mem_cons.1 he2 with rfl | h
          · cases hg2
          · exact h
        | cons x c =>
          have h2' : x = e1 := by simpa using (List.cons.inj h2).1.symm
          subst h2'
          have h4 : x ∈ u ++ [⟨.getBundle "n" "me" 1, .ok b⟩] := by rw [h1]; simp
          rcases List.mem_append.1 h4 with h4 | h4
          · rw [hp x (by simp [h4])] at hs1; cases hs1
          · simp only [List.mem_singleton] at h4
            subst h4
            cases hs1
    rw [hv e2 hne] at hg2
    cases hg2

/-! ### C45: no reply -/

/-- C45 for a program. -/
def C45 (dec : Dec) : Prop :=
  ∀ (M : Mgr) (msg : Message) (t : List Ev) (p : Option Bytes) (dev : DeviceInfo) (km : PlainKM), Exec (dec M msg) t (.ok (p, dev, km)) →
    ∃ ekm kex s, keyForUs M msg = some (ekm, kex) ∧ (∃ g ∈ t, GaveKM msg.ns g ekm s km) ∧
      (ReplyDue kex s → ∃ sync u e v, t = u ++ e :: v ∧ LastSync u sync ∧ (∀ x ∈ u ++ v, Op.replies x.1 = false) ∧
        if sync then QueuesEmpty s u e else SendsEmpty M msg.ns s u e) ∧
      (¬ ReplyDue kex s → ∀ x ∈ t, Op.replies x.1 = false)

theorem C45_decrypt : C45 decrypt := C45_reply

/-- A reply only because of the length of the receiving chain (sm:2227: half of the condition). -/
def mute : Dec := decryptBy fun M => { rightly M with reply := fun ns _ session => autoReply M ns none session }

/-- A reply after every message. -/
def talkative : Dec := decryptBy fun M => { rightly M with reply := fun ns _ session => autoReply M ns (some ⟨[], 0⟩) session }

theorem C45_mute : ¬ C45 mute := by
  intro hc
  have hr : (trial friendly (mute Mgr.ex kexMessage) World.chat).2.1 = .ok (some [5, 3], phone, ⟨3⟩) := rfl
  obtain ⟨ekm, kex, s, hk, -, h1, -⟩ := hc _ _ _ _ _ _ (hr ▸ trial_exec friendly (mute Mgr.ex kexMessage) World.chat)
  rw [kex_key] at hk
  cases hk
  obtain ⟨sync, u, e, v, ht, -, -, he⟩ := h1 (.inl rfl)
  have := never (f := fun e => Op.replies e.1) (t := (trial friendly (mute Mgr.ex kexMessage) World.chat).1) (by decide +kernel)
    (e := e) (by rw [ht]; simp)
  cases sync with
  | true =>
    obtain ⟨l, l', he, -⟩ := he
    simp only [he] at this
    cases this
  | false =>
    obtain ⟨c, m, k, s', kx, -, -, he⟩ := he
    simp only [he] at this
    cases this

theorem C45_talkative : ¬ C45 talkative := by
  intro hc
  have hr : (trial friendly (talkative Mgr.ex plainMessage) World.chat).2.1 = .ok (some [5, 3], phone, ⟨3⟩) := rfl
  obtain ⟨ekm, kex, s, hk, ⟨g, hg, hs⟩, -, h2⟩ := hc _ _ _ _ _ _ (hr ▸ trial_exec friendly (talkative Mgr.ex plainMessage) World.chat)
  rw [plain_key] at hk
  cases hk
  have hl := never (f := fun e => match e with
      | ⟨.decryptKM _ _ _, .ok (_, s)⟩ => decide (s.receivingChainLength ≠ some 1)
      | ⟨.buildPassive .., _⟩ => true
      | _ => false)
    (t := (trial friendly (talkative Mgr.ex plainMessage) World.chat).1) (by decide +kernel) hg
  have hs1 : s.receivingChainLength = some 1 := by
    rcases hs with ⟨s0, rfl⟩ | ⟨j, d, x, rfl⟩
    · simpa using hl
    · cases hl
  obtain ⟨u, e, v, ht, hb⟩ := find (t := (trial friendly (talkative Mgr.ex plainMessage) World.chat).1) (f := fun e => Op.replies e.1) (by decide +kernel)
  rw [h2 (by rintro (h | ⟨n, hn, h53⟩)
             · cases h
             · rw [hs1] at hn; cases hn; exact absurd h53 (by decide)) e (by rw [ht]; simp)] at hb
  cases hb

/-! ### C46: empty messages -/

/-- C46 for a program. -/
def C46 (dec : Dec) : Prop :=
  ∀ (M : Mgr) (msg : Message) (t : List Ev) (p : Option Bytes) (dev : DeviceInfo) (km : PlainKM), Exec (dec M msg) t (.ok (p, dev, km)) →
    (p = none ↔ msg.content.empty = true) ∧ (∀ b, p = some b → (⟨.decryptPlaintext msg.ns msg.content km, .ok b⟩ : Ev) ∈ t) ∧
      ∃ ekm kex s, keyForUs M msg = some (ekm, kex) ∧ ∃ g ∈ t, GaveKM msg.ns g ekm s km

theorem C46_decrypt : C46 decrypt := C46_plaintext

/-- Empty messages are decrypted like others (sm:2190-2191 forgotten). -/
def literal : Dec := decryptBy fun M => { rightly M with
  plaintext := fun msg _ km => do
    let pt : Bytes ← call (.decryptPlaintext msg.ns msg.content km)
    pure (some pt) }

theorem C46_literal : ¬ C46 literal := by
  intro hc
  have hr : (trial friendly (literal Mgr.ex { kexMessage with content := ⟨true, 5⟩ }) World.chat).2.1 = .ok (some [5, 3], phone, ⟨3⟩) := rfl
  have hx := (hc _ _ _ _ _ _ (hr ▸ trial_exec friendly (literal Mgr.ex { kexMessage with content := ⟨true, 5⟩ }) World.chat)).1
  exact absurd (hx.2 rfl) (by simp)

/-! ### C50: history synchronization -/

/-- C50 for a program. -/
def C50 (dec : Dec) : Prop :=
  ∀ (M : Mgr) (msg : Message) (w w' : World) (t : List Ev) (r), Exec (dec M msg) t r → Lib.Runs w t w' → w.sync = true →
    (∀ m j r, (⟨.sendMessage m j, r⟩ : Ev) ∉ t) ∧ (∀ ns s r, (⟨.deletePreKey ns s, r⟩ : Ev) ∉ t) ∧ w'.sync = true

theorem C50_decrypt : C50 decrypt := Verif.C50_decrypt

/-- Pre keys are deleted during history synchronization (sm:2203-2212: no distinction). -/
def deleting (M : Mgr) (ns : Ns) (session : Session) : P Unit := do
  let changed ← discardPreKey ns false session
  Prog.when (changed = true) do
    refillPreKeys M ns
    let bundle ← call (.getBundle ns M.ownJid M.ownDev)
    call (.uploadBundle bundle)

def forgetful' : Dec := decryptBy fun M => { rightly M with consume := deleting M }

/-- Empty messages are sent during history synchronization (sm:2231-2246 forgotten). -/
def sending (M : Mgr) (ns : Ns) (kex : Option KeyExchange) (session : Session) : P Unit :=
  Prog.when (kex ≠ none ∨ session.receivingChainLength.getD 0 > STALENESS_MAGIC_NUMBER) (sendEmptyMessage M ns session)

def impatient : Dec := decryptBy fun M => { rightly M with reply := sending M }

theorem trial_runs {α : Type} {a} (ha : ∀ w o e, a w o = .error e → e.isInternal = false) (p : P α) (w : World) :
    Lib.Runs w (trial a p w).1 (trial a p w).2.2 := runProg_runs Lib (Lib.env a) (Lib.env_ok a ha) 300 p w

theorem C50_forgetful : ¬ C50 forgetful' := by
  intro hc
  have hx := hc _ _ _ _ _ _ (trial_exec friendly (forgetful' Mgr.ex kexMessage) { World.chat with sync := true })
    (trial_runs friendly_ok _ _) rfl
  obtain ⟨u, ⟨o, a⟩, v, ht, hb⟩ := find (t := (trial friendly (forgetful' Mgr.ex kexMessage) { World.chat with sync := true }).1)
    (f := fun e => match e.1 with | .deletePreKey .. => true | _ => false) (by decide +kernel)
  cases o <;> try (cases hb; done)
  exact hx.2.1 _ _ a (by rw [ht]; exact List.mem_append_right _ List.mem_cons_self)

theorem C50_impatient : ¬ C50 impatient := by
  intro hc
  have hx := hc _ _ _ _ _ _ (trial_exec friendly (impatient Mgr.ex kexMessage) { World.chat with sync := true })
    (trial_runs friendly_ok _ _) rfl
  obtain ⟨u, ⟨o, a⟩, v, ht, hb⟩ := find (t := (trial friendly (impatient Mgr.ex kexMessage) { World.chat with sync := true }).1)
    (f := fun e => match e.1 with | .sendMessage .. => true | _ => false) (by decide +kernel)
  cases o <;> try (cases hb; done)
  exact hx.1 _ _ a (by rw [ht]; exact List.mem_append_right _ List.mem_cons_self)

end Wrong
end Verif
