import Verif.Props.Delivery
import Verif.Props.Silent
import Verif.Props.Again
import Verif.Props.BlindEncrypt
import Verif.Wrong.Account
import Verif.Wrong.Decrypt
import Verif.Wrong.Trust
/-
Wrong programs for further claims: C54, C78, C83, C114.  See Wrong/Encrypt.lean for the method.
-/
namespace Verif
namespace Wrong
open SM Spec

/-! ### C83: messages get through -/

/-- C83, sending, for a program. -/
def C83 (enc : Enc) : Prop :=
  ∀ (own : Jid) (x : XEdDSA) (s0 s : Use) (M : Mgr) (jids : List Jid) (pt : Dict Ns Bytes) (prio : Option (List Ns))
    (i : Option String) (t : List Ev) (r : Res Exn (Dict Message PlainKM × List EncError)) (w' : World),
    New s0 → Typed s0.world.disk → Course own x s0 s [] → M ∈ s.mgrs → Careful M → CallbackQuiet M.decide →
    Exec (enc M jids pt prio i) t r → Lib.Runs s.world t w' → Addressed t → Clear M s.world jids pt prio t →
    r = .crashed ∨ ∃ msgs, r = .ok (msgs, []) ∧
      (∀ dev, LastEval t dev .trusted → ∃ y ∈ msgs, (∃ k, keysFor y.1 dev.bareJid dev.deviceId = [k]) ∧
        ∀ y' ∈ msgs, y' ≠ y → keysFor y'.1 dev.bareJid dev.deviceId = []) ∧
      ∀ j ∈ jids, j ≠ M.ownJid → ∃ dev, dev.bareJid = j ∧ LastEval t dev .trusted

theorem C83_real : C83 encrypt := fun own x s0 s M jids pt prio i t r w' h1 h2 h3 h4 h5 h6 h7 h8 h9 h10 =>
  C83_encrypt own x s0 s M jids pt prio i t r w' h1 h2 h3 h4 h5 h6 h7 h8 h9 h10

/-- Encrypting for "a", whom the account met again. -/
def again (enc : Enc) := Friendly.trustful.run (enc Mgr.ex ["a"] [("n", [1]), ("o", [1])] none none) Use.remet.world

/-- Only device 7 of "a" is evaluated for "a", as trusted, nothing fails, and the backends stay. -/
def plainSailing : Ev → Bool
  | ⟨.setBackends _, _⟩ => false
  | ⟨.evalTrust dev, .ok l⟩ => decide (l = .trusted) && decide (dev.bareJid = "a" → dev.deviceId = 7)
  | ⟨_, .ok _⟩ => true
  | ⟨_, .error _⟩ => false

/-- There is an error, or no message with a single key for device 7 of "a". -/
def undelivered : Res Exn (Dict Message PlainKM × List EncError) → Bool
  | .crashed => false
  | .raised _ => true
  | .ok (msgs, errs) => !errs.isEmpty || msgs.all fun y => decide ((keysFor y.1 "a" 7).length ≠ 1)

theorem C83_not {enc : Enc} (ht : (again enc).1.all plainSailing = true) (hu : undelivered (again enc).2.1 = true) : ¬ C83 enc := by
  intro hc
  have hM : Mgr.ex ∈ Use.remet.mgrs := by simp [Use.remet, Use.cutPurge, Friendly.useCut, Use.met, Friendly.use, Use.started]
  have ha := runProg_answers (Lib.env Verif.trustful) Lib.next 1000 (enc Mgr.ex ["a"] [("n", [1]), ("o", [1])] none none) Use.remet.world
  have hb : Use.remet.world.backends = ["n", "o"] := by decide +kernel
  have hev : ∀ dev l, LastEval (again enc).1 dev l → l = .trusted ∧ (dev.bareJid = "a" → dev.deviceId = 7) := by
    rintro dev l ⟨u, v, h1, _⟩
    have := List.all_eq_true.1 ht ⟨.evalTrust dev, .ok l⟩ (by rw [h1]; simp)
    simp only [plainSailing, Bool.and_eq_true, decide_eq_true_eq] at this
    exact this
  have hadd : Addressed (again enc).1 := by
    refine ⟨?_, ?_, ?_⟩
    · intro ns j d s hm
      obtain ⟨w, hw⟩ := ha _ hm
      cases hw; exact ⟨rfl, rfl⟩
    · intro ns j d b m s k hm
      obtain ⟨w, hw⟩ := ha _ hm
      cases hw; exact ⟨⟨rfl, rfl⟩, rfl, rfl⟩
    · intro ns s m k s' hm
      obtain ⟨w, hw⟩ := ha _ hm
      cases hw; exact ⟨⟨rfl, rfl⟩, rfl, rfl⟩
  have herr : (again enc).1.all (fun e => match e.2 with | .ok _ => true | .error _ => false) = true := by
    rw [List.all_eq_true] at ht ⊢
    rintro ⟨o, y⟩ he
    have := ht _ he
    cases y with
    | ok => rfl
    | error e => cases o <;> cases this
  have hclear : Clear Mgr.ex Use.remet.world ["a"] [("n", [1]), ("o", [1])] none (again enc).1 := by
    refine ⟨fun _ _ _ _ h => (by cases h), no_err_of_all herr, hb ▸ (by decide), ?_, hb ▸ (by decide), nofun, ?_, ?_⟩
    · rintro ⟨o, y⟩ he bs hbs
      have := List.all_eq_true.1 ht _ he
      cases hbs
      cases this
    · intro dev h
      cases (hev dev _ h).1
    · intro j hj _
      cases List.mem_singleton.1 hj
      exact ⟨7, ⟨⟨[7], by with_unfolding_all rfl, by decide⟩, "n", by rw [hb]; decide, ⟨["n"], by with_unfolding_all rfl, by decide⟩, [("n", true)], by with_unfolding_all rfl, rfl⟩,
        fun dev l _ _ h => (hev dev l h).1⟩
  have h := hc "me" Mgr.ex.x Use.fresh Use.remet Mgr.ex ["a"] [("n", [1]), ("o", [1])] none none (again enc).1 (again enc).2.1 (again enc).2.2 fresh_new nofun
    remet_course hM (fun _ _ _ _ => .ret ()) Mgr.ex_quiet (Friendly.trustful.exec _ _) (Friendly.trustful.runs _ _) hadd hclear
  rcases h with h | ⟨msgs, h1, h2, h3⟩
  · rw [h] at hu
    cases hu
  · obtain ⟨dev, h4, h5⟩ := h3 "a" (by simp) (by decide)
    obtain ⟨y, h6, ⟨k, h7⟩, _⟩ := h2 dev h5
    rw [h4, (hev dev _ h5).2 h4] at h7
    rw [h1] at hu
    simp only [undelivered, List.isEmpty_nil, Bool.not_true, Bool.false_or, List.all_eq_true, decide_eq_true_eq] at hu
    exact hu y h6 (by rw [h7]; rfl)

/-- Only devices that are active for all backends are considered (sm:1773: all in place of any). -/
def versatile : Enc := encryptBy fun M => { right M with
  valid := fun order dev => if dev.bareJid = M.ownJid ∧ dev.deviceId = M.ownDev then .ok false
    else (activeNamespaces dev).map fun active => decide (∀ ns ∈ order, ns ∈ active) }

theorem C83_versatile : ¬ C83 versatile := C83_not (by decide +kernel) (by decide +kernel)

/-- Only devices with a stored decision are considered, whatever the application says about the others. -/
def settledOnly : Enc := encryptBy fun M => { right M with
  trusted := fun devices => do
    let devices ← devicesWithTrust .trusted (M.O.iter devices)
    pure (devices.filter fun dev => decide (dev.trustLevelName ≠ M.undecided)) }

theorem C83_settledOnly : ¬ C83 settledOnly := C83_not (by decide +kernel) (by decide +kernel)

/-- C83, receiving, for a program. -/
def C83' (dec : Dec) : Prop :=
  ∀ (own : Jid) (x : XEdDSA) (s0 s : Use) (M : Mgr) (msg : Message) (t : List Ev) (r : Res Exn (Option Bytes × DeviceInfo × PlainKM)) (w' : World),
    New s0 → Typed s0.world.disk → Course own x s0 s [] → M ∈ s.mgrs → Careful M → Exec (dec M msg) t r → Lib.Runs s.world t w' → Readable M s.world msg t →
    r = .crashed ∨ ∃ p dev km, r = .ok (p, dev, km) ∧ (dev.bareJid = msg.bareJid ∧ dev.deviceId = msg.deviceId) ∧ (p = none ↔ msg.content.empty = true)

theorem C83'_real : C83' decrypt := fun own x s0 s M msg t r w' h1 h2 h3 h4 h5 h6 h7 h8 => C83_decrypt own x s0 s M msg t r w' h1 h2 h3 h4 h5 h6 h7 h8

/-- Device 7 of "a" reads a message from a device it did not know. -/
def heard (dec : Dec) := Friendly.hearing.run (dec Mgr.phone chatMessage) Use.phone.world

theorem C83'_not {dec : Dec} (herr : (heard dec).1.all (fun e => match e.2 with | .ok _ => true | .error _ => false) = true)
    (hset : (heard dec).1.all (fun e => match e.1 with | .setBackends _ => false | _ => true) = true)
    (hr : (match (heard dec).2.1 with | .ok (some _, dev, _) => decide (dev.bareJid ≠ "me") | .crashed => false | _ => true) = true) : ¬ C83' dec := by
  intro hc
  have hB := runProg_answers (Lib.env Verif.hearing) Lib.next 1000 (dec Mgr.phone chatMessage) Use.phone.world
  have hb : Use.phone.world.backends = ["n"] := by decide +kernel
  have hread : Readable Mgr.phone Use.phone.world chatMessage (heard dec).1 := by
    refine ⟨no_err_of_all herr, ?_, hb ▸ (by decide), ⟨_, .head _, rfl, rfl⟩, .inr ?_, ?_, ?_⟩
    · intro e he bs hbs
      have := List.all_eq_true.1 hset e he
      rw [hbs] at this
      cases this
    · intro l hl
      obtain ⟨w, hw⟩ := hB _ hl
      cases hw
      exact ⟨_, rfl⟩
    · intro dev h
      obtain ⟨w, hw⟩ := hB _ h
      cases hw
    · intro k hk _
      cases List.mem_singleton.1 hk
      refine ⟨fun _ h => ?_, nofun⟩
      obtain ⟨w, hw⟩ := hB _ h
      cases hw
  rcases hc "a" Mgr.ex.x Use.fresh Use.phone Mgr.phone chatMessage (heard dec).1 (heard dec).2.1 (heard dec).2.2 fresh_new nofun phone_course phone_mem (fun _ _ _ _ => .ret ())
    (Friendly.hearing.exec _ _) (Friendly.hearing.runs _ _) hread with h | ⟨p, dev, km, h, ⟨h1, -⟩, h2⟩
  · rw [h] at hr
    cases hr
  · rw [h] at hr
    cases p with
    | none => exact absurd (h2.1 rfl) (by decide)
    | some p => exact of_decide_eq_true hr h1

/-- Senders that are not known are not looked for (sm:2051-2065 forgotten). -/
def shy : Dec := decryptBy fun M => { rightly M with
  sender := fun msg => do
    match pickDevice M msg.deviceId (← getDeviceInformation M msg.bareJid) with
    | some dev => pure dev
    | none => throwE .senderNotFound }

theorem C83_shy : ¬ C83' shy := C83'_not (by decide +kernel) (by decide +kernel) (by decide +kernel)

/-- Senders have to be trusted (sm:2074: anything but trusted is rejected). -/
def wary : Dec := decryptBy fun M => { rightly M with rejected := fun l => decide (l ≠ .trusted) }

theorem C83_wary : ¬ C83' wary := C83'_not (by decide +kernel) (by decide +kernel) (by decide +kernel)

/-- The list is downloaded, but the devices that were loaded before are searched again (sm:2060 forgotten). -/
def unheeding : Dec := decryptBy fun M => { rightly M with
  sender := fun msg => do
    let devices ← getDeviceInformation M msg.bareJid
    match pickDevice M msg.deviceId devices with
    | some dev => pure dev
    | none => do
      refreshDeviceList M msg.ns msg.bareJid
      match pickDevice M msg.deviceId devices with
      | some dev => pure dev
      | none => throwE .senderNotFound }

theorem C83_unheeding : ¬ C83' unheeding := C83'_not (by decide +kernel) (by decide +kernel) (by decide +kernel)

/-! ### C114: nothing is sent while history is synchronized -/

/-- C114 for programs to create and to decrypt. -/
def C114 (cre : Cre) (dec : Dec) : Prop :=
  ∀ (M M' : Mgr) (bs : List Ns) (label : Option String) (fuel : Nat) (d : DevId) (msg : Message) (t0 t : List Ev) (r : Res Exn (Option Bytes × DeviceInfo × PlainKM)) (w w1 w2 : World),
    Exec (cre M bs label fuel) t0 (.ok d) → Lib.Runs w t0 w1 → (∀ ds i, AllOps (fun o => Op.waits o = true) (M'.decide ds i)) → Exec (dec M' msg) t r → Lib.Runs w1 t w2 →
    w2.sync = true ∧ ∀ e ∈ t0 ++ t, Op.final e.1 = false

theorem shuffle_one {α : Type} : ∀ t : List α, Shuffle [t] t
  | [] => .nil (by simp)
  | e :: t => .cons (pre := []) (post := []) (e := e) (shuffle_one t)

theorem C114_real : C114 create decrypt := by
  intro M M' bs label fuel d msg t0 t r w w1 w2 he hr hd he' hr'
  obtain ⟨r', h'⟩ : ∃ r', Exec ((Call.decrypt msg).run M') t r' := by
    cases r with
    | ok a => exact ⟨.ok (), exec_bind_iff.2 (.inl ⟨t, a, [], (List.append_nil t).symm, he', .ret ()⟩)⟩
    | raised e => exact ⟨.raised e, exec_bind_iff.2 (.inr (.inl ⟨e, he', rfl⟩))⟩
    | crashed => exact ⟨.crashed, exec_bind_iff.2 (.inr (.inr ⟨he', rfl⟩))⟩
  exact Verif.C114 M bs label fuel d t0 he w w1 hr [⟨M', .decrypt msg, t, r', h'⟩] t w2
    (fun k hk => by cases List.mem_singleton.1 hk; exact ⟨hd, nofun, nofun⟩) (shuffle_one t) hr'

/-- An account is created, and reads a first message. -/
theorem C114_not {cre : Cre} {dec : Dec} (h1 : (match (trial genuine (cre Mgr.ex ["n", "o"] (some "pc") 5) World.fresh).2.1 with | .ok _ => true | _ => false) = true)
    (h2 : ((trial genuine (cre Mgr.ex ["n", "o"] (some "pc") 5) World.fresh).1 ++
      (trial Silent.fetching (dec Mgr.ex OneTime.first) (trial genuine (cre Mgr.ex ["n", "o"] (some "pc") 5) World.fresh).2.2).1).any (fun e => Op.final e.1) = true) :
    ¬ C114 cre dec := by
  intro hc
  have he := trial_exec genuine (cre Mgr.ex ["n", "o"] (some "pc") 5) World.fresh
  revert h1 he
  cases hr : (trial genuine (cre Mgr.ex ["n", "o"] (some "pc") 5) World.fresh).2.1 with
  | ok d =>
    intro _ he
    obtain ⟨e, hm, hf⟩ := List.any_eq_true.1 h2
    have h := (hc Mgr.ex Mgr.ex _ _ _ d OneTime.first _ _ _ _ _ _ he (trial_runs genuine_ok _ _) (fun _ _ => .ret ()) (trial_exec Silent.fetching _ _) (trial_runs Silent.fetching_ok _ _)).2 e hm
    rw [hf] at h
    cases h
  | raised e => nofun
  | crashed => nofun

/-- Decrypting is right and creating is not: history synchronization is never begun (sm:358 forgotten). -/
def punctual : Cre := fun M bs label fuel => do
  let d ← create M bs label fuel
  call (.setSync false)
  pure d

theorem C114_punctual : ¬ C114 punctual decrypt := C114_not (by decide +kernel) (by decide +kernel)

/-- Creating is right and decrypting is not: pre keys are deleted. -/
theorem C114_forgetful : ¬ C114 create forgetful' := C114_not (by decide +kernel) (by decide +kernel)

/-- Creating is right and decrypting is not: replies are sent. -/
theorem C114_impatient : ¬ C114 create impatient := C114_not (by decide +kernel) (by decide +kernel)

/-! ### C54: creating sets up what is not set up yet -/

/-- C54 for a program. -/
def C54 (cre : Cre) : Prop :=
  ∀ (M : Mgr) (bs : List Ns) (label : Option String) (fuel : Nat) (t : List Ev) (d : DevId) (w w' : World),
    Exec (cre M bs label fuel) t (.ok d) → Lib.Runs w t w' → ∀ ns ∈ bs,
    (w.disk .ownDeviceId = none ∨ w.disk .ownDeviceId = some (.int d) ∧ ¬ Advertises w.disk M.ownJid d ns) → SetUp M.threshold t M.ownJid d ns

theorem C54_real : C54 create := fun M bs label fuel t d w w' he hr ns hns h => C54_partial M bs label fuel t d w w' he hr ns hns h

theorem C54_not {cre : Cre} {bs : List Ns} {w : World} {ns : Ns} (hns : ns ∈ bs) (h1 : (trial genuine (cre Mgr.ex bs none 5) w).2.1 = .ok 1)
    (h0 : w.disk .ownDeviceId = none ∨ w.disk .ownDeviceId = some (.int 1) ∧ ¬ Advertises w.disk "me" 1 ns)
    (h2 : (trial genuine (cre Mgr.ex bs none 5) w).1.any (fun e => match e with
        | ⟨.generatePreKeys ns' _, _⟩ => decide (ns' = ns) | ⟨.numVisible ns', _⟩ => decide (ns' = ns) | _ => false) = false ∨
      (trial genuine (cre Mgr.ex bs none 5) w).1.any (fun e => match e with | ⟨.getBundle ns' _ _, _⟩ => decide (ns' = ns) | _ => false) = false ∨
      (trial genuine (cre Mgr.ex bs none 5) w).1.any (fun e => match e with
        | ⟨.downloadList ns' _, .ok dl⟩ => decide (ns' = ns) && (Dict.get dl 1).isSome | ⟨.uploadList ns' dl, _⟩ => decide (ns' = ns) && (Dict.get dl 1).isSome | _ => false) = false) :
    ¬ C54 cre := by
  intro hc
  obtain ⟨ha, ⟨b, hb, -⟩, hd⟩ := hc Mgr.ex bs none 5 _ 1 w _ (h1 ▸ trial_exec genuine _ w) (trial_runs genuine_ok _ _) ns hns h0
  rcases h2 with h2 | h2 | h2
  · rcases ha with ha | ⟨n, ha, -⟩
    · simpa using never h2 ha
    · simpa using never h2 ha
  · simpa using never h2 hb
  · rcases hd with ⟨dl, hd, h⟩ | ⟨dl, hd, h⟩
    · have := never h2 hd
      simp only [decide_true, Bool.true_and] at this
      rw [h] at this
      cases this
    · have := never h2 hd
      simp only [decide_true, Bool.true_and] at this
      rw [h] at this
      cases this

/-- The device list is left alone (sm:426-429 forgotten). -/
def unlisted : Cre := createBy { rightCre with publish := fun M => do
  Prog.forEach (← call .getBackends) fun ns => do
    let bundle ← call (.getBundle ns M.ownJid M.ownDev)
    call (.uploadBundle bundle) }

theorem C54_unlisted : ¬ C54 unlisted := C54_not (bs := ["n", "o"]) (ns := "o") (w := World.fresh) (by decide) (by decide +kernel) (.inl rfl) (.inr (.inr (by decide +kernel)))

/-- Only the bundle of the first backend is published (sm:421: the loop is left). -/
def frugal : Cre := createBy { rightCre with publish := fun M => do
  Prog.forEach ((← call .getBackends).take 1) fun ns => do
    let bundle ← call (.getBundle ns M.ownJid M.ownDev)
    call (.uploadBundle bundle)
  Prog.forEach (← call .getBackends) fun ns => refreshDeviceList M ns M.ownJid }

theorem C54_frugal : ¬ C54 frugal := C54_not (bs := ["n", "o"]) (ns := "o") (w := World.fresh) (by decide) (by decide +kernel) (.inl rfl) (.inr (.inl (by decide +kernel)))

/-- Backends that were not there before are not set up (sm:432-437 forgotten). -/
def conservative : Cre := fun M bs label fuel => do
  call (.setBackends bs)
  let ikp ← IdentityKeyPair.get
  call (.setSync true)
  onNothing (do Maybe.fromJust (← Sto.loadInt .ownDeviceId)) (firstRun M label (ikp.identityKey M.x) fuel)

theorem C54_conservative : ¬ C54 conservative :=
  C54_not (bs := ["n", "o"]) (ns := "o") (w := (trial genuine (create Mgr.ex ["n"] none 5) World.fresh).2.2) (by decide) (by decide +kernel)
    (.inr ⟨by with_unfolding_all rfl, by
      rintro ⟨l, h, hm⟩
      have h' : (trial genuine (create Mgr.ex ["n"] none 5) World.fresh).2.2.disk (.devNamespaces "me" 1) = some (.ofStrs ["n"]) := by with_unfolding_all rfl
      rw [h'] at h
      obtain rfl := ofStrs_inj (Option.some.inj h)
      simp at hm⟩) (.inr (.inl (by decide +kernel)))

/-! ### C78: blind trust within encrypt -/

/-- C78 for a program in place of the trust decision of BTBV. -/
def C78 (make : Btb) : Prop :=
  ∀ (M : Mgr), M.undecided = "UNDECIDED" → ∀ (A : BTBV.App), Sensible A → ∀ (jids : List Jid) (pt : Dict Ns Bytes) (prio : Option (List Ns))
    (i : Option String) (t : List Ev) (r : Res Exn (Dict Message PlainKM × List EncError)) (w w' : World),
    Exec (encrypt { M with decide := make M A } jids pt prio i) t r → Lib.Runs w t w' →
    (∀ dev x, (⟨.evalTrust dev, x⟩ : Ev) ∈ t → x = BTBV.evaluate dev) → ¬ ErrIn t .stillUndecided → r ≠ .raised .stillUndecided

theorem C78_real : C78 BTBV.makeTrustDecision := fun M hu A hA jids pt prio i t r w w' he hr hv hq => Verif.C78 M hu A hA jids pt prio i t r w w' he hr hv hq

theorem C78_not {make : Btb} (h1 : (trial politeBtbv (encrypt { Mgr.btbv with decide := make Mgr.btbv appYes } ["a", "b"] [("n", [1])] none none) World.two).1.all
      (fun e => match e.2 with | .ok _ => true | .error _ => false) = true)
    (h2 : (match (trial politeBtbv (encrypt { Mgr.btbv with decide := make Mgr.btbv appYes } ["a", "b"] [("n", [1])] none none) World.two).2.1 with
      | .raised .stillUndecided => true | _ => false) = true) : ¬ C78 make := by
  intro hc
  have ha := runProg_answers (Lib.env politeBtbv) Lib.next 300 (encrypt { Mgr.btbv with decide := make Mgr.btbv appYes } ["a", "b"] [("n", [1])] none none) World.two
  refine hc Mgr.btbv rfl appYes appYes_sensible ["a", "b"] [("n", [1])] none none _ _ World.two _ (trial_exec politeBtbv _ World.two) (trial_runs politeBtbv_ok _ _) ?_
    (no_err_of_all h1 _) ?_
  · intro dev x hm
    obtain ⟨w, hw⟩ := ha _ hm
    exact hw
  · revert h2
    cases (trial politeBtbv (encrypt { Mgr.btbv with decide := make Mgr.btbv appYes } ["a", "b"] [("n", [1])] none none) World.two).2.1 with
    | raised e => cases e <;> first | (intro _; rfl) | (intro h; cases h; done)
    | ok _ => nofun
    | crashed => nofun

/-- The user is asked only if nobody is trusted blindly (bt:92: an else too many). -/
def eitherOr : Btb := fun M A undecided identifier => do
  let (blind, manual) ← BTBV.sortJids M (dedup (undecided.map (·.bareJid)))
  let blindly := undecided.filter fun dev => decide (dev.bareJid ∈ blind)
  if blindly.length > 0 then BTBV.trustBlindly M A blindly identifier
  else Prog.when ((undecided.filter fun dev => decide (dev.bareJid ∈ manual)).length > 0) do
    A.prompt (undecided.filter fun dev => decide (dev.bareJid ∈ manual)) identifier

theorem C78_eitherOr : ¬ C78 eitherOr := C78_not (by decide +kernel) (by decide +kernel)

/-- The application is told about blind trust, but it is not stored (bt:84-88 forgotten). -/
def announced : Btb := fun M A undecided identifier => do
  let (blind, manual) ← BTBV.sortJids M (dedup (undecided.map (·.bareJid)))
  A.notify (undecided.filter fun dev => decide (dev.bareJid ∈ blind)) identifier
  let manually := undecided.filter fun dev => decide (dev.bareJid ∈ manual)
  Prog.when (manually.length > 0) do
    A.prompt manually identifier

theorem C78_announced : ¬ C78 announced := C78_not (by decide +kernel) (by decide +kernel)

/-- C78, keys, for a function in place of the evaluation of levels of BTBV. -/
def C78' (evaluate : DeviceInfo → Except Exn TrustLevel) : Prop :=
  ∀ (M : Mgr) (A : BTBV.App), CallbackQuiet A.notify → CallbackQuiet A.prompt → ∀ (jids : List Jid) (pt : Dict Ns Bytes)
    (prio : Option (List Ns)) (i : Option String) (t : List Ev) (r : Res Exn (Dict Message PlainKM × List EncError)),
    Exec (encrypt (BTBV.mgr M A) jids pt prio i) t r → BackendsOnce t → (∀ dev x, (⟨.evalTrust dev, x⟩ : Ev) ∈ t → x = evaluate dev) →
    Guarded (fun h e => Op.handsOut e.1 = true → ∃ (dev : DeviceInfo) (ns : Ns) (m : PlainKM), HandsOut h e ns dev.bareJid dev.deviceId m ∧
      LastEval h dev .trusted ∧ (dev.trustLevelName = "TRUSTED" ∨ dev.trustLevelName = "BLINDLY_TRUSTED")) t

theorem C78'_real : C78' BTBV.evaluate := fun M A hn hp jids pt prio i t r he hb hv => C78_keys M A hn hp jids pt prio i t r he hb hv

/-- Like `polite`, with another evaluation of levels. -/
def politeBy (evaluate : DeviceInfo → Except Exn TrustLevel) : World → (o : Op) → Except Exn o.Ret
  | _, .evalTrust dev => evaluate dev
  | w, o => polite w o

theorem appYes_prompt : CallbackQuiet appYes.prompt := fun ds i t r he => by
  refine AllOps.exec (S := LibSig) (φ := fun o => Op.encrypts o = false ∧ ∀ dev, o ≠ .evalTrust dev) ?_ he
  show AllOps (S := LibSig) _ (Prog.forEach ds fun dev => SM.setTrust dev.bareJid dev.identityKey "TRUSTED")
  unfold SM.setTrust
  lib_ops []
  exact ⟨rfl, nofun⟩

def evaluated' (evaluate : DeviceInfo → Except Exn TrustLevel) :=
  trial (politeBy evaluate) (encrypt (BTBV.mgr Mgr.btbv appYes) ["a", "b"] [("n", [1])] none none) World.two

theorem C78'_not {evaluate : DeviceInfo → Except Exn TrustLevel} (j : Jid) (d : DevId) (hok : ∀ dev e, evaluate dev = .error e → e.isInternal = false)
    (h1 : (evaluated' evaluate).1.all settled = true) (h2 : (evaluated' evaluate).1.any (builds "n" j d) = true)
    (h3 : (evaluated' evaluate).1.all (fun e => match e.1 with
      | .evalTrust dev => decide (dev.bareJid = j → dev.deviceId = d → dev.trustLevelName ≠ "TRUSTED" ∧ dev.trustLevelName ≠ "BLINDLY_TRUSTED") | _ => true) = true) :
    ¬ C78' evaluate := by
  intro hc
  have hok' : ∀ w o e, politeBy evaluate w o = .error e → e.isInternal = false := fun w o e h => by
    cases o with
    | evalTrust dev => exact hok dev e h
    | _ => cases h <;> rfl
  have ha := runProg_answers (Lib.env (politeBy evaluate)) Lib.next 300 (encrypt (BTBV.mgr Mgr.btbv appYes) ["a", "b"] [("n", [1])] none none) World.two
  have hg := hc Mgr.btbv appYes (fun _ _ _ _ he e hm => by cases he; cases hm) appYes_prompt _ _ none none _ _
    (trial_exec (politeBy evaluate) _ World.two) (trial_once hok' h1 (by decide +kernel)) (fun dev x hm => by
      obtain ⟨w, hw⟩ := ha _ hm
      exact hw)
  obtain ⟨u, e, v, ht, hb⟩ := find h2
  obtain ⟨dev, ns, m, h4, h5, h6⟩ := hg u e v ht (builds_handsOut hb)
  obtain ⟨-, h7, h8⟩ := builds_hands hb h4
  have := List.all_eq_true.1 h3 _ (by rw [ht]; exact List.mem_append_left _ (Wrong.evaluated h5))
  obtain ⟨h9, h10⟩ := of_decide_eq_true this h7 h8
  exact h6.elim h9 h10

/-- Devices are trusted unless they are distrusted (bt:41: the wrong level). -/
def benevolent (dev : DeviceInfo) : Except Exn TrustLevel :=
  match BTBV.levelOf dev.trustLevelName with
  | none => .error .unknownTrustLevel
  | some .distrusted => .ok .distrusted
  | some _ => .ok .trusted

theorem C78_benevolent : ¬ C78' benevolent := C78'_not "b" 9 (fun dev e h => by unfold benevolent at h; split at h <;> cases h; rfl)
  (by decide +kernel) (by decide +kernel) (by decide +kernel)

/-- Everything that was decided about is trusted (bt:44-45 forgotten). -/
def forgiving (dev : DeviceInfo) : Except Exn TrustLevel :=
  match BTBV.levelOf dev.trustLevelName with
  | none => .error .unknownTrustLevel
  | some .undecided => .ok .undecided
  | some _ => .ok .trusted

theorem C78_forgiving : ¬ C78' forgiving := C78'_not "a" 8 (fun dev e h => by unfold forgiving at h; split at h <;> cases h; rfl)
  (by decide +kernel) (by decide +kernel) (by decide +kernel)

end Wrong
end Verif
