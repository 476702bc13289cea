import Verif.Props.BlindEncrypt
import Verif.Props.Distrust
import Verif.Wrong.Decrypt
/-
Wrong programs for the claims about trust decisions and trust levels.
-/
namespace Verif
namespace Wrong
open SM Spec

/-! ### C93, C98: levels after the decision -/

/-- C93 for a program. -/
def C93 (enc : Enc) : Prop :=
  ∀ (lvl : String → TrustLevel) (M : Mgr), Decisive lvl M → ∀ (jids : List Jid) (pt : Dict Ns Bytes) (prio : Option (List Ns)) (i : Option String)
    (t : List Ev) (r : Res Exn (Dict Message PlainKM × List EncError)) (w w' : World), Exec (enc M jids pt prio i) t r → Lib.Runs w t w' →
    EvaluatesBy lvl t → ¬ ErrIn t .stillUndecided → r ≠ .raised .stillUndecided

theorem C93_encrypt : C93 encrypt := Verif.C93

/-- C98 for a program. -/
def C98 (enc : Enc) : Prop :=
  ∀ (M : Mgr), CallbackQuiet M.decide → ∀ (jids : List Jid) (pt : Dict Ns Bytes) (prio : Option (List Ns)) (i : Option String)
    (t : List Ev) (r : Res Exn (Dict Message PlainKM × List EncError)) (w w' : World), Exec (enc M jids pt prio i) t r → Lib.Runs w t w' →
    EvalsCurrent M.undecided w t

theorem C98_encrypt : C98 encrypt := Verif.C98_encrypt

/-- The levels are not looked up again after the decision (sm:1825-1829 forgotten). -/
def outdated (M : Mgr) (devices : List DeviceInfo) (identifier : Option String) : P (List DeviceInfo) := do
  let undecided ← devicesWithTrust .undecided (M.O.iter devices)
  Prog.when (undecided.length > 0) (M.decide undecided identifier)
  let stillUndecided ← devicesWithTrust .undecided (M.O.iter devices)
  if stillUndecided.length > 0 then throwE .stillUndecided
  else pure devices

def obstinate : Enc := encryptBy fun M => { right M with trust := outdated M }

def obstinateRun := trial politeBtbv (obstinate (BTBV.mgr Mgr.btbv appYes) ["a", "b"] [("n", [1])] none none) World.two

theorem C93_obstinate : ¬ C93 obstinate := by
  intro hc
  refine hc Blindly.level (BTBV.mgr Mgr.btbv appYes) (Blindly.decisive rfl appYes_sensible) ["a", "b"] [("n", [1])] none none _ _ _ _ (trial_exec politeBtbv _ World.two)
    (trial_runs politeBtbv_ok _ _) (fun dev l h => ?_) ?_ (show obstinateRun.2.1 = _ by decide +kernel)
  · obtain ⟨w, hw⟩ := runProg_answers _ _ _ _ _ _ h
    exact Blindly.evaluate_level (show BTBV.evaluate dev = .ok l from hw.symm)
  · rintro ⟨e, he, hs⟩
    have : obstinateRun.1.all (fun e => match e.2 with | .error _ => false | .ok _ => true) = true := by decide +kernel
    have := List.all_eq_true.1 this e he
    rw [hs] at this
    cases this

/-- The level in `dev` is the stored one. -/
def upToDate (u : String) (m : Disk) (dev : DeviceInfo) : Bool :=
  match m (.trust dev.bareJid dev.identityKey) with
  | some (.str s) => decide (s = dev.trustLevelName)
  | some _ => false
  | none => decide (dev.trustLevelName = u)

/-- Goes through a trace and looks at the levels evaluated. -/
def currentIn (u : String) : World → List Ev → Bool
  | _, [] => true
  | w, e :: t => (match e with | ⟨.evalTrust dev, _⟩ => upToDate u w.disk dev | _ => true) && currentIn u (Lib.next w e) t

theorem current_of {u : String} : ∀ {t : List Ev} {w w' : World}, Lib.Runs w t w' → EvalsCurrent u w t → currentIn u w t = true
  | [], _, _, _, _ => rfl
  | e :: t, w, w', hr, h => by
    have h1 : currentIn u (Lib.next w e) t = true := current_of hr.2 fun h0 dev a h' ht w1 hr1 => h (e :: h0) dev a h' (by rw [ht]; rfl) w1 ⟨hr.1, hr1⟩
    simp only [currentIn, h1, Bool.and_true]
    split
    · rename_i dev a
      rcases h [] dev a t rfl w rfl with h2 | ⟨h2, h3⟩ <;> simp [upToDate, h2]
      exact h3
    · rfl

theorem btbv_quiet : CallbackQuiet (BTBV.mgr Mgr.btbv appYes).decide :=
  Blindly.quiet (fun _ _ _ _ he e hm => by cases he; cases hm) fun ds i t r he => by
    refine AllOps.exec (S := LibSig) (φ := fun o => Op.encrypts o = false ∧ ∀ dev, o ≠ .evalTrust dev) ?_ he
    show AllOps (S := LibSig) _ (Prog.forEach ds fun dev => SM.setTrust dev.bareJid dev.identityKey "TRUSTED")
    unfold SM.setTrust
    lib_ops []
    exact ⟨rfl, nofun⟩

theorem C98_obstinate : ¬ C98 obstinate := by
  intro hc
  have h := current_of (trial_runs politeBtbv_ok (obstinate (BTBV.mgr Mgr.btbv appYes) ["a", "b"] [("n", [1])] none none) World.two)
    (hc _ btbv_quiet _ _ _ _ _ _ _ _ (trial_exec politeBtbv _ World.two) (trial_runs politeBtbv_ok _ _))
  have h' : currentIn "UNDECIDED" World.two obstinateRun.1 = false := by decide +kernel
  rw [show currentIn "UNDECIDED" World.two obstinateRun.1 = true from h] at h'
  cases h'

/-- Only the levels of the undecided devices are looked up again (sm:1829: the wrong set). -/
def partly (M : Mgr) (devices : List DeviceInfo) (identifier : Option String) : P (List DeviceInfo) := do
  let undecided ← devicesWithTrust .undecided (M.O.iter devices)
  if undecided.length > 0 then do
    M.decide undecided identifier
    let ds ← Prog.mapAll (M.O.iter undecided) (reloadTrust M)
    let stillUndecided ← devicesWithTrust .undecided (M.O.iter ds)
    if stillUndecided.length > 0 then throwE .stillUndecided
    else pure (dedup (ds ++ setDiff devices undecided))
  else pure devices

def selective : Enc := encryptBy fun M => { right M with trust := partly M }

/-- Asked about any devices, the user trusts device 7 of "a", and takes the occasion to distrust device 9 of "b". -/
def Mgr.fickle : Mgr := { Mgr.btbv with decide := fun _ _ => do
  SM.setTrust "a" [7] "TRUSTED"
  SM.setTrust "b" [9] "DISTRUSTED" }

theorem fickle_quiet : CallbackQuiet Mgr.fickle.decide := fun ds i t r he => by
  refine AllOps.exec (S := LibSig) (φ := fun o => Op.encrypts o = false ∧ ∀ dev, o ≠ .evalTrust dev) ?_ he
  show AllOps (S := LibSig) _ (do
    SM.setTrust "a" [7] "TRUSTED"
    SM.setTrust "b" [9] "DISTRUSTED")
  unfold SM.setTrust
  lib_ops []
  all_goals exact ⟨rfl, nofun⟩

/-- Device 9 of "b" is trusted. -/
def believing : World := { World.two with disk := World.two.disk.upd (.trust "b" [9]) (some (.str "TRUSTED")) }

def selectiveRun := trial politeBtbv (selective Mgr.fickle ["a", "b"] [("n", [1])] none none) believing

theorem C98_selective : ¬ C98 selective := by
  intro hc
  have h := current_of (trial_runs politeBtbv_ok (selective Mgr.fickle ["a", "b"] [("n", [1])] none none) believing)
    (hc _ fickle_quiet _ _ _ _ _ _ _ _ (trial_exec politeBtbv _ believing) (trial_runs politeBtbv_ok _ _))
  have h' : currentIn "UNDECIDED" believing selectiveRun.1 = false := by decide +kernel
  rw [show currentIn "UNDECIDED" believing selectiveRun.1 = true from h] at h'
  cases h'

/-! ### C121: distrust takes effect -/

/-- C121, encryption, for a program. -/
def C121 (enc : Enc) : Prop :=
  ∀ (M : Mgr) (jids : List Jid) (pt : Dict Ns Bytes) (prio : Option (List Ns)) (i : Option String) (t : List Ev) (w w' : World)
    (r : Res Exn (Dict Message PlainKM × List EncError)), CallbackQuiet M.decide → Exec (enc M jids pt prio i) t r → Lib.Runs w t w' → BackendsOnce t →
    ∀ (j : Jid) (d : DevId) (ik : Bytes) (level : String), Typed w.disk → HasKey w.disk j d ik → w.disk (.trust j ik) = some (.str level) →
    LeavesTrust M j ik → NeverAnswers j d level (· = .trusted) t → Guarded (fun h e => ∀ ns m, ¬ HandsOut h e ns j d m) t

theorem C121_encrypt : C121 encrypt := Verif.C121_encrypt

/-- C121, decryption, for a program. -/
def C121' (dec : Dec) : Prop :=
  ∀ (M : Mgr) (msg : Message) (t : List Ev) (w w' : World) (r : Res Exn (Option Bytes × DeviceInfo × PlainKM)), Exec (dec M msg) t r → Lib.Runs w t w' →
    ∀ (ik : Bytes) (level : String), Typed w.disk → HasKey w.disk msg.bareJid msg.deviceId ik → w.disk (.trust msg.bareJid ik) = some (.str level) →
    NeverAnswers msg.bareJid msg.deviceId level (· ≠ .distrusted) t → (∀ e ∈ t, Op.recovers e.1 = false ∧ Op.lasting e.1 = false) ∧ ∀ x, r ≠ .ok x

theorem C121'_decrypt : C121' decrypt := Verif.C121_decrypt

/-- Trust in one device of a JID is taken for trust in all of them (sm:1845-1848: by JID in place of by device). -/
def contagious : Enc := encryptBy fun M => { right M with trusted := fun devices => do
  let ts ← devicesWithTrust .trusted (M.O.iter devices)
  pure (devices.filter fun dev => decide (dev.bareJid ∈ ts.map (·.bareJid))) }

/-- Device 8 of "a" is distrusted, all others are trusted. -/
def divided : World := { believing with disk := believing.disk.upd (.trust "a" [7]) (some (.str "TRUSTED")) }

theorem two_typed : Typed World.two.disk := by
  intro k v h
  simp only [World.two] at h
  split at h <;> first | (cases h; exact ⟨_, rfl⟩) | cases h

theorem typed_upd {m : Disk} {j : Jid} {ik : Bytes} {s : String} (h : Typed m) : Typed (m.upd (.trust j ik) (some (.str s))) := by
  intro k v hv
  unfold Disk.upd at hv
  split at hv
  · rename_i hk
    subst hk
    cases hv
    exact ⟨_, rfl⟩
  · exact h k v hv

def contagiousRun := trial politeBtbv (contagious Mgr.btbv ["a", "b"] [("n", [1])] none none) divided

theorem C121_contagious : ¬ C121 contagious := by
  intro hc
  have hx := hc Mgr.btbv ["a", "b"] [("n", [1])] none none _ _ _ _ (fun _ _ _ _ he e hm => by cases he; cases hm) (trial_exec politeBtbv _ divided)
    (trial_runs politeBtbv_ok _ _) (trial_once politeBtbv_ok (show contagiousRun.1.all settled = true by decide +kernel) (by decide)) "a" 8 [8] "DISTRUSTED"
    (typed_upd (typed_upd two_typed)) rfl rfl (fun _ _ => .ret ()) (fun dev a h1 h2 h3 hm hb => by
      obtain ⟨w, hw⟩ := runProg_answers _ _ _ _ _ _ hm
      have hw : (.ok a : Except Exn TrustLevel) = BTBV.evaluate dev := hw
      unfold BTBV.evaluate at hw
      rw [h3, hb] at hw
      cases hw)
  obtain ⟨u, e, v, ht, hb⟩ := find (t := contagiousRun.1) (f := builds "n" "a" 8) (by decide +kernel)
  obtain ⟨o, x⟩ := e
  cases o with
  | buildActive ns j d b m =>
    obtain ⟨rfl, rfl, rfl⟩ : ns = "n" ∧ j = "a" ∧ d = 8 := by simpa [builds] using hb
    exact hx u _ v ht "n" m (.inl ⟨b, rfl⟩)
  | _ => cases hb

theorem C121'_credulous : ¬ C121' credulous := by
  intro hc
  have hr : (trial friendly (credulous Mgr.ex kexMessage) World.betrayed).2.1 =
      .ok (some [5, 3], { phone with trustLevelName := "bad" }, ⟨3⟩) := rfl
  refine (hc Mgr.ex kexMessage _ _ _ _ (trial_exec friendly _ World.betrayed) (trial_runs friendly_ok _ _) phone.identityKey "bad" ?_ ?_ ?_ ?_).2 _ hr
  · refine typed_upd fun k v h => ?_
    simp only [World.chat] at h
    split at h <;> first | (cases h; exact ⟨_, rfl⟩) | cases h
  · rfl
  · rfl
  · intro dev a h1 h2 h3 hm hb
    obtain ⟨w, hw⟩ := runProg_answers _ _ _ _ _ _ hm
    have h4 : (trial friendly (credulous Mgr.ex kexMessage) World.betrayed).1.all (fun e => match e with
      | ⟨.evalTrust _, .ok .distrusted⟩ => true | ⟨.evalTrust _, _⟩ => false | _ => true) = true := by decide +kernel
    have := List.all_eq_true.1 h4 _ hm
    cases a <;> first | exact hb rfl | cases this

/-! ### C68: key material and content -/

/-- C68 for a program. -/
def C68 (enc : Enc) : Prop :=
  ∀ (M : Mgr) (jids : List Jid) (pt : Dict Ns Bytes) (prio : Option (List Ns)) (i : Option String)
    (t : List Ev) (r : Res Exn (Dict Message PlainKM × List EncError)), CallbackQuiet M.decide →
    Exec (enc M jids pt prio i) t r → BackendsOnce t →
    Guarded (fun h e => Op.handsOut e.1 = true → ∃ ns j d m, HandsOut h e ns j d m ∧
      ∃ p c, pt.get ns = some p ∧ (⟨.encryptPlaintext ns p, .ok (c, m)⟩ : Ev) ∈ h) t

theorem C68_encrypt : C68 encrypt := C68_key_material

/-- Each device gets key material of its own (sm:1880 in the loop over the devices, with an empty message). -/
def generous : Enc := encryptBy fun M => { right M with device := fun ns cache _ st dev => do
  let (_, km) ← call (.encryptEmpty ns)
  encryptDevice M ns cache km st dev }

/-- Empty messages can be encrypted, too. -/
def politely : World → (o : Op) → Except Exn o.Ret
  | _, .encryptEmpty _ => .ok (⟨true, 0⟩, ⟨0⟩)
  | w, o => polite w o

theorem politely_ok (w : World) (o : Op) (e : Exn) (h : politely w o = .error e) : e.isInternal = false := by
  cases o <;> cases h <;> rfl

def generousRun := trial politely (generous Mgr.ex ["a"] [("n", [1]), ("o", [1, 2])] none none) trusting

theorem C68_generous : ¬ C68 generous := by
  intro hc
  obtain ⟨u, e, v, ht, hb⟩ := find (t := generousRun.1) (f := fun e => match e.1 with | .buildActive _ _ _ _ m => decide (m = ⟨0⟩) | _ => false) (by decide +kernel)
  obtain ⟨o, x⟩ := e
  cases o with
  | buildActive ns j d b m =>
    obtain ⟨ns', j', d', m', h1, p, c, h2, h3⟩ := hc _ _ _ _ _ _ _ Mgr.ex_quiet (trial_exec politely (generous Mgr.ex ["a"] [("n", [1]), ("o", [1, 2])] none none) trusting)
      (trial_once politely_ok (by decide +kernel) (by decide)) u _ v ht rfl
    have hm : m' = ⟨0⟩ := by
      rcases h1 with ⟨_, h1⟩ | ⟨_, h1, _⟩ <;> cases h1
      simpa using hb
    have := never (t := generousRun.1) (f := fun e => match e with | ⟨.encryptPlaintext _ _, .ok (_, m)⟩ => decide (m = ⟨0⟩) | _ => false) (by decide +kernel)
      (by rw [ht]; exact List.mem_append_left _ h3)
    simp [hm] at this
  | _ => cases hb

/-- The plaintext for another backend is encrypted (sm:1880: the first plaintext in place of the one for this backend). -/
def careless : Enc := fun M jids pt prio i => encrypt M jids (pt.map fun x => (x.1, (pt.head?.map (·.2)).getD x.2)) prio i

def carelessRun := trial polite (careless Mgr.ex ["a"] [("n", [1]), ("o", [1, 2])] none none) trusting

theorem C68_careless : ¬ C68 careless := by
  intro hc
  obtain ⟨u, e, v, ht, hb⟩ := find (t := carelessRun.1) (f := builds "o" "a" 8) (by decide +kernel)
  obtain ⟨ns, j, d, m, h1, p, c, h2, h3⟩ := hc _ _ _ _ _ _ _ Mgr.ex_quiet (trial_exec polite (careless Mgr.ex ["a"] [("n", [1]), ("o", [1, 2])] none none) trusting)
    (trial_once polite_ok (by decide +kernel) (by decide)) u _ v ht (builds_handsOut hb)
  obtain ⟨rfl, -, -⟩ := builds_hands hb h1
  cases h2
  have := never (t := carelessRun.1) (f := fun e => match e.1 with | .encryptPlaintext _ p => decide (p = [1, 2]) | _ => false) (by decide +kernel)
      (by rw [ht]; exact List.mem_append_left _ h3)
  simp at this

/-! ### C66: blind trust -/

/-- A program in place of the trust decision of BTBV. -/
abbrev Btb := Mgr → BTBV.App → List DeviceInfo → Option String → P Unit

/-- C66 for a program. -/
def C66 (make : Btb) : Prop :=
  ∀ (M : Mgr), M.undecided = "UNDECIDED" → ∀ (A : BTBV.App) (undecided : List DeviceInfo) (i : Option String) (t : List Ev) (r : Res Exn Unit)
    (w w' : World), Exec (make M A undecided i) t r → Lib.Runs w t w' →
    ∃ t1 w1, Lib.Runs w t1 w1 ∧ (∀ k, (∀ j d, k ≠ .devIdentityKey j d ∧ k ≠ .devNamespaces j d) → w1.disk k = w.disk k) ∧
      ((t = t1 ∧ r ≠ .ok ()) ∨
      ∃ bl mn t2 w2 t3, t = t1 ++ (t2 ++ t3) ∧ Lib.Runs w1 t2 w2 ∧ (∀ dev, dev ∈ bl ↔ dev ∈ undecided ∧ Blind w1.disk dev.bareJid) ∧
        (∀ dev, dev ∈ mn ↔ dev ∈ undecided ∧ ¬ Blind w1.disk dev.bareJid) ∧
        (∀ k, (∀ dev ∈ bl, k ≠ .trust dev.bareJid dev.identityKey) → w2.disk k = w1.disk k) ∧
        (∀ e ∈ t2, ∃ dev ∈ bl, e.1 = .store (.trust dev.bareJid dev.identityKey) (.str "BLINDLY_TRUSTED")) ∧
        ((t3 = [] ∧ r ≠ .ok ()) ∨
          ((∀ dev ∈ bl, w2.disk (.trust dev.bareJid dev.identityKey) = some (.str "BLINDLY_TRUSTED")) ∧ Asked A bl mn i t3 r)))

theorem C66_makeTrustDecision : C66 BTBV.makeTrustDecision := fun M hu A us i t r w w' he hr => Verif.C66 M hu A us i t r w w' he hr

/-- `_make_trust_decision` with other steps. -/
def makeBy (all : List DeviceInfo → Except Exn Bool) (manual : List DeviceInfo → List Jid → List DeviceInfo) : Btb := fun M A undecided identifier => do
  let (blind, man) ← Prog.fold (M.O.iter (dedup (undecided.map (·.bareJid)))) (([], []) : List Jid × List Jid) fun (blind, man) jid => do
    let devices ← SM.getDeviceInformation M jid
    let b ← liftE (all (M.O.iter devices))
    pure (if b = true then (setAdd blind jid, man) else (blind, setAdd man jid))
  BTBV.trustBlindly M A (undecided.filter fun dev => decide (dev.bareJid ∈ blind)) identifier
  let manually := manual undecided man
  Prog.when (manually.length > 0) do
    A.prompt manually identifier

theorem makeBy_right : makeBy BTBV.allBlind (fun us man => us.filter fun dev => decide (dev.bareJid ∈ man)) = BTBV.makeTrustDecision := rfl

/-- Blind trust applies if any device is undecided or blindly trusted (bt:69: `any` in place of `all`). -/
def anyBlind (devs : List DeviceInfo) : Except Exn Bool :=
  .ok (devs.any fun dev => decide (dev.trustLevelName = "UNDECIDED" ∨ dev.trustLevelName = "BLINDLY_TRUSTED"))

def blindfold : Btb := makeBy anyBlind fun us man => us.filter fun dev => decide (dev.bareJid ∈ man)

/-- Places that are not written keep their content. -/
theorem unwritten {k : Key} : ∀ {t : List Ev} {w w' : World}, Lib.Runs w t w' → (∀ e ∈ t, (∀ v, e.1 ≠ .store k v) ∧ e.1 ≠ .delete k) → w'.disk k = w.disk k
  | [], w, w', hr, _ => by cases hr; rfl
  | ⟨o, a⟩ :: t, w, w', hr, h => by
    rw [unwritten hr.2 fun e he => h e (.tail _ he)]
    have h1 := h _ (.head _)
    cases o with
    | store k' v => cases a with
      | ok a => exact Disk.upd_of_ne fun hk => h1.1 v (by rw [hk])
      | error e => rfl
    | delete k' => cases a with
      | ok a => exact Disk.upd_of_ne fun hk => h1.2 (by rw [hk])
      | error e => rfl
    | _ => cases a <;> rfl

def blindfoldRun := trial politeBtbv (blindfold Mgr.btbv appNo [dev7, dev9] none) World.two

theorem C66_blindfold : ¬ C66 blindfold := by
  intro hc
  have hr : blindfoldRun.2.1 = .ok () := by decide +kernel
  obtain ⟨t1, w1, hr1, h1, ⟨-, h2⟩ | ⟨bl, mn, t2, w2, t3, h2, hr2, hbl, hmn, h3, h4, h5⟩⟩ := hc Mgr.btbv rfl appNo [dev7, dev9] none blindfoldRun.1 _ World.two _
    (hr ▸ trial_exec politeBtbv _ World.two) (trial_runs politeBtbv_ok _ _)
  · exact h2 rfl
  have hno : blindfoldRun.1.all (fun e => match e.1 with | .store (.devIdentityKey _ _) _ => false | .delete _ => false | _ => true) = true := by decide +kernel
  have hkey : w1.disk (.devIdentityKey "a" 8) = World.two.disk (.devIdentityKey "a" 8) := unwritten hr1 fun e he => by
    have := List.all_eq_true.1 hno e (h2 ▸ List.mem_append_left _ he)
    obtain ⟨o, a⟩ := e
    constructor
    · intro v h
      dsimp only at h
      subst h
      cases this
    · intro h
      dsimp only at h
      subst h
      cases this
  have hnb : ¬ Blind w1.disk "a" := fun h => by
    have := h 8 [8] "DISTRUSTED" ⟨[.int 7, .int 8], (h1 (.devList "a") (by simp)).trans rfl, by simp [JVal.asInt]⟩ ⟨_, hkey.trans rfl, Base64.decode_encode _⟩
      ((h1 (.trust "a" [8]) (by simp)).trans rfl)
    simp at this
  have hlev : w2.disk (.trust "a" [7]) = none := by
    rw [h3 _ fun dev hd h => hnb ?_, h1 _ (by simp)]
    · rfl
    · have hj : dev.bareJid = "a" := by injection h with h; exact h.symm
      rw [← hj]
      exact ((hbl dev).1 hd).2
  have h6 : t3 = [] := by
    rcases h5 with ⟨h5, -⟩ | ⟨-, h5⟩
    · exact h5
    · cases h5 with
      | stopped _ h _ => cases h; rfl
      | going ha hb =>
        rcases ha with ⟨_, rfl⟩ | ⟨_, ha⟩ <;> rcases hb with ⟨_, rfl, _⟩ | ⟨_, hb⟩ <;> first | rfl | (cases ha; cases hb; rfl) | (cases ha; rfl) | (cases hb; rfl)
  have hw : Lib.Runs World.two blindfoldRun.1 w2 := by
    rw [h2, h6, List.append_nil]
    exact Sem.runs_append.2 ⟨w1, hr1, hr2⟩
  have hfin : (blindfoldRun.2.2.disk (.trust "a" [7])).isSome = true := by decide +kernel
  have hs : blindfoldRun.2.2 = w2 := Sem.runs_det (trial_runs politeBtbv_ok (blindfold Mgr.btbv appNo [dev7, dev9] none) World.two) hw
  rw [hs, hlev] at hfin
  cases hfin

end Wrong
end Verif
