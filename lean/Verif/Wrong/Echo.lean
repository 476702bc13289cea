import Verif.Props.Echo
import Verif.Props.Keys
import Verif.Props.Identity
import Verif.Props.Regard
import Verif.Wrong.Info
/-
Wrong programs for further claims: C101 and others.  See Wrong/Encrypt.lean for the method.
-/
namespace Verif
namespace Wrong
open SM Spec

/-! ### C101: automatic replies are not answered -/

/-- C101 for a program. -/
def C101 (dec : Dec) : Prop :=
  ∀ (X Y : Mgr) (msg m : Message) (t t' : List Ev) (r r' : Res Exn (Option Bytes × DeviceInfo × PlainKM)) (j : Jid) (x : Except Exn Unit),
    Exec (dec X msg) t r → (⟨.sendMessage m j, x⟩ : Ev) ∈ t → Exec (dec Y m) t' r' → (∀ e ∈ t, Confirms e) → InStep t t' →
    (∀ ns s km k s', (⟨.encryptKM ns s km, .ok (k, s')⟩ : Ev) ∈ t → s'.sendingChainLength ≤ 53) → ∀ e ∈ t', Op.replies e.1 = false

theorem C101_decrypt : C101 decrypt := fun X Y msg m _ _ _ _ _ _ he hm he' hc hs hp => Verif.C101 X Y msg m he hm he' hc hs hp

/-- Two devices, one of them answering the 61st message of a chain, and the other one reading the answer. -/
theorem C101_not {dec : Dec} (h1 : Echo.reply ∈ Echo.sentIn (trial (Echo.deep 60 0) (dec Mgr.ex plainMessage) World.chat).1)
    (ht : (trial (Echo.deep 60 0) (dec Mgr.ex plainMessage) World.chat).1.all Echo.tidy = true)
    (hs : (((trial (Echo.deep 60 0) (dec Mgr.ex plainMessage) World.chat).1.flatMap Echo.sentAt).all fun x =>
      ((trial (Echo.deep 0 0) (dec Mgr.phone Echo.reply) World.chat).1.flatMap Echo.gotAt).all fun y => decide (x.1 = y.1 → y.2 ≤ x.2)) = true)
    (hp : ((trial (Echo.deep 60 0) (dec Mgr.ex plainMessage) World.chat).1.flatMap Echo.sentAt).all (fun x => decide (x.2 ≤ 53)) = true)
    (hr : (trial (Echo.deep 0 0) (dec Mgr.phone Echo.reply) World.chat).1.any (fun e => Op.replies e.1) = true) : ¬ C101 dec := by
  intro hc
  obtain ⟨j, x, hm⟩ := Echo.mem_sentIn h1
  have h := hc Mgr.ex Mgr.phone plainMessage Echo.reply _ _ _ _ j x (trial_exec (Echo.deep 60 0) _ World.chat) hm (trial_exec (Echo.deep 0 0) _ World.chat)
    (fun e he => (Echo.of_tidy (List.all_eq_true.1 ht e he)).1) (Echo.inStep_of hs)
    (fun ns s km k s' h => of_decide_eq_true (List.all_eq_true.1 hp _ (List.mem_flatMap.2 ⟨_, h, by simp [Echo.sentAt]; rfl⟩)))
  obtain ⟨e, he, hf⟩ := List.any_eq_true.1 hr
  rw [h e he] at hf
  cases hf

/-- Every message is answered (sm:2223-2225: the length of the chain is not looked at). -/
def chatterbox : Dec := decryptBy fun M => { rightly M with
  reply := fun ns _ session => do
    let sync : Bool ← call .getSync
    if sync then queueEmpty M session else sendEmptyMessage M ns session }

theorem C101_chatterbox : ¬ C101 chatterbox :=
  C101_not (by decide +kernel) (by decide +kernel) (by decide +kernel) (by decide +kernel) (by decide +kernel)

/-- Messages are answered if the chain is short (sm:2225: the comparison the other way round), or if it is the 61st message. -/
def reversed : Dec := decryptBy fun M => { rightly M with
  reply := fun ns kex session => do
    Prog.when (kex ≠ none ∨ session.receivingChainLength.getD 0 ≠ STALENESS_MAGIC_NUMBER) do
      let sync : Bool ← call .getSync
      if sync then queueEmpty M session else sendEmptyMessage M ns session }

theorem C101_reversed : ¬ C101 reversed :=
  C101_not (by decide +kernel) (by decide +kernel) (by decide +kernel) (by decide +kernel) (by decide +kernel)

/-! ### C118: activity and labels do not decide which devices are found -/

/-- C118 for a program. -/
def C118 (inf : Inf) : Prop :=
  ∀ (R : Remarks) (M : Mgr) (jid : Jid) (t : List Ev) (r : Res Exn (List DeviceInfo)), Exec (inf M jid) t r →
    ∃ t' r', Exec (inf M jid) t' r' ∧ Along (Remarked R) t t' ∧ Secrecy.Ends (fun a b => b.map Spec.bare = a.map Spec.bare) r r'

theorem C118_real : C118 getDeviceInformation := fun R M jid _ _ he => C118_info R M jid he

/-- The same interaction with other remarks. -/
def remark (R : Remarks) : Ev → Ev
  | ⟨.load k, r⟩ => ⟨.load k, r.map (Option.map (R.stored k))⟩
  | e => e

theorem along_map {R : Remarks} {t t' : List Ev} (h : Along (Remarked R) t t') (hn : t.all (fun e => match e.1 with | .evalTrust _ => false | _ => true) = true) :
    t' = t.map (remark R) := by
  induction h with
  | nil => rfl
  | cons h _ ih =>
    rw [List.all_cons, Bool.and_eq_true] at hn
    rw [List.map_cons, ih hn.2]
    congr 1
    cases h with
    | load => rfl
    | eval => cases hn.1
    | same _ h1 h2 =>
      rename_i e _ _ _
      obtain ⟨o, x⟩ := e
      cases o <;> first | rfl | exact absurd rfl (h1 _)

/-- What happened decides what is returned. -/
theorem exec_same {α : Type} {p : P α} {t : List Ev} {a b : α} (h : Exec p t (.ok a)) (h' : Exec p t (.ok b)) : a = b := by
  induction p generalizing t with
  | ret => cases h; cases h'; rfl
  | raise => cases h
  | op o k ih =>
    cases h with
    | op x h =>
      cases h' with
      | op y h' => exact ih _ h h'

/-- All devices are inactive. -/
def away : Remarks := ⟨fun _ _ _ _ => false, fun _ _ l => l, fun _ _ l => l⟩

/-- Devices that are not active are left out. -/
def heedless : Inf := fun M jid => do
  let devices ← getDeviceInformation M jid
  pure (devices.filter fun dev => dev.active.any (·.2))

/-- The world with other remarks. -/
def World.away (w : World) : World := { w with disk := fun k => (w.disk k).map (Wrong.away.stored k) }

theorem C118_heedless : ¬ C118 heedless := by
  intro hc
  obtain ⟨t', r', h1, h2, h3⟩ := hc away Mgr.ex "a" _ _ (trial_exec genuine (heedless Mgr.ex "a") World.met2)
  have ht := along_map h2 (by decide +kernel)
  have he : Exec (heedless Mgr.ex "a") ((trial genuine (heedless Mgr.ex "a") World.met2).1.map (remark away)) (.ok []) :=
    trial_exec genuine (heedless Mgr.ex "a") (World.away World.met2)
  have hr : ∃ a l, (trial genuine (heedless Mgr.ex "a") World.met2).2.1 = .ok (a :: l) := ⟨_, _, rfl⟩
  obtain ⟨a, l, hr⟩ := hr
  rw [hr] at h3
  rw [ht] at h1
  cases r' with
  | ok b =>
    cases exec_same h1 he
    cases (h3 : ([] : List DeviceInfo).map Spec.bare = (a :: l).map Spec.bare)
  | raised => cases h3
  | crashed => cases h3

/-! ### C60: uploading the bundle after a rotation -/

/-- C60, what holds, for a program. -/
def C60 (rotate : Mgr → Int → Nat → Nat → P Unit) : Prop :=
  ∀ (M : Mgr) (period : Int) (fuel rounds : Nat) (t : List Ev) (r : Res Exn Unit), Exec (rotate M period fuel rounds) t r →
    Guarded (fun u e => ∀ ns v, PendingSince ns u v → UploadStep M ns (fun _ => 60) v u e.1) t

theorem C60_rotation : C60 manageRotation := C60_partial

/-- `__manage_signed_pre_key_rotation` with other attempts to upload. -/
def attemptBy (retry : Mgr → Ns → Nat → P Unit) (M : Mgr) (period : Int) (fuel : Nat) : Nat → P Unit
  | 0 => throwE .outOfFuel
  | rounds + 1 => do
    let bs ← call .getBackends
    let nextCheck ← Prog.fold bs period fun nextCheck ns => do
      let age ← call (.spkAge ns)
      let nextRotation := period - age
      if nextRotation < 0 then
        call (.rotateSpk ns)
        retry M ns fuel
        pure nextCheck
      else
        pure (min nextCheck nextRotation)
    call (.sleep (nextCheck + 60))
    attemptBy retry M period fuel rounds

theorem attemptBy_right : attemptBy retryUpload = manageRotation := by
  funext M period fuel rounds
  induction rounds with
  | zero => rfl
  | succ n ih =>
    unfold attemptBy manageRotation
    rw [← ih]
    unfold rotationRound
    simp only [bind_assoc]

/-- The upload is tried once (sm:679-695: no loop). -/
def giveUp : Mgr → Int → Nat → Nat → P Unit := attemptBy fun M ns _ =>
  Prog.tryElse (do
      let bundle ← call (.getBundle ns M.ownJid M.ownDev)
      call (.uploadBundle bundle))
    (fun e => if e = .bundleUploadFailed then pure () else throwE e)
    (fun _ => pure ())

/-- The upload is tried again right away (sm:691: no sleep). -/
def hammerUpload (M : Mgr) (ns : Ns) : Nat → P Unit
  | 0 => throwE .outOfFuel
  | fuel + 1 =>
    Prog.tryElse (do
        let bundle ← call (.getBundle ns M.ownJid M.ownDev)
        call (.uploadBundle bundle))
      (fun e => if e = .bundleUploadFailed then hammerUpload M ns fuel else throwE e)
      (fun _ => pure ())

def hammering : Mgr → Int → Nat → Nat → P Unit := attemptBy hammerUpload

theorem pending_mid {ns : Ns} {u v : List Ev} (h : v.all (fun e => match e with | ⟨.uploadBundle _, .ok ()⟩ => false | _ => true) = true) :
    PendingSince ns (u ++ ⟨.rotateSpk ns, .ok ()⟩ :: v) v := by
  refine ⟨⟨_, rfl⟩, fun b hb => ?_⟩
  have := List.all_eq_true.1 h _ hb
  cases this

theorem C60_giveUp : ¬ C60 giveUp := by
  intro hc
  have h := hc _ _ _ _ _ _ (trial_exec Friendly.stalling.answer (giveUp Mgr.ex 50 5 1) World.started)
  have ht : (trial Friendly.stalling.answer (giveUp Mgr.ex 50 5 1) World.started).1 =
    ((trial Friendly.stalling.answer (giveUp Mgr.ex 50 5 1) World.started).1.take 2 ++ ⟨.rotateSpk "n", .ok ()⟩ ::
      ((trial Friendly.stalling.answer (giveUp Mgr.ex 50 5 1) World.started).1.drop 3 |>.take 2)) ++ ⟨.spkAge "o", .ok 101⟩ ::
      (trial Friendly.stalling.answer (giveUp Mgr.ex 50 5 1) World.started).1.drop 6 := rfl
  rcases h _ _ _ ht "n" _ (pending_mid (by decide +kernel)) with ⟨h, -⟩ | ⟨_, -, h⟩ | ⟨-, h⟩ <;> cases h

theorem C60_hammering : ¬ C60 hammering := by
  intro hc
  have h := hc _ _ _ _ _ _ (trial_exec Friendly.stalling.answer (hammering Mgr.ex 100 5 1) World.started)
  have ht : ∃ b x, (trial Friendly.stalling.answer (hammering Mgr.ex 100 5 1) World.started).1 =
    ((trial Friendly.stalling.answer (hammering Mgr.ex 100 5 1) World.started).1.take 3 ++ ⟨.rotateSpk "o", .ok ()⟩ ::
      ((trial Friendly.stalling.answer (hammering Mgr.ex 100 5 1) World.started).1.drop 4 |>.take 2)) ++ ⟨.getBundle "o" "me" 1, .ok b⟩ ::
      (trial Friendly.stalling.answer (hammering Mgr.ex 100 5 1) World.started).1.drop 7 ∧
      ((trial Friendly.stalling.answer (hammering Mgr.ex 100 5 1) World.started).1.take 3 ++ ⟨.rotateSpk "o", .ok ()⟩ ::
      ((trial Friendly.stalling.answer (hammering Mgr.ex 100 5 1) World.started).1.drop 4 |>.take 2)).getLast? = some ⟨.uploadBundle b, x⟩ := ⟨_, _, rfl, rfl⟩
  obtain ⟨b, x, ht, hl⟩ := ht
  rcases h _ _ _ ht "o" _ (pending_mid (by decide +kernel)) with ⟨-, h | ⟨s, h⟩⟩ | ⟨_, _, h⟩ | ⟨-, h⟩
  · have := congrArg List.length h
    revert this
    decide +kernel
  · rw [hl] at h
    cases h
  · cases h
  · cases h

/-! ### C04: the names of places -/

/-- C04 for a way to name places. -/
def C04 (render : Key → String) : Prop := ∀ k k', CleanKey k → CleanKey k' → render k = render k' → k = k'

theorem C04_render : C04 Key.render := C04_keys_injective

/-- The parts are put together without slashes between them. -/
def run_together (k : Key) : String := String.ofList ('/' :: k.segments.flatten)

theorem C04_run_together : ¬ C04 run_together := fun hc => by
  have h := hc (.devLabel "a" 11) (.devLabel "a1" 1) (by simp only [CleanKey, NoSlash]; decide +kernel) (by simp only [CleanKey, NoSlash]; decide +kernel) (by decide +kernel)
  injection h with h _
  exact absurd h (by decide)

/-- Trust belongs to keys, of whomever. -/
def anyones (k : Key) : String := match k with
  | .trust _ ik => String.ofList (joinSegments ["trust".toList, (Base64.encode ik).toList])
  | k => k.render

theorem C04_anyones : ¬ C04 anyones := fun hc => by
  have h := hc (.trust "a" [1]) (.trust "b" [1]) (by simp only [CleanKey, NoSlash]; decide +kernel) (by simp only [CleanKey, NoSlash]; decide +kernel) rfl
  injection h with h _
  exact absurd h (by decide)

/-! ### C10: the limits of a backend -/

/-- C10, what is accepted is right, for a program. -/
def C10 (init : Int → Option Int → Except Exn BackendLimits) : Prop :=
  ∀ perSession perMessage l, init perSession perMessage = .ok l →
    ValidLimits perSession perMessage ∧ l.perSession = perSession ∧ l.perMessage = perMessage.getD perSession

theorem C10_init : C10 Backend.init := C10_sound_partial

/-- Nothing is checked. -/
def nonchalant (a : Int) (b : Option Int) : Except Exn BackendLimits := .ok ⟨a, b.getD a⟩

theorem C10_nonchalant : ¬ C10 nonchalant := fun hc => by
  rcases (hc 1 (some 2) _ rfl).1 with h | ⟨h, _⟩ | ⟨n, h, _, h2⟩
  · cases h
  · cases h
  · cases h
    exact absurd h2 (by decide)

/-- The limit for a message is always the one for the session. -/
def samey (a : Int) (b : Option Int) : Except Exn BackendLimits :=
  if b.any (fun b => decide (b ≤ 0 ∧ a ≠ 0 ∨ b > a)) = true then .error .valueError else .ok ⟨a, a⟩

theorem C10_samey : ¬ C10 samey := fun hc => by
  have := (hc 10 (some 5) _ rfl).2.2
  cases this

/-! ### C76: the private key -/

/-- C76 for a program. -/
def C76 (f : XEdDSA → IdentityKeyPair → IdentityKeyPair) : Prop :=
  ∀ (x : XEdDSA), Coherent x → ∀ kp : IdentityKeyPair, (f x kp).identityKey x = kp.identityKey x ∧ ∃ p, f x kp = .priv p ∧ match kp with
    | .seed s => p = x.seedToPriv s
    | .priv p0 => p = p0

theorem C76_asPriv : C76 IdentityKeyPair.asPriv := fun x hx kp => Verif.C76 x hx kp

/-- Keys that are private keys already are converted again. -/
def doubly (x : XEdDSA) : IdentityKeyPair → IdentityKeyPair
  | .seed s | .priv s => .priv (x.seedToPriv s)

/-- The seed is taken for the private key. -/
def literally (_ : XEdDSA) : IdentityKeyPair → IdentityKeyPair
  | .seed s | .priv s => .priv s

def exX : XEdDSA := ⟨fun s => 1 :: s, fun s => 2 :: 1 :: s, fun p => 2 :: p⟩

theorem C76_doubly : ¬ C76 doubly := fun hc => by cases (hc exX (fun _ => rfl) (.priv [5])).1
theorem C76_literally : ¬ C76 literally := fun hc => by cases (hc exX (fun _ => rfl) (.seed [5])).1

end Wrong
end Verif
