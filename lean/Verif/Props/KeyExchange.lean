import Verif.Proofs.PresLib
import Verif.Props.EncryptResult
/-
Key exchange data in messages (C35), and what the messages returned by `encrypt` consist of (C68).
-/
namespace Verif
open Spec SM Foot

theorem SM.kexFor_rule (s : Session) : KexRule s (kexFor s) := by
  unfold KexRule kexFor
  split <;> simp_all

/-- C35 for `encrypt`: every key in a returned message was given by the backend of this message, for the key material of this message,
together with a session, and carries the key exchange of this session exactly if the session is actively initiated and not confirmed. -/
theorem C35_encrypt (M : Mgr) (jids : List Jid) (pt : Dict Ns Bytes) (prio : Option (List Ns)) (i : Option String) (t : List Ev)
    (msgs : Dict Message PlainKM) (errs : List EncError) (hdec : CallbackQuiet M.decide)
    (he : Exec (encrypt M jids pt prio i) t (.ok (msgs, errs))) (hb : BackendsOnce t) :
    ∀ x ∈ msgs, ∀ k ∈ x.1.keys, ∃ j d s, Served t x.1.ns j d x.2 k.1 s ∧ KexRule s k.2 := by
  obtain ⟨t1, t2, t4, order, devices, cache, infos, out, v1, v2, v3, tm, bs, st, os, rfl, rfl, rfl, hp, ha, ht, ho, hm⟩ :=
    (encrypt_run hdec jids pt prio i he hb).succeeded rfl
  intro x hx k hk
  obtain ⟨_, _, _, _, hkeys, _⟩ := ho.messages x hx
  rw [hkeys, mem_foldl_setAdd] at hk
  rcases hk with hk | hk
  · cases hk
  obtain ⟨o, hom, hok⟩ := List.mem_filterMap.1 hk
  obtain ⟨hom, hns⟩ := List.mem_filter.1 hom
  simp only [decide_eq_true_eq] at hns
  unfold Out.key at hok
  split at hok
  · rename_i k' s hres
    cases hok
    have hs := (ho.out o hom).2.2.2.1 k' s hres
    obtain ⟨x', hx', hns', hkm⟩ := ho.served o hom
    have : x' = x := inj_of_nodup_map (f := fun x : Message × PlainKM => x.1.ns) ho.once hx' hx (by rw [hns', hns])
    subst this
    rw [hns, ← hkm] at hs
    obtain ⟨h1, e, h2, h3, h4, h5⟩ := hs
    refine ⟨_, _, s, ⟨h1, e, h2 ++ (M.O.iter st.sessions).map (fun p => ⟨.storeSession p.1 p.2, .ok ()⟩), ?_, h4, h5⟩, kexFor_rule s⟩
    rw [h3]; simp
  · cases hok

example := C35_encrypt Mgr.ex ["a"] [("n", [1]), ("o", [1, 2])] none none _ _ _ Mgr.ex_quiet chat_exec chat_once

/-- C68, the messages: a message returned by `encrypt` has the content and key material that came with the encryption of the plaintext
given for its namespace, this device as sender, and no two messages have the same namespace. -/
theorem C68_messages (M : Mgr) (jids : List Jid) (pt : Dict Ns Bytes) (prio : Option (List Ns)) (i : Option String) (t : List Ev)
    (msgs : Dict Message PlainKM) (errs : List EncError) (hdec : CallbackQuiet M.decide)
    (he : Exec (encrypt M jids pt prio i) t (.ok (msgs, errs))) (hb : BackendsOnce t) :
    (∀ x ∈ msgs, x.1.bareJid = M.ownJid ∧ x.1.deviceId = M.ownDev ∧
      ∃ p, pt.get x.1.ns = some p ∧ (⟨.encryptPlaintext x.1.ns p, .ok (x.1.content, x.2)⟩ : Ev) ∈ t) ∧
    (msgs.map (·.1.ns)).Nodup := by
  obtain ⟨t1, t2, t4, order, devices, cache, infos, out, v1, v2, v3, tm, bs, st, os, rfl, rfl, rfl, hp, ha, ht, ho, hm⟩ :=
    (encrypt_run hdec jids pt prio i he hb).succeeded rfl
  refine ⟨fun x hx => ?_, ho.once⟩
  obtain ⟨_, h1, h2, ⟨p, h3, h4⟩, _⟩ := ho.messages x hx
  exact ⟨h1, h2, p, h3, List.mem_append_left _ h4⟩

example := C68_messages Mgr.ex ["a"] [("n", [1]), ("o", [1, 2])] none none _ _ _ Mgr.ex_quiet chat_exec chat_once

/-! ### Empty messages -/

/-- Sending a message. -/
def Spec.Op.sendsMessage : Op → Bool
  | .sendMessage .. => true
  | _ => false

/-- A message sent consists of the key just given by a backend, with the key exchange as required. -/
def Spec.KexAttached (h : List Ev) (e : Ev) : Prop :=
  ∀ m j, e.1 = .sendMessage m j → ∃ k kx s last, m.keys = [(k, kx)] ∧ h.getLast? = some last ∧ Gives last k s ∧ KexRule s kx

/-- Sessions built actively are active and not confirmed yet (backend.py:175-219). -/
def Spec.BuiltActive (e : Ev) : Prop :=
  ∀ ns j d b m s k, e = ⟨.buildActive ns j d b m, .ok (s, k)⟩ → s.initiation = .active ∧ s.confirmed = false

namespace SM
variable {φ : Ev → Prop} {M : Mgr}

theorem kex_other {o : Op} (h : Op.sendsMessage o = false) (u : List Ev) (r : Except Exn o.Ret) : KexAttached u ⟨o, r⟩ := by
  rintro m j rfl
  cases h

theorem kex_call {o : Op} (h : Op.sendsMessage o = false) : Pres (Rec φ) (Guarded KexAttached) (call o) :=
  Pres.perform fun _ _ _ hw => guarded_snoc.2 ⟨hw, kex_other h _ _⟩

theorem kex_quiet {α : Type} {p : P α} (h : AllOps (fun o => Op.sendsMessage o = false) p) : Pres (Rec φ) (Guarded KexAttached) p :=
  pres_quiet h fun _ ho u r => kex_other ho u r

theorem kex_sendEmptyMessage (ns : Ns) (s : Session) : Pres (Rec φ) (Guarded KexAttached) (sendEmptyMessage M ns s) := by
  unfold sendEmptyMessage
  refine Pres.bind (kex_call rfl) fun x h hh => ?_
  rw [wp_bind, wp_perform]
  refine ⟨hh, fun y _ => ?_, fun e _ => guarded_snoc.2 ⟨hh, kex_other rfl _ _⟩⟩
  obtain ⟨k, s'⟩ := y
  have h1 : Guarded KexAttached (h ++ [⟨.encryptKM ns s x.2, .ok (k, s')⟩]) := guarded_snoc.2 ⟨hh, kex_other rfl _ _⟩
  have h2 : ∀ r, Guarded KexAttached ((h ++ [⟨.encryptKM ns s x.2, .ok (k, s')⟩]) ++ [⟨.sendMessage ⟨ns, M.ownJid, M.ownDev, x.1, [(k, kexFor s')]⟩
      s'.bareJid, r⟩]) := fun r => guarded_snoc.2 ⟨h1, by
    rintro m j h
    cases h
    exact ⟨_, _, s', _, rfl, List.getLast?_concat .., .inr ⟨_, _, _, rfl⟩, kexFor_rule _⟩⟩
  simp only [andThen]
  rw [wp_bind]
  exact wp_perform.2 ⟨h1, fun a _ => kex_call rfl _ (h2 _), fun e _ => h2 _⟩

theorem kex_replaceSession (jid : Jid) (d : DevId) (ns : Ns) (hφ : ∀ e, φ e → BuiltActive e) :
    Pres (Rec φ) (Guarded KexAttached) (replaceSession M jid d ns) := by
  unfold replaceSession
  refine Pres.bind (kex_call rfl) fun x => Pres.bind (kex_call rfl) fun b h hh => ?_
  rw [wp_bind, wp_perform]
  refine ⟨hh, fun y hy => ?_, fun e _ => guarded_snoc.2 ⟨hh, kex_other rfl _ _⟩⟩
  obtain ⟨s', k⟩ := y
  have h1 : Guarded KexAttached (h ++ [⟨.buildActive ns jid d b x.2, .ok (s', k)⟩]) := guarded_snoc.2 ⟨hh, kex_other rfl _ _⟩
  have h2 : ∀ r, Guarded KexAttached ((h ++ [⟨.buildActive ns jid d b x.2, .ok (s', k)⟩]) ++
      [⟨.sendMessage ⟨ns, M.ownJid, M.ownDev, x.1, [(k, some s'.keyExchange)]⟩ jid, r⟩]) := fun r => guarded_snoc.2 ⟨h1, by
    rintro m j h
    cases h
    refine ⟨_, _, s', _, rfl, List.getLast?_concat .., .inl ⟨_, _, _, _, _, rfl⟩, fun _ => rfl, fun hn => ?_⟩
    exact absurd (hφ _ hy _ _ _ _ _ _ _ rfl) hn⟩
  simp only [andThen]
  rw [wp_bind]
  exact wp_perform.2 ⟨h1, fun a _ => kex_call rfl _ (h2 _), fun e _ => h2 _⟩

theorem kex_replaceSessions (jid : Jid) (d : DevId) (hφ : ∀ e, φ e → BuiltActive e) :
    Pres (Rec φ) (Guarded KexAttached) (replaceSessions M jid d) := by
  unfold replaceSessions
  refine Pres.bind (kex_quiet ((ops_getDeviceInformation M jid).mono fun o h => ?_)) fun devs =>
    Pres.bind (kex_quiet (allOps_next _)) fun dev => Pres.bind (kex_call rfl) fun bs =>
    Pres.bind (Pres.filterAll fun ns _ => Pres.bind (kex_call rfl) fun _ => Pres.pure _) fun ws =>
    Pres.bind (kex_call rfl) fun bs' => Pres.fold fun un ns _ => ?_
  · cases h <;> rfl
  · split
    · refine Pres.tryElse (kex_replaceSession _ _ _ hφ) (fun e => ?_) fun _ => Pres.pure _
      split
      · exact Pres.pure _
      · exact Pres.raise _
    · exact Pres.pure _

theorem kex_afterHistorySync : Pres (Rec φ) (Guarded KexAttached) (afterHistorySync M) := by
  unfold afterHistorySync
  refine Pres.bind (kex_call rfl) fun _ => Pres.bind (kex_call rfl) fun bs => Pres.bind (Pres.forEach fun _ _ => kex_call rfl) fun _ =>
    Pres.bind (kex_call rfl) fun bs' => Pres.forEach fun ns _ => ?_
  unfold sendQueuedBackend
  refine Pres.bind (kex_quiet (allOps_loadStrs rfl)) fun _ => Pres.bind (kex_call rfl) fun _ => Pres.forEach fun jid _ => ?_
  unfold sendQueuedJid
  refine Pres.bind (kex_quiet (allOps_loadInts rfl)) fun _ => Pres.bind (kex_call rfl) fun _ => Pres.forEach fun d _ => ?_
  unfold sendQueued
  refine Pres.bind (kex_call rfl) fun s => ?_
  cases s with
  | none => exact Pres.pure _
  | some s => exact kex_sendEmptyMessage ns s

theorem kex_decrypt (msg : Message) : Pres (Rec φ) (Guarded KexAttached) (decrypt M msg) := by
  unfold decrypt
  refine Pres.bind (kex_call rfl) fun bs => ?_
  split
  · exact Pres.raise _
  split
  · exact Pres.raise _
  · rename_i ekm kex _
    refine Pres.bind (kex_quiet ?_) fun dev => Pres.bind (kex_quiet ?_) fun x => Pres.bind ?_ fun _ => Pres.pure _
    · have h1 : AllOps (fun o => Op.sendsMessage o = false) (getDeviceInformation M msg.bareJid) :=
        (ops_getDeviceInformation M _).mono fun _ h => by cases h <;> rfl
      have h2 : AllOps (fun o => Op.sendsMessage o = false) (refreshDeviceList M msg.ns msg.bareJid) :=
        (ops_refreshDeviceList M _ _).mono fun _ h => by cases h <;> first | rfl | (rename_i h; cases h <;> rfl)
      unfold findSender
      lib_ops []
    · unfold decryptContent keyMaterial plaintextOf decryptKeyMaterial handleKeyExchange
      lib_ops []
    · unfold postDecrypt
      refine Pres.bind (kex_call rfl) fun _ => Pres.bind (kex_quiet ?_) fun _ => ?_
      · unfold consumePreKey discardPreKey refillPreKeys
        lib_ops []
      · unfold autoReply
        refine Pres.when fun _ => Pres.bind (kex_call rfl) fun sync => ?_
        split
        · refine kex_quiet ?_
          unfold queueEmpty
          lib_ops []
        · exact kex_sendEmptyMessage _ _

/-- The other calls send no message. -/
theorem kex_call_run (c : Call) (hφ : ∀ e, φ e → BuiltActive e) (hdec : ∀ ds i, AllOps (fun o => Op.sendsMessage o = false) (M.decide ds i)) :
    Pres (Rec φ) (Guarded KexAttached) (c.run M) := by
  have other : ∀ {o : Op}, (∀ m j, o ≠ .sendMessage m j) → Op.sendsMessage o = false := by
    intro o h; cases o <;> first | rfl | exact absurd rfl (h _ _)
  have info : ∀ {j o}, Info j o → Op.sendsMessage o = false := fun h => by cases h <;> rfl
  have upd : ∀ {M ns j o}, Update M ns j o → Op.sendsMessage o = false := fun h => by cases h <;> rfl
  have refr : ∀ {M ns j o}, Refresh M ns j o → Op.sendsMessage o = false := fun h => by cases h <;> first | rfl | exact upd ‹_›
  have pb : ∀ {M ns o}, PurgeBackend M ns o → Op.sendsMessage o = false := fun h => by cases h <;> first | rfl | exact info ‹_›
  have key : (∀ o, CallOps M c o → Op.sendsMessage o = false) → Pres (Rec φ) (Guarded KexAttached) (c.run M) := fun h =>
    Call.pres M c (kex_quiet (ops_ikp.mono fun o h => by cases h <;> rfl)) (fun _ ds i => kex_quiet (hdec ds i))
      fun o ho w r _ hw => guarded_snoc.2 ⟨hw, kex_other (h o ho) _ _⟩
  cases c with
  | replaceSessions jid d => exact Pres.bind (kex_replaceSessions jid d hφ) fun _ => Pres.pure _
  | afterHistorySync => exact kex_afterHistorySync
  | decrypt msg => exact Pres.bind (kex_decrypt msg) fun _ => Pres.pure _
  | getIdentityKeyPair => exact key fun o h => h.elim
  | create bs l f => exact key fun o h => by cases h <;> first | rfl | exact info ‹_› | exact refr ‹_› | exact pb ‹_›
  | purgeBackend ns => exact key fun o h => pb h
  | purgeBareJid jid => exact key fun o h => by cases h <;> rfl
  | ensureDataConsistency =>
    refine key fun o h => ?_
    rcases h with rfl | h
    · rfl
    · cases h <;> first | rfl | exact refr ‹_›
  | rotation p f r => exact key fun o h => by cases h <;> rfl
  | updateDeviceList ns jid dl => exact key fun o h => upd h
  | refreshDeviceList ns jid => exact key fun o h => refr h
  | refreshDeviceLists jid =>
    refine key fun o h => ?_
    rcases h with rfl | ⟨ns, h⟩
    · rfl
    · exact refr h
  | setTrust jid ik l => exact key fun o h => by cases h; rfl
  | getSendingChainLength dev =>
    refine key fun o h => ?_
    rcases h with rfl | ⟨ns, j, d, rfl⟩ <;> rfl
  | setOwnLabel l => exact key fun o h => by cases h <;> rfl
  | getDeviceInformation jid => exact key fun o h => info h
  | getOwnDeviceInformation => exact key fun o h => info h
  | beforeHistorySync => exact key fun o h => by cases h; rfl
  | encrypt jids pt prio i => exact key fun o h => by cases h <;> first | rfl | exact info ‹_›

end SM

/-- C35 for messages sent by the library itself (empty messages): whatever call of the API is made, and however it ends, each message it
sends contains exactly one key, just given by the backend with a session, and carries the key exchange of this session exactly if the
session is actively initiated and not confirmed. -/
theorem C35_sent (M : Mgr) (c : Call) (t : List Ev) (r : Res Exn Unit) (he : Exec (c.run M) t r)
    (hdec : ∀ ds i, AllOps (fun o => Op.sendsMessage o = false) (M.decide ds i)) (hbuilt : ∀ e ∈ t, BuiltActive e) :
    Guarded KexAttached t := by
  have := Rec.sound (φ := fun e => BuiltActive e) (kex_call_run c (fun _ h => h) hdec [] guarded_nil) he hbuilt
  simpa using this

/-- Like `polite`; in addition empty messages can be sent, messages from device 7 of "a" can be decrypted, and pre keys are counted. -/
def friendly : World → (o : Op) → Except Exn o.Ret
  | _, .encryptEmpty _ => .ok (⟨true, 0⟩, ⟨0⟩)
  | _, .sendMessage _ _ => .ok ()
  | _, .deleteHidden _ => .ok ()
  | _, .decryptKM _ s e => .ok (⟨e.blob⟩, { s with confirmed := true })
  | _, .buildPassive ns j d x e => .ok (⟨ns, j, d, .passive, true, x, some 1, 0, 1⟩, ⟨e.blob⟩)
  | _, .decryptPlaintext _ c m => .ok [UInt8.ofNat c.blob, UInt8.ofNat m.blob]
  | _, .hidePreKey _ _ => .ok true
  | _, .deletePreKey _ _ => .ok true
  | _, .numVisible _ => .ok 20
  | _, .generatePreKeys _ _ => .ok ()
  | _, .getBundle ns j d => .ok ⟨ns, j, d, [1], 0⟩
  | _, .uploadBundle _ => .ok ()
  | w, o => polite w o

theorem friendly_ok (w : World) (o : Op) (e : Exn) (h : friendly w o = .error e) : e.isInternal = false := by
  cases o <;> cases h <;> rfl

/-- The example world with one queued message. -/
def World.queued : World := { World.chat with disk := fun k => match k with
  | .queue "n" => some (.ofStrs ["a"])
  | .queueJid "n" "a" => some (.ofInts [7, 8])
  | k => World.chat.disk k }

def queuedRun := runProg (Lib.env friendly) Lib.next 100 (Call.afterHistorySync.run Mgr.ex) World.queued

/-- Of the two queued messages one is sent: there is no session for the other. -/
theorem queued_sends : (queuedRun.1.filter fun e => Op.sendsMessage e.1).length = 1 := by decide +kernel

example : Guarded KexAttached queuedRun.1 := by
  refine C35_sent Mgr.ex .afterHistorySync _ _ (runProg_exec (Lib.env friendly) Lib.next 100 _ World.queued) (fun _ _ => trivial) fun e he => ?_
  have h := runProg_answers (Lib.env friendly) Lib.next 100 (Call.afterHistorySync.run Mgr.ex) World.queued
  obtain ⟨w, hw⟩ := h e he
  rintro ns j d b m s k rfl
  cases hw
  exact ⟨rfl, rfl⟩

end Verif
