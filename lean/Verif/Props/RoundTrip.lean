import Verif.Props.KeyExchange
import Verif.Props.DecryptAfter
/-
From sender to recipient: what one device passes to `encrypt` is what another device gets from `decrypt` (C79).
-/
namespace Verif
open Spec SM

/-- The backend `ns` encrypted key material `m` as `k`. -/
def Spec.Wrapped (ns : Ns) (e : Ev) (k : EncKM) (m : PlainKM) : Prop :=
  (∃ j d b s, e = ⟨.buildActive ns j d b m, .ok (s, k)⟩) ∨ (∃ s0 s, e = ⟨.encryptKM ns s0 m, .ok (k, s)⟩)

/-- The cryptography of the backends of two devices fits together: decryption inverts encryption, if it succeeds, and only the contents
of empty messages are empty (backend.py:196-323). -/
structure Spec.Fitting (tA tB : List Ev) : Prop where
  keys : ∀ ns e e' k m s m', e ∈ tA → e' ∈ tB → Wrapped ns e k m → GaveKM ns e' k s m' → m' = m
  content : ∀ ns p c m p', (⟨.encryptPlaintext ns p, .ok (c, m)⟩ : Ev) ∈ tA → (⟨.decryptPlaintext ns c m, .ok p'⟩ : Ev) ∈ tB → p' = p
  filled : ∀ ns p c m, (⟨.encryptPlaintext ns p, .ok (c, m)⟩ : Ev) ∈ tA → c.empty = false

theorem served_wrapped {t : List Ev} {ns j d m k s} (h : Served t ns j d m k s) : ∃ e ∈ t, Wrapped ns e k m := by
  obtain ⟨h1, e, h2, rfl, hh, hg⟩ := h
  refine ⟨e, by simp, ?_⟩
  rcases hh with ⟨b, hb⟩ | ⟨s0, hs0, _⟩ <;> rcases hg with ⟨ns', j', d', b', m', rfl⟩ | ⟨ns', s0', m', rfl⟩
  · cases hb; exact .inl ⟨_, _, _, _, rfl⟩
  · cases hb
  · cases hs0
  · cases hs0; exact .inr ⟨_, _, rfl⟩

/-- C79: let device `B` decrypt a message that `encrypt` returned on device `A`.  What `B` gets is the plaintext that `A` gave for the
backend of the message, with the key material returned on `A`; the sender is identified as `A`; and the key that
`B` found in the message was made from this key material for `B`, after `A` had evaluated `B` as trusted. -/
theorem C79_round_trip (A B : Mgr) (jids : List Jid) (pt : Dict Ns Bytes) (prio : Option (List Ns)) (i : Option String) (tA tB : List Ev)
    (msgs : Dict Message PlainKM) (errs : List EncError) (hdec : CallbackQuiet A.decide)
    (hA : Exec (encrypt A jids pt prio i) tA (.ok (msgs, errs))) (hb : BackendsOnce tA) (ha : Addressed tA)
    (x : Message × PlainKM) (hx : x ∈ msgs) (p : Option Bytes) (dev : DeviceInfo) (km : PlainKM)
    (hB : Exec (decrypt B x.1) tB (.ok (p, dev, km))) (hf : Fitting tA tB) :
    (∃ b, p = some b ∧ pt.get x.1.ns = some b) ∧ km = x.2 ∧ (dev.bareJid = A.ownJid ∧ dev.deviceId = A.ownDev) ∧
    ∃ info h e h' ekm kex s, tA = h ++ e :: h' ∧ HandsOut h e x.1.ns B.ownJid B.ownDev x.2 ∧ Gives e ekm s ∧ keyForUs B x.1 = some (ekm, kex) ∧
      LastEval h info .trusted ∧ info.bareJid = B.ownJid ∧ info.deviceId = B.ownDev := by
  obtain ⟨hp, hpt, ekm, kex, s, hk, g, hg, hgave⟩ := C46_plaintext B x.1 tB p dev km hB
  obtain ⟨hm, _⟩ := C68_messages A jids pt prio i tA msgs errs hdec hA hb
  obtain ⟨hj, hd, b, hb', hc⟩ := hm x hx
  obtain ⟨hkm, hkj, hkd⟩ := keyForUs_some hk
  obtain ⟨j, d, s', hserved, _⟩ := C35_encrypt A jids pt prio i tA msgs errs hdec hA hb x hx _ hkm
  obtain ⟨_, haj, had⟩ := served_addr ha hserved
  obtain ⟨e, he, hw⟩ := served_wrapped hserved
  have hkm' : km = x.2 := hf.keys _ _ _ _ _ _ _ he hg hw hgave
  subst hkm'
  refine ⟨?_, rfl, ?_, ?_⟩
  · cases p with
    | none =>
      have := hp.1 rfl
      rw [hf.filled _ _ _ _ hc] at this
      cases this
    | some b' => exact ⟨b', rfl, by rw [hb', hf.content _ _ _ _ _ hc (hpt b' rfl)]⟩
  · obtain ⟨_, rest, ⟨_, _, _, _, _, hsender, _, _⟩⟩ := C38_result B x.1 tB p dev _ hB
    exact ⟨hsender.bareJid.trans hj, hsender.deviceId.trans hd⟩
  · obtain ⟨h1, e', h2, ht, hh, hgv⟩ := hserved
    have hout : Op.handsOut e'.1 = true := by
      rcases hh with ⟨_, h⟩ | ⟨_, h, _⟩ <;> rw [h] <;> rfl
    obtain ⟨info, ns', m', hh', hev⟩ := C27_only_trusted A jids pt prio i tA _ hdec hA hb h1 e' h2 ht hout
    refine ⟨info, h1, e', h2, ekm, kex, s', ht, ?_, hgv, hk, hev, ?_⟩
    · rw [← hkj, ← hkd, haj, had]; exact hh
    have hs : Served tA ns' info.bareJid info.deviceId m' ekm s' := ⟨h1, e', h2, ht, hh', hgv⟩
    obtain ⟨_, hij, hid⟩ := served_addr ha hs
    exact ⟨hij.symm.trans hkj, hid.symm.trans hkd⟩

theorem keyForUs_of_only {B : Mgr} {m : Message} {k : EncKM × Option KeyExchange} (h : keysFor m B.ownJid B.ownDev = [k]) :
    keyForUs B m = some k := by
  have hall : ∀ k' ∈ m.keys, k'.1.bareJid = B.ownJid ∧ k'.1.deviceId = B.ownDev → k' = k := by
    intro k' hk' ha
    have : k' ∈ keysFor m B.ownJid B.ownDev := List.mem_filter.2 ⟨hk', by simpa using ha⟩
    rw [h] at this
    simpa using this
  have hk : k ∈ keysFor m B.ownJid B.ownDev := by rw [h]; simp
  obtain ⟨hm, ha⟩ := List.mem_filter.1 hk
  simp only [decide_eq_true_eq] at ha
  cases hf : keyForUs B m with
  | none =>
    have := List.find?_eq_none.1 hf k (by simpa using hm)
    simp [ha] at this
  | some k' =>
    obtain ⟨h1, h2⟩ := keyForUs_some hf
    rw [hall k' h1 h2]

/-- C79, delivery: a device that `A` last evaluated as trusted, and for which no error was reported, finds in exactly one of the returned
messages a key; `decrypt` rejects every other returned message as not for this device (provided its backend is loaded). -/
theorem C79_delivered (A B : Mgr) (jids : List Jid) (pt : Dict Ns Bytes) (prio : Option (List Ns)) (i : Option String) (tA : List Ev)
    (msgs : Dict Message PlainKM) (errs : List EncError) (hdec : CallbackQuiet A.decide)
    (hA : Exec (encrypt A jids pt prio i) tA (.ok (msgs, errs))) (hb : BackendsOnce tA) (hs : BackendsStay tA) (ha : Addressed tA)
    (info : DeviceInfo) (hi : info.bareJid = B.ownJid ∧ info.deviceId = B.ownDev) (ht : LastEval tA info .trusted)
    (he : errorsFor errs B.ownJid B.ownDev = []) :
    ∃ x ∈ msgs, (∃ k, keyForUs B x.1 = some k) ∧ info.namespaces = [x.1.ns] ∧
      ∀ y ∈ msgs, y ≠ x → ∀ bs tB r, y.1.ns ∈ bs → Exec (decrypt B y.1) (⟨.getBackends, .ok bs⟩ :: tB) r →
        tB = [] ∧ r = .raised .messageNotForUs := by
  obtain ⟨ns, hns, h⟩ := (C32_served_or_reported A jids pt prio i tA msgs errs hdec hA hb hs ha).1 info ht
  rw [hi.1, hi.2] at h
  rcases h with ⟨⟨x, hx, hxn, ⟨k, hk⟩, hy⟩, _⟩ | ⟨_, e, h, _⟩
  · refine ⟨x, hx, ⟨k, keyForUs_of_only hk⟩, by rw [hns, hxn], fun y hym hyx bs tB r hbs hB => ?_⟩
    refine (C38_rejected B y.1 bs tB r hB).2 hbs fun k' hk' hkb => ?_
    have : k' ∈ keysFor y.1 B.ownJid B.ownDev := List.mem_filter.2 ⟨hk', by simpa using hkb⟩
    rw [hy y hym hyx] at this
    cases this
  · rw [he] at h; cases h

/-! ### Example: device 7 of "a" reads what "me" wrote in the chat -/

/-- Device 7 of "a". -/
def Mgr.phone : Mgr := { Mgr.ex with ownJid := "a", ownDev := 7 }

/-- The message to it. -/
def chatMessage : Message := ⟨"n", "me", 1, ⟨false, 1⟩, [(⟨"a", 7, 1⟩, none)]⟩

/-- Everything works on the receiving side; contents are decrypted by what their blob stands for. -/
def reader : World → (o : Op) → Except Exn o.Ret
  | _, .evalTrust _ => .ok .undecided
  | _, .loadSession ns j d => .ok (some ⟨ns, j, d, .passive, true, ⟨[1], 0⟩, some 3, 4, 0⟩)
  | _, .storeSession _ _ => .ok ()
  | _, .decryptKM _ s e => .ok (⟨e.blob⟩, s)
  | _, .decryptPlaintext _ c _ => .ok (if c.blob = 1 then [1] else [1, 2])
  | _, _ => .error (.app 0)

def readRun := runProg (Lib.env reader) Lib.next 100 (decrypt Mgr.phone chatMessage) World.chat

theorem read_exec : Exec (decrypt Mgr.phone chatMessage) readRun.1
    (.ok (some [1], ⟨["n", "o"], [("n", true), ("o", true)], "me", 1, [1], "undecided", none⟩, ⟨1⟩)) :=
  runProg_exec (Lib.env reader) Lib.next 100 _ World.chat

theorem chat_plaintexts : ∀ ns p r, (⟨.encryptPlaintext ns p, r⟩ : Ev) ∈ chatRun.1 → p = [1] ∨ p = [1, 2] := by
  have h : chatRun.1.all (fun e => match e.1 with | .encryptPlaintext _ p => decide (p = [1] ∨ p = [1, 2]) | _ => true) = true := by
    decide +kernel
  intro ns p r hm
  simpa using List.all_eq_true.1 h _ hm

theorem chat_fitting : Fitting chatRun.1 readRun.1 := by
  have hA := runProg_answers (Lib.env polite) Lib.next 100 (encrypt Mgr.ex ["a"] [("n", [1]), ("o", [1, 2])] none none) World.chat
  have hB := runProg_answers (Lib.env reader) Lib.next 100 (decrypt Mgr.phone chatMessage) World.chat
  refine ⟨?_, ?_, ?_⟩
  · intro ns e e' k m s m' he he' hw hg
    obtain ⟨w, hw'⟩ := hA e he
    obtain ⟨w', hg'⟩ := hB e' he'
    have h1 : k.blob = m.blob := by
      rcases hw with ⟨_, _, _, _, rfl⟩ | ⟨_, _, rfl⟩ <;> cases hw' <;> rfl
    have h2 : m'.blob = k.blob := by
      rcases hg with ⟨_, rfl⟩ | ⟨_, _, _, rfl⟩ <;> cases hg'; rfl
    cases m; cases m'; simp_all
  · intro ns p c m p' he he'
    obtain ⟨w, hw⟩ := hA _ he
    obtain ⟨w', hw'⟩ := hB _ he'
    cases hw; cases hw'
    rcases chat_plaintexts _ _ _ he with rfl | rfl <;> rfl
  · intro ns p c m he
    obtain ⟨w, hw⟩ := hA _ he
    cases hw
    rfl

example := C79_round_trip Mgr.ex Mgr.phone ["a"] [("n", [1]), ("o", [1, 2])] none none _ _ _ _ Mgr.ex_quiet chat_exec chat_once chat_addressed
  (chatMessage, ⟨1⟩) (by simp [chatMessage]) _ _ _ read_exec chat_fitting

theorem lastEval_of_find {t : List Ev} {dev : DeviceInfo} {l : TrustLevel}
    (h : (t.reverse.find? fun e => match e.1 with
      | .evalTrust d => decide (d.bareJid = dev.bareJid ∧ d.deviceId = dev.deviceId)
      | _ => false).any (fun e => match e with | ⟨.evalTrust d, .ok l'⟩ => decide (d = dev ∧ l' = l) | _ => false) = true) :
    LastEval t dev l := by
  generalize hf : t.reverse.find? _ = o at h
  cases o with
  | none => cases h
  | some e =>
    obtain ⟨_, u, v, hr, hu⟩ := List.find?_eq_some_iff_append.1 hf
    simp only [Option.any_some] at h
    split at h
    · rename_i d l'
      simp only [decide_eq_true_eq] at h
      obtain ⟨rfl, rfl⟩ := h
      refine ⟨v.reverse, u.reverse, ?_, fun e he d hj hd hop => ?_⟩
      · have := congrArg List.reverse hr
        simpa using this
      · have := hu e (by simpa using he)
        rw [hop] at this
        simp [hj, hd] at this
    · cases h

/-- The hypotheses of the second part are met as well. -/
theorem C79_example : ∃ x, (∃ k, keyForUs Mgr.phone x = some k) ∧ x.ns = "n" := by
  have ht : LastEval chatRun.1 ⟨["n"], [("n", true), ("o", true)], "a", 7, [7], "trusted", some "phone"⟩ .trusted :=
    lastEval_of_find (by decide +kernel)
  obtain ⟨x, _, hk, hns, _⟩ := C79_delivered Mgr.ex Mgr.phone ["a"] [("n", [1]), ("o", [1, 2])] none none _ _ _ Mgr.ex_quiet chat_exec
    chat_once chat_stay chat_addressed _ ⟨rfl, rfl⟩ ht rfl
  exact ⟨x.1, hk, by simpa using hns.symm⟩

end Verif
