import Verif.Props.Decrypt
/-
After a message was decrypted: pre keys (C42), the published bundle (C44), automatic replies (C45), results (C46, C47).
-/
namespace Verif
open Spec SM Foot

namespace SM
variable {M : Mgr} {msg : Message}

theorem Refilled.only {ns : Ns} {t : List Ev} (h : Refilled M ns t) :
    ∀ e ∈ t, e.1 = .numVisible ns ∨ ∃ n, e.1 = .generatePreKeys ns n ∧ 100 - M.threshold ≤ n := by
  cases h with
  | enough => simp
  | refill h =>
    intro e he
    simp only [List.mem_cons, List.not_mem_nil, or_false] at he
    rcases he with rfl | rfl
    · exact .inl rfl
    · exact .inr ⟨_, rfl, by have : _ ≤ M.threshold := h; omega⟩

/-- The parts of a successful `decrypt` in which no pre key is given up and no message sent. -/
theorem DecOk.before {t : List Ev} {p dev km ekm kex s pre t2 t3 gu rep} (h : DecOk M msg t p dev km ekm kex s pre t2 t3 gu rep) :
    ∀ e ∈ pre ++ (t2 ++ t3) ++ [(⟨.storeSession msg.ns s, .ok ()⟩ : Ev)],
      Op.preKeys e.1 = false ∧ Op.replies e.1 = false ∧ Op.publishes e.1 = false ∧ Op.givesUp e.1 = false ∧ e.1 ≠ .getSync := by
  intro e he
  simp only [List.mem_append, List.mem_singleton] at he
  rcases he with (he | he | he) | rfl
  · exact ((h.checks e he).quiet).2.2
  · exact (recovers_quiet (h.keys.recovers e he)).2
  · exact (recovers_quiet (h.opened.recovers e he)).2
  · exact ⟨rfl, rfl, rfl, rfl, nofun⟩

theorem Replied.quiet {ns : Ns} {s : Session} {t : List Ev} (h : Replied M ns s t) :
    ∀ e ∈ t, Op.preKeys e.1 = false ∧ Op.publishes e.1 = false ∧ Op.givesUp e.1 = false := by
  cases h <;> simp [Op.preKeys, Op.publishes, Op.givesUp]

theorem Republished.quiet {ns : Ns} {ch : Bool} {t : List Ev} (h : Republished M ns ch t) :
    ∀ e ∈ t, Op.replies e.1 = false ∧ Op.givesUp e.1 = false ∧ e.1 ≠ .getSync := by
  cases h with
  | unchanged => simp
  | changed h => cases h <;> simp [Op.replies, Op.givesUp]

end SM

/-! ### C42 -/

/-- C42, with key exchange: a successful `decrypt` gives up exactly one pre key, that of the session it used; it is hidden if the manager
is synchronizing the history, and deleted otherwise. -/
theorem C42_givesUp (M : Mgr) (msg : Message) (t : List Ev) (p : Option Bytes) (dev : DeviceInfo) (km : PlainKM)
    (he : Exec (decrypt M msg) t (.ok (p, dev, km))) (ekm : EncKM) (x : KeyExchange) (hk : keyForUs M msg = some (ekm, some x)) :
    ∃ s u v sync e, t = u ++ ⟨.getSync, .ok sync⟩ :: e :: v ∧ (e.1 = if sync then .hidePreKey msg.ns s else .deletePreKey msg.ns s) ∧
      (∃ g ∈ u, GaveKM msg.ns g ekm s km) ∧ ∀ e' ∈ u ++ v, Op.givesUp e'.1 = false := by
  obtain ⟨ekm', kex, s, pre, t2, t3, gu, rep, h⟩ := exec_decrypt_ok he
  have := h.key
  rw [hk] at this; cases this
  obtain ⟨g, h1, h2⟩ := h.keys.gave
  have hrep : ∀ e ∈ rep, Op.givesUp e.1 = false := by
    rcases h.replied with ⟨_, h⟩ | ⟨_, rfl⟩
    · exact fun e he => (h.quiet e he).2.2
    · simp
  have fin : ∀ {sync ch} {e : Ev} {t' : List Ev}, gu = ⟨.getSync, .ok sync⟩ :: e :: t' → Republished M msg.ns ch t' →
      (e.1 = if sync then .hidePreKey msg.ns s else .deletePreKey msg.ns s) →
      ∃ s u v sync e, t = u ++ ⟨.getSync, .ok sync⟩ :: e :: v ∧ (e.1 = if sync then .hidePreKey msg.ns s else .deletePreKey msg.ns s) ∧
      (∃ g ∈ u, GaveKM msg.ns g ekm s km) ∧ ∀ e' ∈ u ++ v, Op.givesUp e'.1 = false := by
    rintro sync ch e t' rfl hr heq
    refine ⟨s, pre ++ (t2 ++ t3) ++ [⟨.storeSession msg.ns s, .ok ()⟩], t' ++ rep, sync, e, by rw [h.eq]; simp, heq, ⟨g, by simp [h1], h2⟩, ?_⟩
    intro e' he'
    rcases List.mem_append.1 he' with he' | he'
    · exact (h.before e' he').2.2.2.1
    · rcases List.mem_append.1 he' with he' | he'
      · exact (hr.quiet e' he').2.1
      · exact hrep e' he'
  rcases h.givenUp with ⟨_, hg⟩ | ⟨hn, _⟩
  · cases hg with
    | hide hr => exact fin rfl hr rfl
    | delete hr => exact fin rfl hr rfl
  · cases hn

/-- C42, without key exchange: pre keys and the published bundle are not touched, however `decrypt` ends. -/
theorem C42_untouched (M : Mgr) (msg : Message) (t : List Ev) (r) (he : Exec (decrypt M msg) t r) (ekm : EncKM)
    (hk : keyForUs M msg = some (ekm, none)) : ∀ e ∈ t, Op.preKeys e.1 = false ∧ Op.publishes e.1 = false := by
  intro e hm
  rcases (exec_decrypt he).split with ⟨h1, _⟩ | ⟨ekm', kex, dev, rest, hk', hg, ht⟩
  · have := (h1 e hm).quiet
    exact ⟨this.2.2.1, this.2.2.2.2.1⟩
  rw [hk] at hk'; cases hk'
  obtain ⟨pre, rfl, hp⟩ := Gated.checks hg
  have rcv : ∀ {t2 : List Ev}, (∀ e ∈ t2, Op.recovers e.1 = true) → e ∈ t2 → Op.preKeys e.1 = false ∧ Op.publishes e.1 = false :=
    fun h hm => ⟨(recovers_quiet (h e hm)).2.1, (recovers_quiet (h e hm)).2.2.2.1⟩
  rcases List.mem_append.1 hm with h | h
  · have := (hp e h).quiet
    exact ⟨this.2.2.1, this.2.2.2.2.1⟩
  cases ht with
  | keys h2 => exact rcv h2.recovers h
  | content h2 h3 => exact (List.mem_append.1 h).elim (rcv h2.recovers) (rcv h3.recovers)
  | post h2 h3 h4 =>
    rcases List.mem_append.1 h with h | h
    · exact (List.mem_append.1 h).elim (rcv h2.recovers) (rcv h3.recovers)
    · have hl := ops_postDecrypt.exec h4 _ h
      have : ∀ {o : Op}, late false o = true → Op.preKeys o = false ∧ Op.publishes o = false := by
        intro o h
        unfold late at h
        split at h <;> first | (cases h; done) | exact ⟨rfl, rfl⟩
      exact this hl

/-! ### C44 -/

/-- C44: if `decrypt` succeeds and giving up the pre key changed the visible pre keys, then the bundle was obtained after all changes to
the pre keys, and uploaded; nothing was uploaded otherwise. -/
theorem C44_published (M : Mgr) (msg : Message) (t : List Ev) (p : Option Bytes) (dev : DeviceInfo) (km : PlainKM)
    (he : Exec (decrypt M msg) t (.ok (p, dev, km)))
    (hc : ∃ s, (⟨.hidePreKey msg.ns s, .ok true⟩ : Ev) ∈ t ∨ (⟨.deletePreKey msg.ns s, .ok true⟩ : Ev) ∈ t) :
    ∃ u b v, t = u ++ ⟨.getBundle msg.ns M.ownJid M.ownDev, .ok b⟩ :: ⟨.uploadBundle b, .ok ()⟩ :: v ∧
      (∀ e ∈ v, Op.preKeys e.1 = false) ∧ ∀ e ∈ u ++ v, Op.publishes e.1 = false := by
  obtain ⟨ekm, kex, s, pre, t2, t3, gu, rep, h⟩ := exec_decrypt_ok he
  have hrep : ∀ e ∈ rep, Op.preKeys e.1 = false ∧ Op.publishes e.1 = false ∧ Op.givesUp e.1 = false := by
    rcases h.replied with ⟨_, h⟩ | ⟨_, rfl⟩
    · exact h.quiet
    · simp
  have hc : ∃ s, (⟨.hidePreKey msg.ns s, .ok true⟩ : Ev) ∈ gu ∨ (⟨.deletePreKey msg.ns s, .ok true⟩ : Ev) ∈ gu := by
    obtain ⟨s', hc⟩ := hc
    have out : ∀ e : Ev, Op.givesUp e.1 = true → e ∈ t → e ∈ gu := by
      intro e hg hm
      rw [h.eq] at hm
      have hb := h.before e
      simp only [List.mem_append, List.mem_cons, List.not_mem_nil, or_false] at hm hb
      rcases hm with hm | hm | hm | hm | hm | hm
      · rw [(hb (.inl (.inl hm))).2.2.2.1] at hg; cases hg
      · rw [(hb (.inl (.inr (.inl hm)))).2.2.2.1] at hg; cases hg
      · rw [(hb (.inl (.inr (.inr hm)))).2.2.2.1] at hg; cases hg
      · rw [(hb (.inr hm)).2.2.2.1] at hg; cases hg
      · exact hm
      · rw [(hrep e hm).2.2] at hg; cases hg
    exact ⟨s', hc.imp (out _ rfl) (out _ rfl)⟩
  have fin : ∀ {a b : Ev} {t' : List Ev}, gu = a :: b :: t' → Op.publishes a.1 = false → Op.publishes b.1 = false →
      Republished M msg.ns true t' → ∃ u b v, t = u ++ ⟨.getBundle msg.ns M.ownJid M.ownDev, .ok b⟩ :: ⟨.uploadBundle b, .ok ()⟩ :: v ∧
      (∀ e ∈ v, Op.preKeys e.1 = false) ∧ ∀ e ∈ u ++ v, Op.publishes e.1 = false := by
    rintro a b t' rfl ha hb hr
    cases hr with
    | @changed tr bu hr =>
      refine ⟨pre ++ (t2 ++ t3) ++ [⟨.storeSession msg.ns s, .ok ()⟩] ++ (a :: b :: tr), bu, rep, by rw [h.eq]; simp,
        fun e he => (hrep e he).1, ?_⟩
      intro e he
      rcases List.mem_append.1 he with he | he
      · rcases List.mem_append.1 he with he | he
        · exact (h.before e he).2.2.1
        · rcases List.mem_cons.1 he with rfl | he
          · exact ha
          · rcases List.mem_cons.1 he with rfl | he
            · exact hb
            · rcases hr.only e he with h | ⟨n, h, _⟩ <;> rw [h] <;> rfl
      · exact (hrep e he).2.1
  have no : ∀ {t' : List Ev} {ch s'}, Republished M msg.ns ch t' →
      ¬ ((⟨.hidePreKey msg.ns s', .ok true⟩ : Ev) ∈ t' ∨ (⟨.deletePreKey msg.ns s', .ok true⟩ : Ev) ∈ t') := by
    rintro t' ch s' hr (hm | hm) <;> cases (hr.quiet _ hm).2.1
  obtain ⟨s', hc⟩ := hc
  rcases h.givenUp with ⟨_, hg⟩ | ⟨hn, rfl⟩
  · cases hg with
    | @hide ch t' hr =>
      have : ch = true := by
        simp only [List.mem_cons] at hc
        rcases hc with (hc | hc | hc) | (hc | hc | hc)
        · cases hc
        · cases hc; rfl
        · exact absurd (.inl hc) (no hr)
        · cases hc
        · cases hc
        · exact absurd (.inr hc) (no hr)
      subst this
      exact fin rfl rfl rfl hr
    | @delete ch t' hr =>
      have : ch = true := by
        simp only [List.mem_cons] at hc
        rcases hc with (hc | hc | hc) | (hc | hc | hc)
        · cases hc
        · cases hc
        · exact absurd (.inl hc) (no hr)
        · cases hc
        · cases hc; rfl
        · exact absurd (.inr hc) (no hr)
      subst this
      exact fin rfl rfl rfl hr
  · rcases hc with hc | hc <;> cases hc

/-! ### C45 -/

/-- A message is sent: the empty content with one key, encrypted with session `s` in the backend `ns`. -/
def Spec.SendsEmpty (M : Mgr) (ns : Ns) (s : Session) (h : List Ev) (e : Ev) : Prop :=
  ∃ c m k s' kx, (⟨.encryptEmpty ns, .ok (c, m)⟩ : Ev) ∈ h ∧ (⟨.encryptKM ns s m, .ok (k, s')⟩ : Ev) ∈ h ∧
    e.1 = .sendMessage ⟨ns, M.ownJid, M.ownDev, c, [(k, kx)]⟩ s'.bareJid

/-- A message for session `s` is queued: the device is in the stored queue of its JID, and the JID in that of the namespace. -/
def Spec.QueuesEmpty (s : Session) (h : List Ev) (e : Ev) : Prop :=
  ∃ l l', e.1 = .store (.queueJid s.ns s.bareJid) (.ofInts l) ∧ s.deviceId ∈ l ∧ (⟨.store (.queue s.ns) (.ofStrs l'), .ok ()⟩ : Ev) ∈ h ∧ s.bareJid ∈ l'

/-- C45: when `decrypt` succeeds, and the session returned with the key material is `s`, then exactly one empty message is sent or queued
for `s` if one is due, and none otherwise; it is queued if the manager is synchronizing the history, and sent otherwise. -/
theorem C45_reply (M : Mgr) (msg : Message) (t : List Ev) (p : Option Bytes) (dev : DeviceInfo) (km : PlainKM)
    (he : Exec (decrypt M msg) t (.ok (p, dev, km))) :
    ∃ ekm kex s, keyForUs M msg = some (ekm, kex) ∧ (∃ g ∈ t, GaveKM msg.ns g ekm s km) ∧
      (ReplyDue kex s → ∃ sync u e v, t = u ++ e :: v ∧ LastSync u sync ∧ (∀ x ∈ u ++ v, Op.replies x.1 = false) ∧
        if sync then QueuesEmpty s u e else SendsEmpty M msg.ns s u e) ∧
      (¬ ReplyDue kex s → ∀ x ∈ t, Op.replies x.1 = false) := by
  obtain ⟨ekm, kex, s, pre, t2, t3, gu, rep, h⟩ := exec_decrypt_ok he
  obtain ⟨g, h1, h2⟩ := h.keys.gave
  have hgu : ∀ e ∈ gu, Op.replies e.1 = false := by
    rcases h.givenUp with ⟨_, hg⟩ | ⟨_, rfl⟩
    · have key : ∀ {a b : Ev} {ch} {t' : List Ev}, Op.replies a.1 = false → Op.replies b.1 = false → Republished M msg.ns ch t' →
          ∀ e ∈ a :: b :: t', Op.replies e.1 = false := by
        intro a b ch t' ha hb hr e he
        rcases List.mem_cons.1 he with rfl | he
        · exact ha
        · rcases List.mem_cons.1 he with rfl | he
          · exact hb
          · exact (hr.quiet e he).1
      cases hg with
      | hide hr => exact key rfl rfl hr
      | delete hr => exact key rfl rfl hr
    · simp
  have hfirst : ∀ e ∈ pre ++ (t2 ++ t3) ++ [(⟨.storeSession msg.ns s, .ok ()⟩ : Ev)] ++ gu, Op.replies e.1 = false := by
    intro e he
    rcases List.mem_append.1 he with he | he
    · exact (h.before e he).2.1
    · exact hgu e he
  have heq : t = (pre ++ (t2 ++ t3) ++ [(⟨.storeSession msg.ns s, .ok ()⟩ : Ev)] ++ gu) ++ rep := by rw [h.eq]; simp
  generalize pre ++ (t2 ++ t3) ++ [(⟨.storeSession msg.ns s, .ok ()⟩ : Ev)] ++ gu = w at heq hfirst
  refine ⟨ekm, kex, s, h.key, ⟨g, by rw [h.eq]; simp [h1], h2⟩, fun hd => ?_, fun hd => ?_⟩
  · rcases h.replied with ⟨_, hr⟩ | ⟨hn, _⟩
    · subst heq
      cases hr with
      | @queue o o' l l' a1 a2 =>
        refine ⟨true, w ++ [⟨.getSync, .ok true⟩, ⟨.load (.queue s.ns), .ok o⟩, ⟨.store (.queue s.ns) (.ofStrs l), .ok ()⟩,
          ⟨.load (.queueJid s.ns s.bareJid), .ok o'⟩], _, [], by rw [List.append_assoc]; rfl,
          ⟨w, [⟨.load (.queue s.ns), .ok o⟩, ⟨.store (.queue s.ns) (.ofStrs l), .ok ()⟩, ⟨.load (.queueJid s.ns s.bareJid), .ok o'⟩], rfl,
            by simp⟩, ?_, ?_⟩
        · intro x hx
          rw [List.append_nil] at hx
          rcases List.mem_append.1 hx with hx | hx
          · exact hfirst x hx
          · simp only [List.mem_cons, List.not_mem_nil, or_false] at hx
            rcases hx with rfl | rfl | rfl | rfl <;> rfl
        · exact ⟨l', l, rfl, a2, by simp, a1⟩
      | @send c m k s' =>
        refine ⟨false, w ++ [⟨.getSync, .ok false⟩, ⟨.encryptEmpty msg.ns, .ok (c, m)⟩, ⟨.encryptKM msg.ns s m, .ok (k, s')⟩], _,
          [⟨.storeSession msg.ns s', .ok ()⟩], by rw [List.append_assoc]; rfl,
          ⟨w, [⟨.encryptEmpty msg.ns, .ok (c, m)⟩, ⟨.encryptKM msg.ns s m, .ok (k, s')⟩], rfl, by simp⟩, ?_, ?_⟩
        · intro x hx
          simp only [List.append_assoc] at hx
          rcases List.mem_append.1 hx with hx | hx
          · exact hfirst x hx
          · simp only [List.cons_append, List.nil_append, List.mem_cons, List.not_mem_nil, or_false] at hx
            rcases hx with rfl | rfl | rfl | rfl <;> rfl
        · exact ⟨c, m, k, s', _, by simp, by simp, rfl⟩
    · exact absurd hd hn
  · rcases h.replied with ⟨hn, _⟩ | ⟨_, rfl⟩
    · exact absurd hn hd
    · rw [List.append_nil] at heq
      subst heq
      exact hfirst

/-! ### C46 -/

/-- C46: the plaintext returned is `None` exactly for empty messages, and otherwise what the backend decrypted from the content of the
message with the key material recovered from the key for this device, which is also returned. -/
theorem C46_plaintext (M : Mgr) (msg : Message) (t : List Ev) (p : Option Bytes) (dev : DeviceInfo) (km : PlainKM)
    (he : Exec (decrypt M msg) t (.ok (p, dev, km))) :
    (p = none ↔ msg.content.empty = true) ∧ (∀ b, p = some b → (⟨.decryptPlaintext msg.ns msg.content km, .ok b⟩ : Ev) ∈ t) ∧
      ∃ ekm kex s, keyForUs M msg = some (ekm, kex) ∧ ∃ g ∈ t, GaveKM msg.ns g ekm s km := by
  obtain ⟨ekm, kex, s, pre, t2, t3, gu, rep, h⟩ := exec_decrypt_ok he
  obtain ⟨g, h1, h2⟩ := h.keys.gave
  have h3 : ∀ e ∈ t3, e ∈ t := fun e he => by rw [h.eq]; simp [he]
  refine ⟨?_, ?_, ekm, kex, s, h.key, g, by rw [h.eq]; simp [h1], h2⟩
  · cases h.opened with
    | empty hc => simp [hc]
    | opened hc => simp [hc]
  · cases h.opened with
    | empty h => simp
    | opened h => rintro b ⟨⟩; exact h3 _ (List.mem_singleton_self _)

/-! ### C47 -/

/-- Weaker than C47, which is about all messages: if the message has no key exchange and no empty message is due for the session, then once
the session has been stored `decrypt` returns the plaintext, whatever happens. -/
theorem C47_partial (M : Mgr) (msg : Message) (t : List Ev) (r) (he : Exec (decrypt M msg) t r) (s : Session)
    (hs : (⟨.storeSession msg.ns s, .ok ()⟩ : Ev) ∈ t) (ekm : EncKM) (hk : keyForUs M msg = some (ekm, none))
    (hg : ∀ g ∈ t, ∀ s km, GaveKM msg.ns g ekm s km → ∀ n, s.receivingChainLength = some n → n ≤ 53) :
    ∃ p dev km, r = .ok (p, dev, km) := by
  have nost : ∀ {w : List Ev}, (∀ e ∈ w, Op.lasting e.1 = false) → (⟨.storeSession msg.ns s, .ok ()⟩ : Ev) ∉ w := fun h hm => by
    cases h _ hm
  rcases (exec_decrypt he).split with ⟨h1, _⟩ | ⟨ekm', kex, dev, rest, hk', hgt, ht⟩
  · exact absurd hs (nost fun e he => ((h1 e he).quiet).2.1)
  rw [hk] at hk'; cases hk'
  obtain ⟨pre, rfl, hp⟩ := Gated.checks hgt
  replace hs : (⟨.storeSession msg.ns s, .ok ()⟩ : Ev) ∈ rest :=
    (List.mem_append.1 hs).elim (fun h => absurd h (nost fun e he => ((hp e he).quiet).2.1)) id
  have rcv : ∀ {t2 : List Ev}, (∀ e ∈ t2, Op.recovers e.1 = true) → (⟨.storeSession msg.ns s, .ok ()⟩ : Ev) ∉ t2 := fun h =>
    nost fun e he => (recovers_quiet (h e he)).1
  cases ht with
  | keys h2 => exact absurd hs (rcv h2.recovers)
  | content h2 h3 => exact (List.mem_append.1 hs).elim (fun h => absurd h (rcv h2.recovers)) fun h => absurd h (rcv h3.recovers)
  | @post t2 s' km t3 p t4 _ r' h2 h3 h4 hr =>
    replace hs : (⟨.storeSession msg.ns s, .ok ()⟩ : Ev) ∈ t4 := by
      rcases List.mem_append.1 hs with h | h
      · exact (List.mem_append.1 h).elim (fun h => absurd h (rcv h2.recovers)) fun h => absurd h (rcv h3.recovers)
      · exact h
    obtain ⟨g, hg1, hg2⟩ := h2.gave
    have hn : ¬ ReplyDue none s' := by
      rintro (h | ⟨n, h, hlt⟩)
      · cases h
      · have := hg g (by simp [hg1]) s' km hg2 n h
        omega
    have hok : r' = .ok () := by
      rcases exec_postDecrypt h4 with ⟨rfl, _⟩ | ⟨e, rfl, _⟩ | ⟨t', rfl, h⟩
      · cases hs
      · simp at hs
      · simp only [Prog.when, ne_eq, not_true_eq_false, if_false] at h
        unfold autoReply at h
        replace h := exec_when.1 h
        rcases h with ⟨hd, _⟩ | ⟨_, _, h⟩
        · exact absurd (replyDue_iff.1 hd) hn
        · exact h
    rcases hr with ⟨_, rfl⟩ | ⟨e, h, _⟩ | ⟨h, _⟩
    · exact ⟨p, dev, km, rfl⟩
    · rw [hok] at h; cases h
    · rw [hok] at h; cases h

/-- C47, where failures come from: if `decrypt` raises although the session has been stored, then the exception was raised by an
interaction after that, or a stored queue is malformed. -/
theorem C47_cause_partial (M : Mgr) (msg : Message) (t : List Ev) (y : Exn) (he : Exec (decrypt M msg) t (.raised y)) (s : Session)
    (hs : (⟨.storeSession msg.ns s, .ok ()⟩ : Ev) ∈ t) (hy : y ≠ .typeError) :
    ∃ s u v, t = u ++ ⟨.storeSession msg.ns s, .ok ()⟩ :: v ∧ ErrIn v y := by
  have nost : ∀ {w : List Ev}, (∀ e ∈ w, Op.lasting e.1 = false) → (⟨.storeSession msg.ns s, .ok ()⟩ : Ev) ∉ w := fun h hm => by
    cases h _ hm
  rcases (exec_decrypt he).split with ⟨h1, _⟩ | ⟨ekm, kex, dev, rest, hk, hgt, ht⟩
  · exact absurd hs (nost fun e he => ((h1 e he).quiet).2.1)
  obtain ⟨pre, rfl, hp⟩ := Gated.checks hgt
  replace hs : (⟨.storeSession msg.ns s, .ok ()⟩ : Ev) ∈ rest :=
    (List.mem_append.1 hs).elim (fun h => absurd h (nost fun e he => ((hp e he).quiet).2.1)) id
  have rcv : ∀ {t2 : List Ev}, (∀ e ∈ t2, Op.recovers e.1 = true) → (⟨.storeSession msg.ns s, .ok ()⟩ : Ev) ∉ t2 := fun h =>
    nost fun e he => (recovers_quiet (h e he)).1
  cases ht with
  | keys h2 => exact absurd hs (rcv h2.recovers)
  | content h2 h3 => exact (List.mem_append.1 hs).elim (fun h => absurd h (rcv h2.recovers)) fun h => absurd h (rcv h3.recovers)
  | @post t2 s' km t3 p t4 _ r' h2 h3 h4 hr =>
    replace hs : (⟨.storeSession msg.ns s, .ok ()⟩ : Ev) ∈ t4 := by
      rcases List.mem_append.1 hs with h | h
      · exact (List.mem_append.1 h).elim (fun h => absurd h (rcv h2.recovers)) fun h => absurd h (rcv h3.recovers)
      · exact h
    have hr' : r' = .raised y := by
      rcases hr with ⟨_, h⟩ | ⟨e, h, h'⟩ | ⟨_, h⟩
      · cases h
      · rw [h]; cases h'; rfl
      · cases h
    subst hr'
    rcases exec_postDecrypt h4 with ⟨rfl, _⟩ | ⟨e, rfl, _⟩ | ⟨t', rfl, h⟩
    · cases hs
    · simp at hs
    · refine ⟨s', pre ++ (t2 ++ t3), t', by simp, ?_⟩
      have hra : Raises (S := LibSig) (fun _ e => e ≠ y) (· ≠ y)
          (Prog.when (kex ≠ none) (consumePreKey M msg.ns s') >>= fun _ => autoReply M msg.ns kex s') := by
        have hl : ∀ k, Raises (S := LibSig) (fun _ e => e ≠ y) (· ≠ y) (Sto.loadStrs k) := fun k =>
          .bind (.perform fun _ h => h) fun _ => raises_fmap fun _ _ he => by rw [checkList_error (map_error he)]; exact hy.symm
        have hl' : ∀ k, Raises (S := LibSig) (fun _ e => e ≠ y) (· ≠ y) (Sto.loadInts k) := fun k =>
          .bind (.perform fun _ h => h) fun _ => raises_fmap fun _ _ he => by rw [checkList_error (map_error he)]; exact hy.symm
        have hc : ∀ o, Raises (S := LibSig) (fun _ e => e ≠ y) (· ≠ y) (call o) := fun o => .perform fun _ h => h
        unfold consumePreKey discardPreKey refillPreKeys autoReply queueEmpty sendEmptyMessage
        refine .bind (.when fun _ => .bind (hc _) fun sync => .bind ?_ fun _ => .when fun _ => .bind ?_ fun _ => .bind (hc _) fun _ => hc _)
          fun _ => .when fun _ => .bind (hc _) fun sync => ?_
        · split <;> exact hc _
        · exact .bind (hc _) fun _ => .when fun _ => hc _
        · split
          · exact .bind (hl _) fun _ => .bind (hc _) fun _ => .bind (hl' _) fun _ => hc _
          · exact .bind (hc _) fun x => .bind (hc _) fun z => .bind (hc _) fun _ => hc _
      apply Classical.byContradiction
      intro hno
      exact hra.exec h (fun x hx z hz hzy => hno ⟨x, hx, by rw [hz, hzy]⟩) rfl

/-! ### Concrete runs -/

/-- A message from device 7 of "a", with a key exchange. -/
def kexMessage : Message := ⟨"n", "a", 7, ⟨false, 5⟩, [(⟨"me", 1, 3⟩, some ⟨[7], 0⟩)]⟩
/-- The same message without key exchange. -/
def plainMessage : Message := { kexMessage with keys := [(⟨"me", 1, 3⟩, none)] }
/-- A key exchange with a foreign identity key. -/
def foreignMessage : Message := { kexMessage with keys := [(⟨"me", 1, 3⟩, some ⟨[9], 0⟩)] }

def kexRun := runProg (Lib.env friendly) Lib.next 200 (decrypt Mgr.ex kexMessage) World.chat
def syncRun := runProg (Lib.env friendly) Lib.next 200 (decrypt Mgr.ex kexMessage) { World.chat with sync := true }
def plainRun := runProg (Lib.env friendly) Lib.next 200 (decrypt Mgr.ex plainMessage) World.chat
def foreignRun := runProg (Lib.env friendly) Lib.next 200 (decrypt Mgr.ex foreignMessage) World.chat

def phone : DeviceInfo := ⟨["n", "o"], [("n", true), ("o", true)], "a", 7, [7], "trusted", some "phone"⟩

theorem kex_exec : Exec (decrypt Mgr.ex kexMessage) kexRun.1 (.ok (some [5, 3], phone, ⟨3⟩)) := runProg_exec ..
theorem sync_exec : Exec (decrypt Mgr.ex kexMessage) syncRun.1 (.ok (some [5, 3], phone, ⟨3⟩)) := runProg_exec ..
theorem plain_exec : Exec (decrypt Mgr.ex plainMessage) plainRun.1 (.ok (some [5, 3], phone, ⟨3⟩)) := runProg_exec ..
theorem foreign_exec : Exec (decrypt Mgr.ex foreignMessage) foreignRun.1 (.raised .publicDataInconsistency) := runProg_exec ..

/-- An interaction of a run, found by a Boolean test. -/
theorem any_mem {t : List Ev} {f : Ev → Bool} (h : t.any f = true) : ∃ e ∈ t, f e = true := List.any_eq_true.1 h

def isDecryptKM : Ev → Bool | ⟨.decryptKM .., .ok _⟩ => true | _ => false
def isBuild : Ev → Bool | ⟨.buildPassive .., .ok _⟩ => true | _ => false
def isPlain : Ev → Bool | ⟨.decryptPlaintext .., .ok _⟩ => true | _ => false
def isStored : Ev → Bool | ⟨.storeSession .., .ok _⟩ => true | _ => false
def isSent : Ev → Bool | ⟨.sendMessage .., .ok _⟩ => true | _ => false
def isQueued : Ev → Bool | ⟨.store (.queueJid ..) _, .ok _⟩ => true | _ => false
def isDeleted : Ev → Bool | ⟨.deletePreKey ns _, .ok true⟩ => decide (ns = "n") | _ => false
def isHidden : Ev → Bool | ⟨.hidePreKey ns _, .ok true⟩ => decide (ns = "n") | _ => false

/-- With key exchange: a session is built, the pre key deleted, the bundle published, an empty message sent. -/
theorem kex_effects : (kexRun.1.any isBuild && kexRun.1.any isPlain && kexRun.1.any isStored && kexRun.1.any isDeleted && !kexRun.1.any isHidden &&
    kexRun.1.any isSent && !kexRun.1.any isQueued && !kexRun.1.any isDecryptKM && kexRun.1.any fun e => Op.publishes e.1) = true := by decide +kernel
/-- During history synchronization: the pre key is hidden, the message queued. -/
theorem sync_effects : (syncRun.1.any isBuild && syncRun.1.any isPlain && syncRun.1.any isStored && !syncRun.1.any isDeleted && syncRun.1.any isHidden &&
    !syncRun.1.any isSent && syncRun.1.any isQueued && syncRun.1.any fun e => Op.publishes e.1) = true := by decide +kernel
/-- Without key exchange: the stored session is used and stored again, nothing else. -/
theorem plain_effects : (plainRun.1.any isDecryptKM && plainRun.1.any isPlain && plainRun.1.any isStored && !plainRun.1.any isSent &&
    !plainRun.1.any isQueued && !plainRun.1.any fun e => Op.preKeys e.1) = true := by decide +kernel

theorem kex_key : keyForUs Mgr.ex kexMessage = some (⟨"me", 1, 3⟩, some ⟨[7], 0⟩) := by decide +kernel
theorem plain_key : keyForUs Mgr.ex plainMessage = some (⟨"me", 1, 3⟩, none) := by decide +kernel
theorem foreign_key : keyForUs Mgr.ex foreignMessage = some (⟨"me", 1, 3⟩, some ⟨[9], 0⟩) := by decide +kernel

example := C38_result Mgr.ex kexMessage _ _ _ _ kex_exec
example : ∃ e ∈ kexRun.1, ∃ dev rest, Gated Mgr.ex kexMessage kexRun.1 dev rest ∧ e ∈ rest := by
  have h : kexRun.1.any (fun e => Op.recovers e.1) = true := by decide +kernel
  obtain ⟨e, he, h⟩ := any_mem h
  exact ⟨e, he, (C38_gated Mgr.ex kexMessage _ _ kex_exec e he (.inl h)).2⟩

/-- A message for another device, for a backend that is not loaded, and from a distrusted device. -/
def otherMessage : Message := { kexMessage with keys := [(⟨"me", 2, 3⟩, none)] }
def alienMessage : Message := { kexMessage with ns := "x" }
def World.betrayed : World := { World.chat with disk := World.chat.disk.upd (.trust "a" [7]) (some (.str "bad")) }
def betrayedRun := runProg (Lib.env friendly) Lib.next 200 (decrypt Mgr.ex kexMessage) World.betrayed

def otherRun := runProg (Lib.env friendly) Lib.next 200 (decrypt Mgr.ex otherMessage) World.chat
def alienRun := runProg (Lib.env friendly) Lib.next 200 (decrypt Mgr.ex alienMessage) World.chat

example : Exec (decrypt Mgr.ex otherMessage) otherRun.1 (.raised .messageNotForUs) := runProg_exec ..
example : Exec (decrypt Mgr.ex alienMessage) alienRun.1 (.raised .unknownNamespace) := runProg_exec ..

example : ∃ dev, (⟨.evalTrust dev, .ok .distrusted⟩ : Ev) ∈ betrayedRun.1 ∧
    ∃ r, Exec (decrypt Mgr.ex kexMessage) betrayedRun.1 r ∧ r = .raised .senderDistrusted := by
  have h : betrayedRun.1.any (fun e => match e with | ⟨.evalTrust _, .ok .distrusted⟩ => true | _ => false) = true := by decide +kernel
  obtain ⟨e, he, h⟩ := any_mem h
  split at h
  · have hx := runProg_exec (Lib.env friendly) Lib.next 200 (decrypt Mgr.ex kexMessage) World.betrayed
    exact ⟨_, he, _, hx, (C38_distrusted Mgr.ex kexMessage _ _ _ hx he).1⟩
  · cases h

example : ∃ e ∈ kexRun.1, Op.recovers e.1 = true ∧ ∃ dev rest, Gated Mgr.ex kexMessage kexRun.1 dev rest ∧ ([7] : Bytes) = dev.identityKey := by
  have h : kexRun.1.any (fun e => Op.recovers e.1) = true := by decide +kernel
  obtain ⟨e, he, h⟩ := any_mem h
  exact ⟨e, he, h, C39_matching Mgr.ex kexMessage _ _ kex_exec _ _ kex_key e he (.inl h)⟩

/-- The foreign key exchange passes the checks of C38 and is rejected after them. -/
example : ∃ u dev l, foreignRun.1 = u ++ [⟨.evalTrust dev, .ok l⟩] := by
  have h : foreignRun.1.any (fun e => match e with | ⟨.evalTrust dev, .ok .trusted⟩ => decide (dev.identityKey = [7]) | _ => false) = true := by
    decide +kernel
  obtain ⟨e, he, h⟩ := any_mem h
  split at h
  · rename_i dev
    simp only [decide_eq_true_eq] at h
    obtain ⟨_, u, l, hu⟩ := C39_rejected Mgr.ex foreignMessage _ _ foreign_exec _ _ foreign_key dev _ he nofun (by rw [h]; decide)
    exact ⟨u, dev, l, hu⟩
  · cases h

example := C40_stored Mgr.ex kexMessage _ _ _ _ kex_exec
example : ∃ e ∈ kexRun.1, Op.lasting e.1 = true := by
  have h : kexRun.1.any (fun e => Op.lasting e.1) = true := by decide +kernel
  exact any_mem h

/-- Like `friendly`, but content cannot be decrypted. -/
def tampered : World → (o : Op) → Except Exn o.Ret
  | _, .decryptPlaintext .. => .error .decryptionFailed
  | w, o => friendly w o
def tamperedRun := runProg (Lib.env tampered) Lib.next 200 (decrypt Mgr.ex kexMessage) World.chat
theorem tampered_exec : Exec (decrypt Mgr.ex kexMessage) tamperedRun.1 (.raised .decryptionFailed) := runProg_exec ..

/-- Key material was recovered, but not the content: nothing lasting happens. -/
example : tamperedRun.1.any isBuild = true ∧ ∀ e ∈ tamperedRun.1, Op.lasting e.1 = false := by
  refine ⟨by decide +kernel, C40_failed Mgr.ex kexMessage _ _ tampered_exec (.inr ⟨rfl, fun km p hm => ?_⟩)⟩
  have h := runProg_answers (Lib.env tampered) Lib.next 200 (decrypt Mgr.ex kexMessage) World.chat
  obtain ⟨w, hw⟩ := h _ hm
  cases hw

/-- The session of the run with key exchange is built anew: the stored one was initiated actively. -/
example : ∃ e ∈ kexRun.1, isBuild e = true := any_mem (by decide +kernel)
example : ∃ e ∈ plainRun.1, isDecryptKM e = true := any_mem (by decide +kernel)

/-- The stored session was built by the same key exchange. -/
def remembering : World → (o : Op) → Except Exn o.Ret
  | _, .loadSession ns j d => .ok (some ⟨ns, j, d, .passive, true, ⟨[7], 0⟩, some 1, 0, 1⟩)
  | w, o => friendly w o
def againRun := runProg (Lib.env remembering) Lib.next 200 (decrypt Mgr.ex kexMessage) World.chat
theorem again_exec : Exec (decrypt Mgr.ex kexMessage) againRun.1 (.ok (some [5, 3], phone, ⟨3⟩)) := runProg_exec ..
theorem again_effects : (againRun.1.any isDecryptKM && !againRun.1.any isBuild) = true := by decide +kernel
example := C41_once Mgr.ex kexMessage _ _ _ _ again_exec

/-- There is no session. -/
def forgetful : World → (o : Op) → Except Exn o.Ret
  | _, .loadSession .. => .ok none
  | w, o => friendly w o
def lostRun := runProg (Lib.env forgetful) Lib.next 200 (decrypt Mgr.ex plainMessage) World.chat
example : ∃ r, Exec (decrypt Mgr.ex plainMessage) lostRun.1 r ∧ r = .raised .noSession := by
  have h : lostRun.1.any (fun e => match e with | ⟨.loadSession .., .ok none⟩ => true | _ => false) = true := by decide +kernel
  obtain ⟨e, he, h⟩ := any_mem h
  split at h
  · have hx := runProg_exec (Lib.env forgetful) Lib.next 200 (decrypt Mgr.ex plainMessage) World.chat
    exact ⟨_, hx, C41_noSession Mgr.ex plainMessage _ _ hx _ _ _ _ plain_key he⟩
  · cases h

example := C42_givesUp Mgr.ex kexMessage _ _ _ _ kex_exec _ _ kex_key
example := C42_givesUp Mgr.ex kexMessage _ _ _ _ sync_exec _ _ kex_key
example := C42_untouched Mgr.ex plainMessage _ _ plain_exec _ plain_key

example : ∃ u b v, kexRun.1 = u ++ ⟨.getBundle "n" "me" 1, .ok b⟩ :: ⟨.uploadBundle b, .ok ()⟩ :: v := by
  have h : kexRun.1.any isDeleted = true := by decide +kernel
  obtain ⟨e, he, h⟩ := any_mem h
  unfold isDeleted at h
  split at h
  · rename_i ns s
    simp only [decide_eq_true_eq] at h
    subst h
    obtain ⟨u, b, v, h, _⟩ := C44_published Mgr.ex kexMessage _ _ _ _ kex_exec ⟨s, .inr he⟩
    exact ⟨u, b, v, h⟩
  · cases h

example := C45_reply Mgr.ex kexMessage _ _ _ _ kex_exec
example := C45_reply Mgr.ex kexMessage _ _ _ _ sync_exec
example := C45_reply Mgr.ex plainMessage _ _ _ _ plain_exec
example := C46_plaintext Mgr.ex kexMessage _ _ _ _ kex_exec

/-- C47 as stated in the list of properties: if the content was decrypted and the session stored, and the process does not die, `decrypt`
returns. -/
def C47_Claim : Prop :=
  ∀ (M : Mgr) (msg : Message) (w w' : World) (t : List Ev) (r), Exec (decrypt M msg) t r → Lib.Runs w t w' → r ≠ .crashed →
    (∃ km p, (⟨.decryptPlaintext msg.ns msg.content km, .ok p⟩ : Ev) ∈ t) → (∃ s, (⟨.storeSession msg.ns s, .ok ()⟩ : Ev) ∈ t) →
    ∃ a, r = .ok a

/-- Like `friendly`, but messages cannot be sent. -/
def offline : World → (o : Op) → Except Exn o.Ret
  | _, .sendMessage .. => .error .messageSendingFailed
  | w, o => friendly w o

theorem offline_ok (w : World) (o : Op) (e : Exn) (h : offline w o = .error e) : e.isInternal = false := by
  cases o <;> cases h <;> rfl

def offlineRun := runProg (Lib.env offline) Lib.next 200 (decrypt Mgr.ex kexMessage) World.chat
theorem offline_exec : Exec (decrypt Mgr.ex kexMessage) offlineRun.1 (.raised .messageSendingFailed) := runProg_exec ..

/-- C47 is false of the code: the automatic reply fails, the exception replaces the plaintext, and the message cannot be decrypted again
because the advanced session has been stored. -/
theorem C47_refuted : ¬ C47_Claim := by
  intro h
  have h1 : offlineRun.1.any (fun e => match e with
      | ⟨.decryptPlaintext ns c _, .ok _⟩ => decide (ns = "n" ∧ c = ⟨false, 5⟩) | _ => false) = true := by decide +kernel
  have h2 : offlineRun.1.any (fun e => match e with | ⟨.storeSession ns _, .ok _⟩ => decide (ns = "n") | _ => false) = true := by decide +kernel
  obtain ⟨e1, he1, h1⟩ := any_mem h1
  obtain ⟨e2, he2, h2⟩ := any_mem h2
  obtain ⟨a, ha⟩ := h Mgr.ex kexMessage World.chat _ offlineRun.1 _ offline_exec
    (runProg_runs Lib (Lib.env offline) (Lib.env_ok offline offline_ok) 200 _ World.chat) nofun (by
      split at h1
      · simp only [decide_eq_true_eq] at h1
        obtain ⟨rfl, rfl⟩ := h1
        exact ⟨_, _, he1⟩
      · cases h1) (by
      split at h2
      · simp only [decide_eq_true_eq] at h2
        subst h2
        exact ⟨_, he2⟩
      · cases h2)
  cases ha

/-- The hypotheses of `C47_partial` and `C47_cause_partial` are met. -/
example : ∃ p dev km, (.ok (some [5, 3], phone, ⟨3⟩) : Res Exn (Option Bytes × DeviceInfo × PlainKM)) = .ok (p, dev, km) := by
  have h : plainRun.1.any (fun e => match e with | ⟨.storeSession ns _, .ok _⟩ => decide (ns = "n") | _ => false) = true := by decide +kernel
  obtain ⟨e, he, h⟩ := any_mem h
  split at h
  · simp only [decide_eq_true_eq] at h
    subst h
    refine C47_partial Mgr.ex plainMessage _ _ plain_exec _ he _ plain_key fun g hg s km hgave n hn => ?_
    have hall : plainRun.1.all (fun e => match e with | ⟨.decryptKM .., .ok (_, s)⟩ => decide (s.receivingChainLength = some 1) | _ => !isBuild e) = true := by
      decide +kernel
    have := List.all_eq_true.1 hall g hg
    rcases hgave with ⟨_, rfl⟩ | ⟨_, _, _, rfl⟩
    · simp only [decide_eq_true_eq] at this
      rw [this] at hn; cases hn; decide
    · cases this
  · cases h

example : ∃ s u v, offlineRun.1 = u ++ ⟨.storeSession "n" s, .ok ()⟩ :: v ∧ ErrIn v .messageSendingFailed := by
  have h : offlineRun.1.any (fun e => match e with | ⟨.storeSession ns _, .ok _⟩ => decide (ns = "n") | _ => false) = true := by decide +kernel
  obtain ⟨e, he, h⟩ := any_mem h
  split at h
  · simp only [decide_eq_true_eq] at h
    subst h
    exact C47_cause_partial Mgr.ex kexMessage _ _ offline_exec _ he nofun
  · cases h

end Verif
