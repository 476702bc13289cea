import Verif.Proofs.Belongs
import Verif.Props.RoundTrip
/-
Automatic replies do not chase each other.
-/
namespace Verif
open SM Spec

namespace Spec

/-- The session `s` is what the session with the sender of `msg` became by decrypting what the message carries for this device. -/
inductive Received (M : Mgr) (msg : Message) (h : List Ev) (s : Session) : Prop
  | used {k : EncKM} {x : Option KeyExchange} {s0 : Session} {m : PlainKM} : keyForUs M msg = some (k, x) →
      (⟨.loadSession msg.ns msg.bareJid msg.deviceId, .ok (some s0)⟩ : Ev) ∈ h → (⟨.decryptKM msg.ns s0 k, .ok (m, s)⟩ : Ev) ∈ h → Received M msg h s
  | built {k : EncKM} {x : KeyExchange} {m : PlainKM} : keyForUs M msg = some (k, some x) →
      (⟨.buildPassive msg.ns msg.bareJid msg.deviceId x k, .ok (s, m)⟩ : Ev) ∈ h → Received M msg h s

/-- `m` is a reply to `msg`: `s` is the session after receiving, `s'` after encrypting the reply, and a reply was due. -/
structure ReplyTo (M : Mgr) (msg : Message) (h : List Ev) (m : Message) (s s' : Session) : Prop where
  received : Received M msg h s
  due : ∃ k x, keyForUs M msg = some (k, x) ∧ ReplyDue x s
  made : ∃ km k, (⟨.encryptKM msg.ns s km, .ok (k, s')⟩ : Ev) ∈ h ∧ m.ns = msg.ns ∧
    m.keys = [(k, if s'.initiation = .active ∧ s'.confirmed = false then some s'.keyExchange else none)]

/-- Sessions are confirmed by receiving, and encrypting does not change this (session.py:68-73, backend.py: `build_session_passive`). -/
structure Confirms (e : Ev) : Prop where
  decrypt : ∀ ns s k m s', e = ⟨.decryptKM ns s k, .ok (m, s')⟩ → s'.initiation = .passive ∨ s'.confirmed = true
  passive : ∀ ns j d x k s m, e = ⟨.buildPassive ns j d x k, .ok (s, m)⟩ → s.initiation = .passive
  encrypt : ∀ ns s m k s', e = ⟨.encryptKM ns s m, .ok (k, s')⟩ → s'.initiation = s.initiation ∧ s'.confirmed = s.confirmed

/-- The chains of the Double Ratchet, while messages arrive in order: encrypting makes the sending chain longer by one; decrypting either makes the
receiving chain longer, or begins a new receiving chain, and then also the next sending chain is a new one. -/
structure Chains (e : Ev) : Prop where
  encrypt : ∀ ns s m k s', e = ⟨.encryptKM ns s m, .ok (k, s')⟩ → s'.sendingChainLength = s.sendingChainLength + 1
  decrypt : ∀ ns s k m s', e = ⟨.decryptKM ns s k, .ok (m, s')⟩ →
    ∃ n, s'.receivingChainLength = some n ∧ (s.receivingChainLength.getD 0 < n ∧ s'.sendingChainLength = s.sendingChainLength ∨ s'.sendingChainLength = 0)

/-- What one device encrypts is, when the other decrypts it, at the same position of its chain. -/
def InStep (t t' : List Ev) : Prop :=
  ∀ ns s km k s' r km' r', (⟨.encryptKM ns s km, .ok (k, s')⟩ : Ev) ∈ t → (⟨.decryptKM ns r k, .ok (km', r')⟩ : Ev) ∈ t' →
    r'.receivingChainLength.getD 0 ≤ s'.sendingChainLength

end Spec

namespace Echo
variable {M : Mgr} {K : List Ev → Prop} {msg : Message}

/-- The rule for the interactions of `decrypt`. -/
def Rule (M : Mgr) (msg : Message) (h : List Ev) : Op → Prop
  | .sendMessage m _ => ∃ s s', ReplyTo M msg h m s s'
  | .store (.queueJid ..) _ => ∃ s, Received M msg h s ∧ ∃ k x, keyForUs M msg = some (k, x) ∧ ReplyDue x s
  | .storeSession _ s => Received M msg h s ∨
      ∃ s0, Received M msg h s0 ∧ ∃ k x, keyForUs M msg = some (k, x) ∧ ReplyDue x s0 ∧ ∃ km k, (⟨.encryptKM msg.ns s0 km, .ok (k, s)⟩ : Ev) ∈ h
  | _ => True

/-- Nothing is sent, queued or stored. -/
def quietOp : Op → Bool
  | .sendMessage .. | .store (.queueJid ..) _ | .storeSession .. => false
  | _ => true

theorem of_quiet {o : Op} (h : quietOp o = true) (x : List Ev) : Rule M msg x o := by
  unfold Rule
  split
  · cases h
  · cases h
  · cases h
  · trivial

theorem Received.mono {h h' : List Ev} {s} (hs : ∀ e ∈ h, e ∈ h') (hm : Received M msg h s) : Received M msg h' s := by
  cases hm with
  | used h1 h2 h3 => exact .used h1 (hs _ h2) (hs _ h3)
  | built h1 h2 => exact .built h1 (hs _ h2)

theorem ReplyTo.mono {h h' : List Ev} {m s s'} (hs : ∀ e ∈ h, e ∈ h') (hm : ReplyTo M msg h m s s') : ReplyTo M msg h' m s s' := by
  obtain ⟨km, k, h1, h2, h3⟩ := hm.made
  exact ⟨Received.mono hs hm.received, hm.due, km, k, hs _ h1, h2, h3⟩

instance {s} : Lasting (fun h => Received M msg h s) := ⟨fun _ _ hk => Received.mono (fun _ h => List.mem_append_left _ h) hk⟩

variable [Lasting K]

theorem quiet {α : Type} {p : P α} (h : AllOps (fun o => quietOp o = true) p) : Kn (Rule M msg) K p (fun _ _ => True) :=
  Kn.ops (h.mono fun _ ho x _ => of_quiet ho x)

omit [Lasting K] in
theorem quiet_call {o : Op} (h : quietOp o = true) : Kn (Rule M msg) K (call o) (fun a h => (⟨o, .ok a⟩ : Ev) ∈ h) :=
  Kn.call fun x _ => of_quiet h x

omit [Lasting K] in
theorem kn_exec {α : Type} {p : P α} {Q : α → Prop} (h : AllOps (fun o => quietOp o = true) p) (hq : ∀ t a, Exec p t (.ok a) → Q a) :
    Kn (Rule M msg) K p (fun a _ => Q a) := by
  intro x hx
  clear hx
  induction p generalizing x with
  | ret a => exact hq _ _ (.ret a)
  | raise e => trivial
  | op o k ih => exact ⟨of_quiet h.1 x, fun r => ih r (h.2 r) (fun t a ha => hq _ _ (.op r ha)) _⟩

omit [Lasting K] in
theorem of_looks {o : Op} (h : Op.looks o = true) : quietOp o = true := by
  unfold Op.looks at h
  split at h <;> first | rfl | cases h

omit [Lasting K] in
theorem kn_findSender : Kn (Rule M msg) K (findSender M msg) (fun x _ => x.bareJid = msg.bareJid ∧ x.deviceId = msg.deviceId) :=
  kn_exec (ops_findSender.mono fun _ h => of_looks h) fun _ _ he => ⟨(exec_findSender he).bareJid, (exec_findSender he).deviceId⟩

theorem kn_keyMaterial {x : DeviceInfo} {k : EncKM} {kex : Option KeyExchange} (hk : keyForUs M msg = some (k, kex))
    (hx : x.bareJid = msg.bareJid ∧ x.deviceId = msg.deviceId) :
    Kn (Rule M msg) K (keyMaterial M msg x k kex) (fun r h => Received M msg h r.1) := by
  have hdec : ∀ {L : List Ev → Prop} [Lasting L] (s : Session), (∀ h, L h → (⟨.loadSession msg.ns msg.bareJid msg.deviceId, .ok (some s)⟩ : Ev) ∈ h) →
      Kn (Rule M msg) L (do let (km, session) ← call (.decryptKM msg.ns s k); pure (session, km) : P (Session × PlainKM))
        (fun r h => Received M msg h r.1) := by
    intro L _ s hs
    refine Kn.bind (quiet_call rfl) fun r => ?_
    obtain ⟨km, s'⟩ := r
    exact Kn.pure fun h hl => .used hk (hs h hl.1) hl.2
  unfold keyMaterial
  cases kex with
  | none =>
    dsimp only
    unfold decryptKeyMaterial
    refine Kn.bind (quiet_call rfl) fun so => ?_
    cases so with
    | none => exact Kn.raise
    | some s => exact hdec s fun h hk => by rw [← hx.1, ← hx.2]; exact hk.2
  | some kex =>
    dsimp only
    unfold handleKeyExchange
    split
    · exact Kn.raise
    refine Kn.bind (quiet_call rfl) fun so => ?_
    split
    · refine (quiet_call rfl).post fun r h hr => ?_
      obtain ⟨s, km⟩ := r
      rw [hx.1, hx.2] at hr
      exact .built hk hr
    · rename_i s hs
      have hs := (Option.filter_eq_some_iff.1 hs).1
      exact hdec s fun h hk => by rw [← hx.1, ← hx.2, ← hs]; exact hk.2

theorem kn_decryptContent {x : DeviceInfo} {k : EncKM} {kex : Option KeyExchange} (hk : keyForUs M msg = some (k, kex))
    (hx : x.bareJid = msg.bareJid ∧ x.deviceId = msg.deviceId) :
    Kn (Rule M msg) K (decryptContent M msg x k kex) (fun r h => Received M msg h r.2.1) := by
  unfold decryptContent
  refine Kn.seq (quiet_call rfl) fun level => ?_
  split
  · exact Kn.raise
  refine Kn.bind (kn_keyMaterial hk hx) fun r => ?_
  obtain ⟨s, km⟩ := r
  refine Kn.seq (R := fun _ _ => True) ?_ fun pt => Kn.pure fun h hk => hk.2
  unfold plaintextOf
  split
  · exact Kn.pure fun _ _ => trivial
  · exact Kn.seq (quiet_call rfl) fun _ => Kn.pure fun _ _ => trivial

theorem kn_postDecrypt {k : EncKM} {kex : Option KeyExchange} (hk : keyForUs M msg = some (k, kex)) (s : Session)
    (hs : ∀ h, K h → Received M msg h s) : Kn (Rule M msg) K (postDecrypt M msg.ns kex s) (fun _ _ => True) := by
  unfold postDecrypt autoReply
  refine Kn.seq (Kn.call fun h hl => .inl (hs h hl)) fun _ => Kn.seq (R := fun _ _ => True) (quiet ?_) fun _ => Kn.when' fun hd => Kn.seq (quiet_call rfl) fun sync => ?_
  · unfold consumePreKey discardPreKey refillPreKeys
    lib_ops []
  have hd : ReplyDue kex s := replyDue_iff.1 hd
  split
  · unfold queueEmpty
    refine Kn.seq (quiet (allOps_loadStrs rfl)) fun _ => ?_
    dsimp only
    refine Kn.seq (quiet_call rfl) fun _ => Kn.seq (quiet (allOps_loadInts rfl)) fun _ => ?_
    exact (Kn.call fun h hl => ⟨s, hs h hl, k, kex, hk, hd⟩).post fun _ _ _ => trivial
  · unfold sendEmptyMessage
    refine Kn.seq (quiet_call rfl) fun x => ?_
    obtain ⟨c, km⟩ := x
    refine Kn.bind (quiet_call rfl) fun x => ?_
    obtain ⟨ekm, s'⟩ := x
    refine Kn.seq (Kn.call fun h hl => ⟨s, s', hs h hl.1, ⟨k, kex, hk, hd⟩, km, ekm, hl.2, rfl, rfl⟩) fun _ => ?_
    exact (Kn.call fun h hl => .inr ⟨s, hs h hl.1, k, kex, hk, hd, km, ekm, hl.2⟩).post fun _ _ _ => trivial

theorem kn_decrypt : Kn (Rule M msg) K (decrypt M msg) (fun _ _ => True) := by
  unfold decrypt
  refine Kn.seq (quiet_call rfl) fun bs => ?_
  split
  · exact Kn.raise
  split
  · exact Kn.raise
  rename_i k kex hk
  refine Kn.bind kn_findSender fun x h hx => ?_
  refine (Kn.bind (kn_decryptContent (K := K) hk hx.2) fun r => ?_) h hx.1
  obtain ⟨pt, s, km⟩ := r
  exact Kn.seq (kn_postDecrypt hk s fun h hk => hk.2) fun _ => Kn.pure fun _ _ => trivial

/-- Whatever `decrypt` sends is a reply, and due. -/
theorem sends {t : List Ev} {r} (he : Exec (decrypt M msg) t r) {m : Message} {j : Jid} {x} (hm : (⟨.sendMessage m j, x⟩ : Ev) ∈ t) :
    ∃ s s', ReplyTo M msg t m s s' := by
  obtain ⟨h1, h2, rfl⟩ := List.append_of_mem hm
  obtain ⟨s, s', h⟩ := Kn.exec (kn_decrypt (K := fun _ => True)) he h1 _ h2 rfl
  exact ⟨s, s', ReplyTo.mono (fun _ h => List.mem_append_left _ h) h⟩

/-- Nothing is sent or queued unless it is due. -/
theorem due {t : List Ev} {r} (he : Exec (decrypt M msg) t r) {e : Ev} (hm : e ∈ t) (hr : Op.replies e.1 = true) :
    ∃ s, Received M msg t s ∧ ∃ k x, keyForUs M msg = some (k, x) ∧ ReplyDue x s := by
  obtain ⟨h1, h2, rfl⟩ := List.append_of_mem hm
  have h := Kn.exec (kn_decrypt (M := M) (msg := msg) (K := fun _ => True)) he h1 _ h2 rfl
  have hs : ∀ x ∈ h1, x ∈ h1 ++ e :: h2 := fun _ h => List.mem_append_left _ h
  obtain ⟨o, x⟩ := e
  change Rule M msg h1 o at h
  change Op.replies o = true at hr
  unfold Rule at h
  split at h
  · obtain ⟨s, s', h⟩ := h
    exact ⟨s, Received.mono hs h.received, h.due⟩
  · obtain ⟨s, h3, h4⟩ := h
    exact ⟨s, Received.mono hs h3, h4⟩
  · cases hr
  · rename_i h5 h6 _
    exfalso
    unfold Op.replies at hr
    split at hr
    · exact h5 _ _ rfl
    · exact h6 _ _ _ rfl
    · cases hr

/-- What is stored. -/
theorem stores {t : List Ev} {r} (he : Exec (decrypt M msg) t r) {ns : Ns} {s : Session} {y} (hm : (⟨.storeSession ns s, y⟩ : Ev) ∈ t) :
    Received M msg t s ∨
      ∃ s0, Received M msg t s0 ∧ ∃ k x, keyForUs M msg = some (k, x) ∧ ReplyDue x s0 ∧ ∃ km k, (⟨.encryptKM msg.ns s0 km, .ok (k, s)⟩ : Ev) ∈ t := by
  obtain ⟨h1, h2, rfl⟩ := List.append_of_mem hm
  have hs : ∀ x ∈ h1, x ∈ h1 ++ ⟨.storeSession ns s, y⟩ :: h2 := fun _ h => List.mem_append_left _ h
  rcases Kn.exec (kn_decrypt (M := M) (msg := msg) (K := fun _ => True)) he h1 _ h2 rfl with h | ⟨s0, h3, k, x, h4, h5, km, k2, h6⟩
  · exact .inl (Received.mono hs h)
  · exact .inr ⟨s0, Received.mono hs h3, k, x, h4, h5, km, k2, hs _ h6⟩

end Echo

namespace Echo

/-- The reply carries one key, made at the end of the chain. -/
theorem reply_key {M : Mgr} {msg m : Message} {t : List Ev} {s s' : Session} (hc : ∀ e ∈ t, Confirms e) (h : ReplyTo M msg t m s s') :
    ∃ km k, (⟨.encryptKM m.ns s km, .ok (k, s')⟩ : Ev) ∈ t ∧ m.keys = [(k, none)] := by
  obtain ⟨km, k, h1, h2, h3⟩ := h.made
  refine ⟨km, k, h2 ▸ h1, ?_⟩
  rw [h3, if_neg]
  rintro ⟨ha, hb⟩
  obtain ⟨h4, h5⟩ := (hc _ h1).encrypt _ _ _ _ _ rfl
  rw [h4] at ha
  rw [h5] at hb
  cases h.received with
  | used _ _ hd =>
    rcases (hc _ hd).decrypt _ _ _ _ _ rfl with h | h
    · rw [ha] at h; cases h
    · rw [hb] at h; cases h
  | built _ hd =>
    have h := (hc _ hd).passive _ _ _ _ _ _ _ rfl
    rw [ha] at h; cases h

/-- What happens to a message without key exchanges. -/
theorem answer {M : Mgr} {m : Message} {k : EncKM} (hk : m.keys = [(k, none)]) {t : List Ev} {s : Session} (hr : Received M m t s) {k' x}
    (hf : keyForUs M m = some (k', x)) (hd : ReplyDue x s) : ∃ s0 km n, (⟨.loadSession m.ns m.bareJid m.deviceId, .ok (some s0)⟩ : Ev) ∈ t ∧
      (⟨.decryptKM m.ns s0 k, .ok (km, s)⟩ : Ev) ∈ t ∧ s.receivingChainLength = some n ∧ 53 < n := by
  have key : ∀ k' x, keyForUs M m = some (k', x) → k' = k ∧ x = none := by
    intro k' x h
    have h := SetOrder.mem_iter.1 (List.mem_of_find?_eq_some h)
    rw [hk] at h
    simpa using h
  obtain ⟨rfl, rfl⟩ := key _ _ hf
  rcases hd with hd | ⟨n, h1, h2⟩
  · cases hd
  cases hr with
  | used h3 h4 h5 =>
    obtain ⟨rfl, rfl⟩ := key _ _ h3
    exact ⟨_, _, n, h4, h5, h1, h2⟩
  | built h3 _ => cases (key _ _ h3).2

end Echo

/-- C101, first part: a reply that `decrypt` sends carries no key exchange, so that it is not answered for that reason. -/
theorem C101_plain (M : Mgr) (msg : Message) {t r} (he : Exec (decrypt M msg) t r) (hc : ∀ e ∈ t, Confirms e) {m : Message} {j : Jid} {x}
    (hm : (⟨.sendMessage m j, x⟩ : Ev) ∈ t) : ∃ s s' km k, ReplyTo M msg t m s s' ∧ (⟨.encryptKM m.ns s km, .ok (k, s')⟩ : Ev) ∈ t ∧ m.keys = [(k, none)] := by
  obtain ⟨s, s', h⟩ := Echo.sends he hm
  obtain ⟨km, k, h1⟩ := Echo.reply_key hc h
  exact ⟨s, s', km, k, h, h1⟩

/-- C101: a reply sent by `decrypt` on one device is not answered by `decrypt` on the other, neither at once nor later, unless it is the 54th or a later
message of its chain. -/
theorem C101 (X Y : Mgr) (msg m : Message) {t t' r r'} {j : Jid} {x} (he : Exec (decrypt X msg) t r) (hm : (⟨.sendMessage m j, x⟩ : Ev) ∈ t)
    (he' : Exec (decrypt Y m) t' r') (hc : ∀ e ∈ t, Confirms e) (hs : InStep t t')
    (hp : ∀ ns s km k s', (⟨.encryptKM ns s km, .ok (k, s')⟩ : Ev) ∈ t → s'.sendingChainLength ≤ 53) : ∀ e ∈ t', Op.replies e.1 = false := by
  intro e hel
  cases hr : Op.replies e.1 with
  | false => rfl
  | true =>
    exfalso
    obtain ⟨s, s', km, k, -, h1, h2⟩ := C101_plain X msg he hc hm
    obtain ⟨s2, h3, k', x', h4, h5⟩ := Echo.due he' hel hr
    obtain ⟨s0, km', n, -, h6, h7, h8⟩ := Echo.answer h2 h3 h4 h5
    have := hs _ _ _ _ _ _ _ _ h1 h6
    have := hp _ _ _ _ _ h1
    simp only [h7, Option.getD_some] at *
    omega

/-! ### Replies to replies -/

namespace Spec

/-- Since the other side began its present chain, this side has sent nothing but replies for its 54th and later messages. -/
def Terse (s : Session) : Prop := s.sendingChainLength ≤ s.receivingChainLength.getD 0 - 53

/-- A row of `n + 1` replies: a message is decrypted and answered, the reply is decrypted and answered, and so on, on two devices or more.  The last one
was sent in `t`, and is at position `p` of its chain.  All contracts are met; after the first, the sessions that are used were used for nothing but
such replies. -/
inductive Row (q : Nat) : Nat → List Ev → Message → Nat → Prop
  | start {X : Mgr} {msg m : Message} {t r j x s s'} : Exec (decrypt X msg) t r → (⟨.sendMessage m j, x⟩ : Ev) ∈ t → (∀ e ∈ t, Confirms e) →
      ReplyTo X msg t m s s' → s'.sendingChainLength = q → Row q 0 t m q
  | next {n : Nat} {Y : Mgr} {m m' : Message} {t t' r j x s s' p} : Row q n t m p → Exec (decrypt Y m) t' r → (⟨.sendMessage m' j, x⟩ : Ev) ∈ t' →
      (∀ e ∈ t', Confirms e ∧ Chains e) → InStep t t' → (∀ ns j d s0, (⟨.loadSession ns j d, .ok (some s0)⟩ : Ev) ∈ t' → Terse s0) →
      ReplyTo Y m t' m' s s' → Row q (n + 1) t' m' s'.sendingChainLength

end Spec

namespace Echo

/-- One more reply: its position is at least 53 less. -/
theorem fewer {Y : Mgr} {m m' : Message} {t t' : List Ev} {s s' r' : Session} {km k} (h1 : (⟨.encryptKM m.ns s km, .ok (k, s')⟩ : Ev) ∈ t)
    (hk : m.keys = [(k, none)]) (hs : InStep t t') (hc : ∀ e ∈ t', Chains e)
    (ht : ∀ ns j d s0, (⟨.loadSession ns j d, .ok (some s0)⟩ : Ev) ∈ t' → Terse s0) {r : Session} (h : ReplyTo Y m t' m' r r') :
    r'.sendingChainLength + 53 ≤ s'.sendingChainLength := by
  obtain ⟨k', x, h2, h3⟩ := h.due
  obtain ⟨s0, km', n, h4, h5, h6, h7⟩ := answer hk h.received h2 h3
  obtain ⟨km2, k2, h8, -⟩ := h.made
  have h9 := (hc _ h8).encrypt _ _ _ _ _ rfl
  obtain ⟨n', h10, h11⟩ := (hc _ h5).decrypt _ _ _ _ _ rfl
  rw [h6] at h10
  cases h10
  have h12 := hs _ _ _ _ _ _ _ _ h1 h5
  have h13 := ht _ _ _ _ h4
  unfold Terse at h13
  simp only [h6, Option.getD_some] at h12
  rcases h11 with ⟨h11, h14⟩ | h14 <;> omega

end Echo

/-- C101, for rows: each reply in a row is at least 53 positions earlier in its chain than the one it answers, so that `n + 1` replies in a row need a
first one that is at position `53 n + 1` or later.  Rows of replies end. -/
theorem C101_row {q n : Nat} {t : List Ev} {m : Message} {p : Nat} (h : Row q n t m p) : p + 53 * n ≤ q := by
  suffices p + 53 * n ≤ q ∧ ∃ s s' km k, (⟨.encryptKM m.ns s km, .ok (k, s')⟩ : Ev) ∈ t ∧ m.keys = [(k, none)] ∧ s'.sendingChainLength = p from this.1
  induction h with
  | start _ _ hc hr hq =>
    obtain ⟨km, k, h1, h2⟩ := Echo.reply_key hc hr
    exact ⟨by omega, _, _, km, k, h1, h2, hq⟩
  | next _ _ _ hc hs ht hr ih =>
    obtain ⟨h0, s, s', km, k, h1, h2, h3⟩ := ih
    obtain ⟨km', k', h4, h5⟩ := Echo.reply_key (fun e he => (hc e he).1) hr
    have := Echo.fewer h1 h2 hs (fun e he => (hc e he).2) ht hr
    exact ⟨by omega, _, _, km', k', h4, h5, rfl⟩

/-- C101: the condition on sessions in rows is kept by `decrypt`, for messages without key exchange. -/
theorem C101_terse (M : Mgr) (m : Message) (k : EncKM) {t r} (he : Exec (decrypt M m) t r) (hk : m.keys = [(k, none)]) (hc : ∀ e ∈ t, Chains e)
    (ht : ∀ ns j d s0, (⟨.loadSession ns j d, .ok (some s0)⟩ : Ev) ∈ t → Terse s0)
    (hR : ∀ e ∈ t, ∀ ns s m k s', e = ⟨.encryptKM ns s m, .ok (k, s')⟩ → s'.receivingChainLength = s.receivingChainLength) {ns s x}
    (hs : (⟨.storeSession ns s, x⟩ : Ev) ∈ t) : Terse s := by
  have key : ∀ k' y, keyForUs M m = some (k', y) → k' = k ∧ y = none := by
    intro k' y h
    have h := SetOrder.mem_iter.1 (List.mem_of_find?_eq_some h)
    rw [hk] at h
    simpa using h
  have base : ∀ s, Received M m t s → ∃ n, s.receivingChainLength = some n ∧ s.sendingChainLength ≤ n - 53 ∧ (53 < n → s.sendingChainLength + 1 ≤ n - 53) := by
    intro s h
    cases h with
    | used h1 h2 h3 =>
      obtain ⟨n, h4, h5⟩ := (hc _ h3).decrypt _ _ _ _ _ rfl
      have h6 := ht _ _ _ _ h2
      unfold Terse at h6
      refine ⟨n, h4, ?_⟩
      rcases h5 with ⟨h5, h7⟩ | h7 <;> omega
    | built h1 h2 => cases (key _ _ h1).2
  rcases Echo.stores he hs with h | ⟨s0, h1, k', y, h2, h3, km, k2, h4⟩
  · obtain ⟨n, h5, h6, -⟩ := base s h
    simp only [Terse, h5, Option.getD_some]
    exact h6
  · obtain ⟨n, h5, -, h6⟩ := base s0 h1
    obtain ⟨-, rfl⟩ := key _ _ h2
    rcases h3 with h3 | ⟨n', h3, h7⟩
    · cases h3
    rw [h5] at h3
    cases h3
    have h8 := (hc _ h4).encrypt _ _ _ _ _ rfl
    have h9 := hR _ h4 _ _ _ _ _ rfl
    simp only [Terse, h9, h5, Option.getD_some]
    have := h6 h7
    omega

/-! ### Concrete runs -/

namespace Echo

/-- Everything works; sessions are loaded with chains of the given lengths. -/
def deep (r s : Nat) : World → (o : Op) → Except Exn o.Ret
  | _, .loadSession ns j d => .ok (some ⟨ns, j, d, .passive, true, ⟨[1], 0⟩, some r, s, 0⟩)
  | _, .decryptKM _ s e => .ok (⟨e.blob⟩, { s with receivingChainLength := s.receivingChainLength.map (· + 1) })
  | _, .evalTrust _ => .ok .trusted
  | w, o => friendly w o

/-- "me" decrypts a message of device 7 of "a" with the given lengths of chains; it is the 61st of its chain. -/
def first (s : Nat) := runProg (Lib.env (deep 60 s)) Lib.next 200 (decrypt Mgr.ex plainMessage) World.chat

def isSend : Ev → Bool | ⟨.sendMessage .., _⟩ => true | _ => false

/-- The reply. -/
def reply : Message := ⟨"n", "me", 1, ⟨true, 0⟩, [(⟨"a", 7, 0⟩, none)]⟩

/-- "a" decrypts it. -/
def second (r : Nat) := runProg (Lib.env (deep r 0)) Lib.next 200 (decrypt Mgr.phone reply) World.chat

/-- The reply to the reply. -/
def reply2 : Message := ⟨"n", "a", 7, ⟨true, 0⟩, [(⟨"me", 1, 0⟩, none)]⟩

/-- The contracts, as a test. -/
def tidy : Ev → Bool
  | ⟨.decryptKM _ s _, .ok (_, s')⟩ => decide (s'.initiation = .passive) && match s'.receivingChainLength with
    | some n => decide (s.receivingChainLength.getD 0 < n ∧ s'.sendingChainLength = s.sendingChainLength ∨ s'.sendingChainLength = 0)
    | none => false
  | ⟨.buildPassive .., .ok (s, _)⟩ => decide (s.initiation = .passive)
  | ⟨.encryptKM _ s _, .ok (_, s')⟩ => decide (s'.initiation = s.initiation ∧ s'.confirmed = s.confirmed ∧ s'.sendingChainLength = s.sendingChainLength + 1)
  | _ => true

theorem of_tidy {e : Ev} (h : tidy e = true) : Confirms e ∧ Chains e := by
  refine ⟨⟨?_, ?_, ?_⟩, ?_, ?_⟩
  · rintro _ _ _ _ _ rfl
    simp only [tidy, Bool.and_eq_true, decide_eq_true_eq] at h
    exact .inl h.1
  · rintro _ _ _ _ _ _ _ rfl
    simpa [tidy] using h
  · rintro _ _ _ _ _ rfl
    simp only [tidy, decide_eq_true_eq] at h
    exact ⟨h.1, h.2.1⟩
  · rintro _ _ _ _ _ rfl
    simp only [tidy, decide_eq_true_eq] at h
    exact h.2.2
  · rintro _ _ _ _ s' rfl
    simp only [tidy, Bool.and_eq_true] at h
    obtain ⟨-, h⟩ := h
    split at h
    · exact ⟨_, by assumption, of_decide_eq_true h⟩
    · cases h

/-- Positions of encrypted key material, and of decrypted one. -/
def sentAt : Ev → List (EncKM × Nat) | ⟨.encryptKM .., .ok (k, s')⟩ => [(k, s'.sendingChainLength)] | _ => []
def gotAt : Ev → List (EncKM × Nat) | ⟨.decryptKM _ _ k, .ok (_, s')⟩ => [(k, s'.receivingChainLength.getD 0)] | _ => []

theorem inStep_of {t t' : List Ev} (h : ((t.flatMap sentAt).all fun x => (t'.flatMap gotAt).all fun y => decide (x.1 = y.1 → y.2 ≤ x.2)) = true) :
    InStep t t' := by
  intro ns s km k s' r km' r' h1 h2
  have h3 := List.all_eq_true.1 h _ (List.mem_flatMap.2 ⟨_, h1, by simp [sentAt]; rfl⟩)
  have h4 := List.all_eq_true.1 h3 _ (List.mem_flatMap.2 ⟨_, h2, by simp [gotAt]; rfl⟩)
  exact of_decide_eq_true h4 rfl

theorem first_exec (s : Nat) : Exec (decrypt Mgr.ex plainMessage) (first s).1 (first s).2.1 := runProg_exec ..
theorem second_exec (r : Nat) : Exec (decrypt Mgr.phone reply) (second r).1 (second r).2.1 := runProg_exec ..

/-- The messages sent. -/
def sentIn (t : List Ev) : List Message := t.filterMap fun | ⟨.sendMessage m _, _⟩ => some m | _ => none

theorem mem_sentIn {t : List Ev} {m : Message} (h : m ∈ sentIn t) : ∃ j x, (⟨.sendMessage m j, x⟩ : Ev) ∈ t := by
  obtain ⟨e, h1, h2⟩ := List.mem_filterMap.1 h
  split at h2
  · cases h2
    exact ⟨_, _, h1⟩
  · cases h2

end Echo

/-- The hypotheses of `C101` are met: the 61st message of a chain is answered, and the answer, the first of its chain, is decrypted and not answered. -/
theorem C101_example : Echo.reply ∈ Echo.sentIn (Echo.first 0).1 ∧ (∃ dev, (Echo.second 0).2.1 = .ok (none, dev, ⟨0⟩)) ∧
    ∀ e ∈ (Echo.second 0).1, Op.replies e.1 = false := by
  have h1 : Echo.reply ∈ Echo.sentIn (Echo.first 0).1 := by decide +kernel
  have ht : (Echo.first 0).1.all Echo.tidy = true := by decide +kernel
  have hp : ((Echo.first 0).1.flatMap Echo.sentAt).all (fun x => decide (x.2 ≤ 53)) = true := by decide +kernel
  obtain ⟨j, x, hm⟩ := Echo.mem_sentIn h1
  refine ⟨h1, ⟨_, rfl⟩, C101 Mgr.ex Mgr.phone plainMessage Echo.reply (Echo.first_exec 0) hm (Echo.second_exec 0)
    (fun e he => (Echo.of_tidy (List.all_eq_true.1 ht e he)).1) (Echo.inStep_of (by decide +kernel)) fun ns s km k s' h => ?_⟩
  have h2 := List.all_eq_true.1 hp _ (List.mem_flatMap.2 ⟨_, h, by simp [Echo.sentAt]; rfl⟩)
  exact of_decide_eq_true h2

/-- Two replies in a row are possible: the first is the 60th message of its chain. -/
theorem C101_row_example : Row 60 1 (Echo.second 59).1 Echo.reply2 1 := by
  have h1 : Echo.reply ∈ Echo.sentIn (Echo.first 59).1 := by decide +kernel
  have h2 : Echo.reply2 ∈ Echo.sentIn (Echo.second 59).1 := by decide +kernel
  have t1 : (Echo.first 59).1.all Echo.tidy = true := by decide +kernel
  have t2 : (Echo.second 59).1.all Echo.tidy = true := by decide +kernel
  have p1 : ((Echo.first 59).1.flatMap Echo.sentAt).all (fun x => decide (x.2 = 60)) = true := by decide +kernel
  have p2 : ((Echo.second 59).1.flatMap Echo.sentAt).all (fun x => decide (x.2 = 1)) = true := by decide +kernel
  have l2 : (Echo.second 59).1.all (fun e => match e with
    | ⟨.loadSession .., .ok (some s)⟩ => decide (s.sendingChainLength ≤ s.receivingChainLength.getD 0 - 53) | _ => true) = true := by decide +kernel
  have c1 : ∀ e ∈ (Echo.first 59).1, Confirms e ∧ Chains e := fun e he => Echo.of_tidy (List.all_eq_true.1 t1 e he)
  have c2 : ∀ e ∈ (Echo.second 59).1, Confirms e ∧ Chains e := fun e he => Echo.of_tidy (List.all_eq_true.1 t2 e he)
  obtain ⟨j, x, hm⟩ := Echo.mem_sentIn h1
  obtain ⟨j2, x2, hm2⟩ := Echo.mem_sentIn h2
  obtain ⟨s, s', km, k, r1, r2, -⟩ := C101_plain _ _ (Echo.first_exec 59) (fun e he => (c1 e he).1) hm
  obtain ⟨u, u', km', k', q1, q2, -⟩ := C101_plain _ _ (Echo.second_exec 59) (fun e he => (c2 e he).1) hm2
  have e1 : s'.sendingChainLength = 60 := of_decide_eq_true (List.all_eq_true.1 p1 _ (List.mem_flatMap.2 ⟨_, r2, by simp [Echo.sentAt]; rfl⟩))
  have e2 : u'.sendingChainLength = 1 := of_decide_eq_true (List.all_eq_true.1 p2 _ (List.mem_flatMap.2 ⟨_, q2, by simp [Echo.sentAt]; rfl⟩))
  have := Row.next (Row.start (Echo.first_exec 59) hm (fun e he => (c1 e he).1) r1 e1) (Echo.second_exec 59) hm2 c2 (Echo.inStep_of (by decide +kernel))
    (fun ns j d s0 h => by have := List.all_eq_true.1 l2 _ h; unfold Terse; exact of_decide_eq_true this) q1
  rwa [e2] at this

end Verif
