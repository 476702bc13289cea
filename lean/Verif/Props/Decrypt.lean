import Verif.Proofs.DecryptTrace
import Verif.Props.KeyExchange
/-
Receiving messages: C38-C42, C44-C47.
-/
namespace Verif
open Spec SM Foot

/-- The checks before a message is decrypted: the backend is loaded, the sending device is known and was evaluated as not distrusted.
`rest` is what follows. -/
structure Spec.Gated (M : Mgr) (msg : Message) (t : List Ev) (dev : DeviceInfo) (rest : List Ev) : Prop where
  backend : ∃ bs t1 l, t = ⟨.getBackends, .ok bs⟩ :: (t1 ++ ⟨.evalTrust dev, .ok l⟩ :: rest) ∧ msg.ns ∈ bs ∧ KnownSender M msg t1 dev ∧
    l ≠ .distrusted ∧ ∀ e ∈ t1, Op.looks e.1 = true

namespace SM
variable {M : Mgr} {msg : Message}

/-- The part of an execution of `decrypt` after the checks. -/
inductive Tail (M : Mgr) (msg : Message) (dev : DeviceInfo) (ekm : EncKM) (kex : Option KeyExchange) :
    List Ev → Res Exn (Option Bytes × DeviceInfo × PlainKM) → Prop
  | keys {t2 r r'} (h2 : KeyRun M msg dev ekm kex t2 r') (hr : (∃ e, r' = .raised e ∧ r = .raised e) ∨ (r' = .crashed ∧ r = .crashed)) :
      Tail M msg dev ekm kex t2 r
  | content {t2 s km t3 r r'} (h2 : KeyRun M msg dev ekm kex t2 (.ok (s, km))) (h3 : OpenRun msg km t3 r')
      (hr : (∃ e, r' = .raised e ∧ r = .raised e) ∨ (r' = .crashed ∧ r = .crashed)) : Tail M msg dev ekm kex (t2 ++ t3) r
  | post {t2 s km t3 p t4 r r'} (h2 : KeyRun M msg dev ekm kex t2 (.ok (s, km))) (h3 : OpenRun msg km t3 (.ok p))
      (h4 : Exec (postDecrypt M msg.ns kex s) t4 r')
      (hr : (r' = .ok () ∧ r = .ok (p, dev, km)) ∨ (∃ e, r' = .raised e ∧ r = .raised e) ∨ (r' = .crashed ∧ r = .crashed)) :
      Tail M msg dev ekm kex (t2 ++ t3 ++ t4) r

/-- Interactions before the checks are over. -/
def Checks (o : Op) : Prop := Op.looks o = true ∨ ∃ dev, o = .evalTrust dev

theorem Checks.quiet {o : Op} (h : Checks o) :
    Op.recovers o = false ∧ Op.lasting o = false ∧ Op.preKeys o = false ∧ Op.replies o = false ∧ Op.publishes o = false ∧
      Op.givesUp o = false ∧ o ≠ .getSync := by
  rcases h with h | ⟨dev, rfl⟩
  · unfold Op.looks at h
    split at h <;> first | exact ⟨rfl, rfl, rfl, rfl, rfl, rfl, nofun⟩ | cases h
  · exact ⟨rfl, rfl, rfl, rfl, rfl, rfl, nofun⟩

/-- An execution of `decrypt` ends before or after the checks. -/
theorem DecRun.split {t : List Ev} {r} (h : DecRun M msg t r) :
    ((∀ e ∈ t, Checks e.1) ∧ ∀ a, r ≠ .ok a) ∨
    ∃ ekm kex dev rest, keyForUs M msg = some (ekm, kex) ∧ Gated M msg t dev rest ∧ Tail M msg dev ekm kex rest r := by
  have hb : ∀ x, Checks (Sigma.fst (⟨.getBackends, x⟩ : Ev)) := fun _ => .inl rfl
  cases h with
  | start => exact .inl ⟨by simp, by simp⟩
  | noBackends => exact .inl ⟨by simp [Checks, Op.looks], by simp⟩
  | unknown => exact .inl ⟨by simp [Checks, Op.looks], by simp⟩
  | notForUs => exact .inl ⟨by simp [Checks, Op.looks], by simp⟩
  | lookup h hk h1 hr =>
    refine .inl ⟨?_, hr⟩
    intro e he
    rcases List.mem_cons.1 he with rfl | he
    · exact .inl rfl
    · exact .inl (h1 e he)
  | evalFailed h hk h1 hd =>
    refine .inl ⟨?_, by simp⟩
    intro e he
    simp only [List.mem_cons, List.mem_append, List.not_mem_nil, or_false] at he
    rcases he with rfl | he | rfl
    · exact .inl rfl
    · exact .inl (h1 e he)
    · exact .inr ⟨_, rfl⟩
  | distrusted h hk h1 hd =>
    refine .inl ⟨?_, by simp⟩
    intro e he
    simp only [List.mem_cons, List.mem_append, List.not_mem_nil, or_false] at he
    rcases he with rfl | he | rfl
    · exact .inl rfl
    · exact .inl (h1 e he)
    · exact .inr ⟨_, rfl⟩
  | keys h hk h1 hd hl h2 hr => exact .inr ⟨_, _, _, _, hk, ⟨_, _, _, rfl, h, hd, hl, h1⟩, .keys h2 hr⟩
  | content h hk h1 hd hl h2 h3 hr => exact .inr ⟨_, _, _, _, hk, ⟨_, _, _, rfl, h, hd, hl, h1⟩, .content h2 h3 hr⟩
  | post h hk h1 hd hl h2 h3 h4 hr => exact .inr ⟨_, _, _, _, hk, ⟨_, _, _, rfl, h, hd, hl, h1⟩, .post h2 h3 h4 hr⟩

theorem Gated.checks {t : List Ev} {dev : DeviceInfo} {rest : List Ev} (h : Gated M msg t dev rest) :
    ∃ pre, t = pre ++ rest ∧ ∀ e ∈ pre, Checks e.1 := by
  obtain ⟨bs, t1, l, rfl, _, _, _, h1⟩ := h.backend
  refine ⟨⟨.getBackends, .ok bs⟩ :: (t1 ++ [⟨.evalTrust dev, .ok l⟩]), by simp, ?_⟩
  intro e he
  simp only [List.mem_cons, List.mem_append, List.not_mem_nil, or_false] at he
  rcases he with rfl | he | rfl
  · exact .inl rfl
  · exact .inl (h1 e he)
  · exact .inr ⟨_, rfl⟩

theorem keyForUs_some {k : EncKM × Option KeyExchange} (h : keyForUs M msg = some k) :
    k ∈ msg.keys ∧ k.1.bareJid = M.ownJid ∧ k.1.deviceId = M.ownDev := by
  unfold keyForUs at h
  have h1 := List.find?_some h
  have h2 := List.mem_of_find?_eq_some h
  rw [SetOrder.mem_iter] at h2
  exact ⟨h2, by simpa using h1⟩

theorem keyForUs_none (h : ∀ k ∈ msg.keys, ¬ (k.1.bareJid = M.ownJid ∧ k.1.deviceId = M.ownDev)) : keyForUs M msg = none := by
  unfold keyForUs
  rw [List.find?_eq_none]
  intro k hk
  rw [SetOrder.mem_iter] at hk
  simpa using h k hk

/-- What is certain once key material was recovered. -/
theorem KeyRun.gave {dev : DeviceInfo} {ekm : EncKM} {kex : Option KeyExchange} {t2 : List Ev} {s : Session} {km : PlainKM}
    (h : KeyRun M msg dev ekm kex t2 (.ok (s, km))) : ∃ e ∈ t2, GaveKM msg.ns e ekm s km := by
  cases h with
  | used h => exact ⟨_, List.mem_cons_of_mem _ (List.mem_singleton_self _), .inl ⟨_, rfl⟩⟩
  | built => exact ⟨_, List.mem_cons_of_mem _ (List.mem_singleton_self _), .inr ⟨_, _, _, rfl⟩⟩

theorem KeyRun.recovers {dev : DeviceInfo} {ekm : EncKM} {kex : Option KeyExchange} {t2 : List Ev} {r}
    (h : KeyRun M msg dev ekm kex t2 r) : ∀ e ∈ t2, Op.recovers e.1 = true := by
  cases h <;> simp [Op.recovers]

theorem OpenRun.recovers {km : PlainKM} {t3 : List Ev} {r} (h : OpenRun msg km t3 r) : ∀ e ∈ t3, Op.recovers e.1 = true := by
  cases h <;> simp [Op.recovers]

theorem recovers_quiet {o : Op} (h : Op.recovers o = true) :
    Op.lasting o = false ∧ Op.preKeys o = false ∧ Op.replies o = false ∧ Op.publishes o = false ∧ Op.givesUp o = false ∧ o ≠ .getSync := by
  unfold Op.recovers at h
  split at h <;> first | exact ⟨rfl, rfl, rfl, rfl, rfl, nofun⟩ | cases h

end SM

/-! ### C38 -/

/-- C38: a session is loaded, built or used, content is decrypted, and sessions, pre keys, bundles, messages and queues are changed only
if the backend of the message is loaded, the message has a key for this device, the sending device is in the stored device list and was
evaluated as not distrusted -- for exactly the device information loaded from storage, and before. -/
theorem C38_gated (M : Mgr) (msg : Message) (t : List Ev) (r) (he : Exec (decrypt M msg) t r) (e : Ev) (hm : e ∈ t)
    (hop : Op.recovers e.1 = true ∨ Op.lasting e.1 = true) :
    (∃ k ∈ msg.keys, k.1.bareJid = M.ownJid ∧ k.1.deviceId = M.ownDev) ∧ ∃ dev rest, Gated M msg t dev rest ∧ e ∈ rest := by
  rcases (exec_decrypt he).split with ⟨h1, _⟩ | ⟨ekm, kex, dev, rest, hk, hg, _⟩
  · have := (h1 e hm).quiet
    rw [this.1, this.2.1] at hop
    simp at hop
  · refine ⟨⟨_, keyForUs_some hk⟩, dev, rest, hg, ?_⟩
    obtain ⟨pre, rfl, hp⟩ := Gated.checks hg
    rcases List.mem_append.1 hm with hm | hm
    · have := (hp e hm).quiet
      rw [this.1, this.2.1] at hop
      simp at hop
    · exact hm

/-- C38, the result: whatever `decrypt` returns went through the same checks, and the device information returned is the one that was
evaluated. -/
theorem C38_result (M : Mgr) (msg : Message) (t : List Ev) (p : Option Bytes) (dev : DeviceInfo) (km : PlainKM)
    (he : Exec (decrypt M msg) t (.ok (p, dev, km))) :
    (∃ k ∈ msg.keys, k.1.bareJid = M.ownJid ∧ k.1.deviceId = M.ownDev) ∧ ∃ rest, Gated M msg t dev rest := by
  rcases (exec_decrypt he).split with ⟨_, h1⟩ | ⟨ekm, kex, dev', rest, hk, hg, ht⟩
  · exact absurd rfl (h1 _)
  · refine ⟨⟨_, keyForUs_some hk⟩, rest, ?_⟩
    cases ht with
    | keys _ hr => rcases hr with ⟨_, _, hr⟩ | ⟨_, hr⟩ <;> cases hr
    | content _ _ hr => rcases hr with ⟨_, _, hr⟩ | ⟨_, hr⟩ <;> cases hr
    | post _ _ _ hr =>
      rcases hr with ⟨_, hr⟩ | ⟨_, _, hr⟩ | ⟨_, hr⟩ <;> cases hr
      exact hg

/-- C38, errors: a message for a backend that is not loaded, or without key for this device, is rejected before anything else happens. -/
theorem C38_rejected (M : Mgr) (msg : Message) (bs : List Ns) (t : List Ev) (r)
    (he : Exec (decrypt M msg) (⟨.getBackends, .ok bs⟩ :: t) r) :
    (msg.ns ∉ bs → t = [] ∧ r = .raised .unknownNamespace) ∧
    (msg.ns ∈ bs → (∀ k ∈ msg.keys, ¬ (k.1.bareJid = M.ownJid ∧ k.1.deviceId = M.ownDev)) → t = [] ∧ r = .raised .messageNotForUs) := by
  have h := exec_decrypt he
  constructor
  · intro hn
    cases h with
    | unknown => exact ⟨rfl, rfl⟩
    | notForUs h => exact absurd h hn
    | lookup h => exact absurd h hn
    | evalFailed h => exact absurd h hn
    | distrusted h => exact absurd h hn
    | keys h => exact absurd h hn
    | content h => exact absurd h hn
    | post h => exact absurd h hn
  · intro hn hk
    have hk := keyForUs_none hk
    cases h with
    | unknown h => exact absurd hn h
    | notForUs h => exact ⟨rfl, rfl⟩
    | lookup _ h => rw [hk] at h; cases h
    | evalFailed _ h => rw [hk] at h; cases h
    | distrusted _ h => rw [hk] at h; cases h
    | keys _ h => rw [hk] at h; cases h
    | content _ h => rw [hk] at h; cases h
    | post _ h => rw [hk] at h; cases h

/-- C38, errors: if the evaluation yields DISTRUSTED, `decrypt` raises `SenderDistrusted` and does nothing else. -/
theorem C38_distrusted (M : Mgr) (msg : Message) (dev : DeviceInfo) (t : List Ev) (r) (he : Exec (decrypt M msg) t r)
    (hd : (⟨.evalTrust dev, .ok .distrusted⟩ : Ev) ∈ t) :
    (r = .raised .senderDistrusted) ∧ t.getLast? = some ⟨.evalTrust dev, .ok .distrusted⟩ := by
  have nl : ∀ {t1 : List Ev}, (∀ e ∈ t1, Op.looks e.1 = true) → (⟨.evalTrust dev, .ok .distrusted⟩ : Ev) ∉ t1 := fun h hm => by
    cases h _ hm
  have gate : ∀ {bs t1 dev' rest} {l : TrustLevel}, (∀ e ∈ t1, Op.looks e.1 = true) → l ≠ .distrusted →
      (⟨.evalTrust dev, .ok .distrusted⟩ : Ev) ∈ (⟨.getBackends, .ok bs⟩ :: (t1 ++ ⟨.evalTrust dev', .ok l⟩ :: rest) : List Ev) →
      (⟨.evalTrust dev, .ok .distrusted⟩ : Ev) ∈ rest := by
    intro bs t1 dev' rest l h1 hl hm
    simp only [List.mem_cons, List.mem_append] at hm
    rcases hm with hm | hm | hm | hm
    · cases hm
    · exact absurd hm (nl h1)
    · cases hm; exact absurd rfl hl
    · exact hm
  have nr : ∀ {t2 : List Ev}, (∀ e ∈ t2, Op.recovers e.1 = true) → (⟨.evalTrust dev, .ok .distrusted⟩ : Ev) ∉ t2 := fun h hm => by
    cases h _ hm
  cases exec_decrypt he with
  | start => simp at hd
  | noBackends => simp at hd
  | unknown => simp at hd
  | notForUs => simp at hd
  | lookup h hk h1 =>
    simp only [List.mem_cons] at hd
    rcases hd with hd | hd
    · cases hd
    · exact absurd hd (nl h1)
  | evalFailed h hk h1 =>
    simp only [List.mem_cons, List.mem_append, List.not_mem_nil, or_false] at hd
    rcases hd with hd | hd | hd
    · cases hd
    · exact absurd hd (nl h1)
    · cases hd
  | distrusted h hk h1 =>
    simp only [List.mem_cons, List.mem_append, List.not_mem_nil, or_false] at hd
    rcases hd with hd | hd | hd
    · cases hd
    · exact absurd hd (nl h1)
    · cases hd
      exact ⟨rfl, by rw [← List.cons_append, List.getLast?_append]; rfl⟩
  | keys h hk h1 _ hl h2 => exact absurd (gate h1 hl hd) (nr h2.recovers)
  | content h hk h1 _ hl h2 h3 =>
    rcases List.mem_append.1 (gate h1 hl hd) with h | h
    · exact absurd h (nr h2.recovers)
    · exact absurd h (nr h3.recovers)
  | post h hk h1 _ hl h2 h3 h4 =>
    rcases List.mem_append.1 (gate h1 hl hd) with h | h
    · rcases List.mem_append.1 h with h | h
      · exact absurd h (nr h2.recovers)
      · exact absurd h (nr h3.recovers)
    · have := ops_postDecrypt.exec h4 _ h
      cases this

/-! ### C39 -/

/-- The first element with a property is unique. -/
theorem first_unique {α : Type} {P : α → Prop} {u u' v v' : List α} {a a' : α} (h : u ++ a :: v = u' ++ a' :: v') (ha : P a) (ha' : P a')
    (hu : ∀ x ∈ u, ¬ P x) (hu' : ∀ x ∈ u', ¬ P x) : u = u' ∧ a = a' ∧ v = v' := by
  induction u generalizing u' with
  | nil =>
    cases u' with
    | nil => cases h; exact ⟨rfl, rfl, rfl⟩
    | cons x u' => exact absurd ((List.cons.inj h).1 ▸ ha) (hu' x (by simp))
  | cons x u ih =>
    cases u' with
    | nil => exact absurd ((List.cons.inj h).1 ▸ ha') (hu x (by simp))
    | cons y u' =>
      obtain ⟨rfl, h3⟩ := List.cons.inj h
      obtain ⟨rfl, h1, h2⟩ := ih h3 (fun x hx => hu x (by simp [hx])) (fun x hx => hu' x (by simp [hx]))
      exact ⟨rfl, h1, h2⟩

/-- If some element has a property, there is a first one. -/
theorem exists_first {α : Type} {P : α → Prop} {t : List α} (h : ∃ a ∈ t, P a) : ∃ u a v, t = u ++ a :: v ∧ P a ∧ ∀ x ∈ u, ¬ P x := by
  induction t with
  | nil => obtain ⟨a, ha, _⟩ := h; cases ha
  | cons x t ih =>
    by_cases hx : P x
    · exact ⟨[], x, t, rfl, hx, by simp⟩
    · obtain ⟨u, a, v, rfl, h1, h2⟩ := ih (by
        obtain ⟨a, ha, hp⟩ := h
        rcases List.mem_cons.1 ha with rfl | ha
        · exact absurd hp hx
        · exact ⟨a, ha, hp⟩)
      refine ⟨x :: u, a, v, rfl, h1, ?_⟩
      intro y hy
      rcases List.mem_cons.1 hy with rfl | hy
      · exact hx
      · exact h2 y hy

namespace SM
variable {M : Mgr} {msg : Message}

theorem Gated.unique {t : List Ev} {dev dev' : DeviceInfo} {rest rest' : List Ev} (h : Gated M msg t dev rest) (h' : Gated M msg t dev' rest') :
    dev = dev' ∧ rest = rest' := by
  obtain ⟨bs, t1, l, rfl, _, _, _, h1⟩ := h.backend
  obtain ⟨bs', t1', l', h2, _, _, _, h1'⟩ := h'.backend
  obtain ⟨_, h3, h4⟩ := first_unique (P := fun e : Ev => Op.looks e.1 = false) (List.cons.inj h2).2 rfl rfl
    (fun x hx => by simp [h1 x hx]) (fun x hx => by simp [h1' x hx])
  cases h3
  exact ⟨rfl, h4⟩

/-- A successful `decrypt`. -/
structure DecOk (M : Mgr) (msg : Message) (t : List Ev) (p : Option Bytes) (dev : DeviceInfo) (km : PlainKM) (ekm : EncKM)
    (kex : Option KeyExchange) (s : Session) (pre t2 t3 gu rep : List Ev) : Prop where
  eq : t = pre ++ (t2 ++ (t3 ++ (⟨.storeSession msg.ns s, .ok ()⟩ :: (gu ++ rep))))
  key : keyForUs M msg = some (ekm, kex)
  checks : ∀ e ∈ pre, Checks e.1
  gated : Gated M msg t dev (t2 ++ (t3 ++ (⟨.storeSession msg.ns s, .ok ()⟩ :: (gu ++ rep))))
  keys : KeyRun M msg dev ekm kex t2 (.ok (s, km))
  opened : OpenRun msg km t3 (.ok p)
  givenUp : (kex.isSome = true ∧ GivenUp M msg.ns s gu) ∨ (kex = none ∧ gu = [])
  replied : (ReplyDue kex s ∧ Replied M msg.ns s rep) ∨ (¬ ReplyDue kex s ∧ rep = [])

theorem exec_decrypt_ok {t : List Ev} {p dev km} (he : Exec (decrypt M msg) t (.ok (p, dev, km))) :
    ∃ ekm kex s pre t2 t3 gu rep, DecOk M msg t p dev km ekm kex s pre t2 t3 gu rep := by
  rcases (exec_decrypt he).split with ⟨_, h1⟩ | ⟨ekm, kex, dev', rest, hk, hg, ht⟩
  · exact absurd rfl (h1 _)
  · cases ht with
    | keys _ hr => rcases hr with ⟨_, _, hr⟩ | ⟨_, hr⟩ <;> cases hr
    | content _ _ hr => rcases hr with ⟨_, _, hr⟩ | ⟨_, hr⟩ <;> cases hr
    | post h2 h3 h4 hr =>
      rcases hr with ⟨hr', hr⟩ | ⟨_, _, hr⟩ | ⟨_, hr⟩
      · cases hr; cases hr'
        obtain ⟨gu, rep, rfl, h5, h6⟩ := exec_postDecrypt_ok h4
        rw [List.append_assoc] at hg
        obtain ⟨pre, rfl, hp⟩ := Gated.checks hg
        exact ⟨ekm, kex, _, pre, _, _, gu, rep, rfl, hk, hp, hg, h2, h3, h5, h6⟩
      · cases hr
      · cases hr

end SM

/-- C39: if the key for this device comes with a key exchange, then a session is loaded, built or used, or anything lasting is done, only
if the identity key of the key exchange is the one known for the sending device. -/
theorem C39_matching (M : Mgr) (msg : Message) (t : List Ev) (r) (he : Exec (decrypt M msg) t r) (ekm : EncKM) (x : KeyExchange)
    (hk : keyForUs M msg = some (ekm, some x)) (e : Ev) (hm : e ∈ t) (hop : Op.recovers e.1 = true ∨ Op.lasting e.1 = true) :
    ∃ dev rest, Gated M msg t dev rest ∧ x.identityKey = dev.identityKey := by
  rcases (exec_decrypt he).split with ⟨h1, _⟩ | ⟨ekm', kex, dev, rest, hk', hg, ht⟩
  · have := (h1 e hm).quiet
    rw [this.1, this.2.1] at hop
    simp at hop
  · rw [hk] at hk'
    cases hk'
    refine ⟨dev, rest, hg, ?_⟩
    have ok : ∀ {t2 s km}, KeyRun M msg dev ekm (some x) t2 (.ok (s, km)) → x.identityKey = dev.identityKey := by
      intro t2 s km h
      cases h with
      | used h => exact (h x rfl).1
      | built hx h => cases hx; exact h
    cases ht with
    | post h2 => exact ok h2
    | content h2 => exact ok h2
    | keys h2 =>
      cases h2 with
      | mismatch =>
        obtain ⟨pre, rfl, hp⟩ := Gated.checks hg
        rw [List.append_nil] at hm
        have := (hp e hm).quiet
        rw [this.1, this.2.1] at hop
        simp at hop
      | start h => exact h x rfl
      | loadFailed h => exact h x rfl
      | noSession h => cases h
      | loaded h => exact h x rfl
      | useFailed h => exact (h x rfl).1
      | used h => exact (h x rfl).1
      | buildFailed hx h => cases hx; exact h
      | built hx h => cases hx; exact h

/-- A device evaluated as anything but distrusted passed the checks. -/
theorem SM.gated_of_eval {M : Mgr} {msg : Message} {t : List Ev} {r} (he : Exec (decrypt M msg) t r) {dev : DeviceInfo} {l : TrustLevel}
    (hm : (⟨.evalTrust dev, .ok l⟩ : Ev) ∈ t) (hl : l ≠ .distrusted) : ∃ rest, Gated M msg t dev rest := by
  have nl : ∀ {t1 : List Ev}, (∀ e ∈ t1, Op.looks e.1 = true) → (⟨.evalTrust dev, .ok l⟩ : Ev) ∉ t1 := fun h hm => by
    cases h _ hm
  have nr : ∀ {t2 : List Ev}, (∀ e ∈ t2, Op.recovers e.1 = true) → (⟨.evalTrust dev, .ok l⟩ : Ev) ∉ t2 := fun h hm => by
    cases h _ hm
  have gate : ∀ {bs t1 dev' rest} {l' : TrustLevel}, (∀ e ∈ t1, Op.looks e.1 = true) → (⟨.evalTrust dev, .ok l⟩ : Ev) ∉ rest →
      (⟨.evalTrust dev, .ok l⟩ : Ev) ∈ (⟨.getBackends, .ok bs⟩ :: (t1 ++ ⟨.evalTrust dev', .ok l'⟩ :: rest) : List Ev) → dev' = dev := by
    intro bs t1 dev' rest l' h1 hn hm
    simp only [List.mem_cons, List.mem_append] at hm
    rcases hm with hm | hm | hm | hm
    · cases hm
    · exact absurd hm (nl h1)
    · cases hm; rfl
    · exact absurd hm hn
  cases exec_decrypt he with
  | start => simp at hm
  | noBackends => simp at hm
  | unknown => simp at hm
  | notForUs => simp at hm
  | lookup h hk h1 =>
    simp only [List.mem_cons] at hm
    rcases hm with hm | hm
    · cases hm
    · exact absurd hm (nl h1)
  | evalFailed h hk h1 =>
    simp only [List.mem_cons, List.mem_append, List.not_mem_nil, or_false] at hm
    rcases hm with hm | hm | hm
    · cases hm
    · exact absurd hm (nl h1)
    · cases hm
  | distrusted h hk h1 =>
    simp only [List.mem_cons, List.mem_append, List.not_mem_nil, or_false] at hm
    rcases hm with hm | hm | hm
    · cases hm
    · exact absurd hm (nl h1)
    · cases hm; exact absurd rfl hl
  | keys h hk h1 hd hl' h2 =>
    cases gate h1 (nr h2.recovers) hm
    exact ⟨_, _, _, _, rfl, h, hd, hl', h1⟩
  | content h hk h1 hd hl' h2 h3 =>
    cases gate h1 (fun h => (List.mem_append.1 h).elim (nr h2.recovers) (nr h3.recovers)) hm
    exact ⟨_, _, _, _, rfl, h, hd, hl', h1⟩
  | post h hk h1 hd hl' h2 h3 h4 =>
    cases gate h1 (fun h => (List.mem_append.1 h).elim (fun h => (List.mem_append.1 h).elim (nr h2.recovers) (nr h3.recovers))
      fun h => by cases ops_postDecrypt.exec h4 _ h) hm
    exact ⟨_, _, _, _, rfl, h, hd, hl', h1⟩

theorem SM.foreign_rejected {M : Mgr} {msg : Message} {t : List Ev} {r} (he : Exec (decrypt M msg) t r) (ekm : EncKM) (x : KeyExchange)
    (hk : keyForUs M msg = some (ekm, some x)) (dev : DeviceInfo) (rest : List Ev) (hg : Gated M msg t dev rest)
    (hx : x.identityKey ≠ dev.identityKey) : rest = [] ∧ r = .raised .publicDataInconsistency := by
  cases exec_decrypt he with
  | start => obtain ⟨bs, t1, l, h, _⟩ := hg.backend; cases h
  | noBackends => obtain ⟨bs, t1, l, h, _⟩ := hg.backend; cases h
  | unknown h' => obtain ⟨bs, t1, l, h, _⟩ := hg.backend; simp at h
  | notForUs => obtain ⟨bs, t1, l, h, _⟩ := hg.backend; simp at h
  | lookup _ _ h3 =>
    obtain ⟨bs, t1, l, h, _⟩ := hg.backend
    have := h3 ⟨.evalTrust dev, .ok l⟩ (by rw [(List.cons.inj h).2]; simp)
    cases this
  | evalFailed _ _ h3 =>
    obtain ⟨bs, t1, l, h, _, _, _, h1'⟩ := hg.backend
    obtain ⟨_, h3, _⟩ := first_unique (P := fun e : Ev => Op.looks e.1 = false) (List.cons.inj h).2 rfl rfl
      (fun x hx => by simp [h3 x hx]) (fun x hx => by simp [h1' x hx])
    cases h3
  | distrusted _ _ h3 =>
    obtain ⟨bs, t1, l, h, _, _, hl, h1'⟩ := hg.backend
    obtain ⟨_, h3, _⟩ := first_unique (P := fun e : Ev => Op.looks e.1 = false) (List.cons.inj h).2 rfl rfl
      (fun x hx => by simp [h3 x hx]) (fun x hx => by simp [h1' x hx])
    cases h3
    exact absurd rfl hl
  | keys _ hk2 h3 hd2 hl2 h4 =>
    rw [hk] at hk2; cases hk2
    obtain ⟨rfl, rfl⟩ := Gated.unique hg ⟨_, _, _, rfl, ‹_›, hd2, hl2, h3⟩
    cases h4 with
    | mismatch _ h => rename_i hr; rcases hr with ⟨_, h5, rfl⟩ | ⟨h5, _⟩ <;> cases h5; exact ⟨rfl, rfl⟩
    | start h => exact absurd (h x rfl) hx
    | loadFailed h => exact absurd (h x rfl) hx
    | noSession h => cases h
    | loaded h => exact absurd (h x rfl) hx
    | useFailed h => exact absurd (h x rfl).1 hx
    | used h => exact absurd (h x rfl).1 hx
    | buildFailed hx' h => cases hx'; exact absurd h hx
    | built hx' h => cases hx'; exact absurd h hx
  | content _ hk2 h3 hd2 hl2 h4 =>
    rw [hk] at hk2; cases hk2
    obtain ⟨rfl, rfl⟩ := Gated.unique hg ⟨_, _, _, rfl, ‹_›, hd2, hl2, h3⟩
    cases h4 with
    | used h => exact absurd (h x rfl).1 hx
    | built hx' h => cases hx'; exact absurd h hx
  | post _ hk2 h3 hd2 hl2 h4 =>
    rw [hk] at hk2; cases hk2
    obtain ⟨rfl, rfl⟩ := Gated.unique hg ⟨_, _, _, rfl, ‹_›, hd2, hl2, h3⟩
    cases h4 with
    | used h => exact absurd (h x rfl).1 hx
    | built hx' h => cases hx'; exact absurd h hx

/-- C39, the error: if the sending device was evaluated as not distrusted and the key exchange has another identity key than the one known
for it, `decrypt` raises `PublicDataInconsistency` without any further interaction. -/
theorem C39_rejected (M : Mgr) (msg : Message) (t : List Ev) (r) (he : Exec (decrypt M msg) t r) (ekm : EncKM) (x : KeyExchange)
    (hk : keyForUs M msg = some (ekm, some x)) (dev : DeviceInfo) (l : TrustLevel) (hm : (⟨.evalTrust dev, .ok l⟩ : Ev) ∈ t)
    (hl : l ≠ .distrusted) (hx : x.identityKey ≠ dev.identityKey) :
    r = .raised .publicDataInconsistency ∧ ∃ u l, t = u ++ [⟨.evalTrust dev, .ok l⟩] := by
  obtain ⟨rest, hg⟩ := gated_of_eval he hm hl
  obtain ⟨rfl, rfl⟩ := foreign_rejected he ekm x hk dev rest hg hx
  obtain ⟨bs, t1, l, rfl, _⟩ := hg.backend
  exact ⟨rfl, ⟨.getBackends, .ok bs⟩ :: t1, l, rfl⟩

/-! ### C40 -/

/-- C40: the first lasting effect of `decrypt` is storing, in the backend of the message, the session that the backend returned when it
recovered the key material of this message, and by then the content has been recovered.  Whatever happens before changes no session, no
pre key, no bundle, and sends or queues nothing. -/
theorem C40_first (M : Mgr) (msg : Message) (t : List Ev) (r) (he : Exec (decrypt M msg) t r) (u : List Ev) (e : Ev) (v : List Ev)
    (ht : t = u ++ e :: v) (hl : Op.lasting e.1 = true) (hu : ∀ x ∈ u, Op.lasting x.1 = false) :
    ∃ ekm kex s km, keyForUs M msg = some (ekm, kex) ∧ e.1 = .storeSession msg.ns s ∧ (∃ g ∈ u, GaveKM msg.ns g ekm s km) ∧
      (msg.content.empty = true ∨ ∃ p, (⟨.decryptPlaintext msg.ns msg.content km, .ok p⟩ : Ev) ∈ u) := by
  have quiet : ∀ {w : List Ev}, t = w → (∀ x ∈ w, Op.lasting x.1 = false) → False := by
    rintro w rfl hw
    rw [hw e (by rw [ht]; simp)] at hl
    cases hl
  rcases (exec_decrypt he).split with ⟨h1, _⟩ | ⟨ekm, kex, dev, rest, hk, hg, htail⟩
  · exact (quiet rfl fun x hx => ((h1 x hx).quiet).2.1).elim
  · obtain ⟨pre, hpre, hp⟩ := Gated.checks hg
    have hq : ∀ x ∈ pre, Op.lasting x.1 = false := fun x hx => ((hp x hx).quiet).2.1
    cases htail with
    | keys h2 => exact (quiet hpre fun x hx => (List.mem_append.1 hx).elim (hq x) fun h => (recovers_quiet (h2.recovers x h)).1).elim
    | content h2 h3 =>
      refine (quiet hpre fun x hx => (List.mem_append.1 hx).elim (hq x) fun h => ?_).elim
      rcases List.mem_append.1 h with h | h
      · exact (recovers_quiet (h2.recovers x h)).1
      · exact (recovers_quiet (h3.recovers x h)).1
    | @post t2 s km t3 p t4 _ _ h2 h3 h4 =>
      have hq2 : ∀ x ∈ pre ++ (t2 ++ t3), Op.lasting x.1 = false := by
        intro x hx
        rcases List.mem_append.1 hx with h | h
        · exact hq x h
        · rcases List.mem_append.1 h with h | h
          · exact (recovers_quiet (h2.recovers x h)).1
          · exact (recovers_quiet (h3.recovers x h)).1
      have fin : ∀ a t', t4 = ⟨.storeSession msg.ns s, a⟩ :: t' → u = pre ++ (t2 ++ t3) ∧ e = ⟨.storeSession msg.ns s, a⟩ := by
        rintro a t' rfl
        have : u ++ e :: v = (pre ++ (t2 ++ t3)) ++ ⟨.storeSession msg.ns s, a⟩ :: t' := by rw [← ht, hpre]; simp
        obtain ⟨h1, h2, _⟩ := first_unique (P := fun e : Ev => Op.lasting e.1 = true) this hl rfl (fun x hx => by simp [hu x hx])
          fun x hx => by simp [hq2 x hx]
        exact ⟨h1, h2⟩
      have res : (∃ a, e = ⟨.storeSession msg.ns s, a⟩) ∧ u = pre ++ (t2 ++ t3) := by
        rcases exec_postDecrypt h4 with ⟨rfl, _⟩ | ⟨x, h, _⟩ | ⟨t', h, _⟩
        · rw [List.append_nil] at hpre
          exact (quiet hpre hq2).elim
        · exact ⟨⟨_, (fin _ _ h).2⟩, (fin _ _ h).1⟩
        · exact ⟨⟨_, (fin _ _ h).2⟩, (fin _ _ h).1⟩
      obtain ⟨⟨a, rfl⟩, rfl⟩ := res
      obtain ⟨g, hg1, hg2⟩ := h2.gave
      refine ⟨ekm, kex, s, km, hk, rfl, ⟨g, by simp [hg1], hg2⟩, ?_⟩
      cases h3 with
      | empty h => exact .inl h
      | opened h => exact .inr ⟨_, List.mem_append_right _ (List.mem_append_right _ (List.mem_singleton_self _))⟩

/-- C40, failures: as long as the key material or the content of the message has not been recovered, nothing lasting has happened. -/
theorem C40_failed (M : Mgr) (msg : Message) (t : List Ev) (r) (he : Exec (decrypt M msg) t r)
    (hf : (∀ g ∈ t, ∀ ekm s km, ¬ GaveKM msg.ns g ekm s km) ∨
      (msg.content.empty = false ∧ ∀ km p, (⟨.decryptPlaintext msg.ns msg.content km, .ok p⟩ : Ev) ∉ t)) :
    ∀ e ∈ t, Op.lasting e.1 = false := by
  intro e hm
  refine Classical.byContradiction fun hc => ?_
  obtain ⟨u, a, v, rfl, h1, h2⟩ := exists_first (P := fun e : Ev => Op.lasting e.1 = true) ⟨e, hm, by simpa using hc⟩
  obtain ⟨ekm, kex, s, km, _, _, ⟨g, hg, hg'⟩, h4⟩ := C40_first M msg _ r he u a v rfl h1 fun x hx => by simpa using h2 x hx
  rcases hf with hf | ⟨hf, hf'⟩
  · exact hf g (by simp [hg]) _ _ _ hg'
  · rcases h4 with h4 | ⟨p, h4⟩
    · rw [hf] at h4; cases h4
    · exact hf' km p (by simp [h4])

/-- C40, success: the session returned with the key material is stored. -/
theorem C40_stored (M : Mgr) (msg : Message) (t : List Ev) (p : Option Bytes) (dev : DeviceInfo) (km : PlainKM)
    (he : Exec (decrypt M msg) t (.ok (p, dev, km))) :
    ∃ ekm kex s u v, keyForUs M msg = some (ekm, kex) ∧ t = u ++ ⟨.storeSession msg.ns s, .ok ()⟩ :: v ∧ ∃ g ∈ u, GaveKM msg.ns g ekm s km := by
  obtain ⟨ekm, kex, s, pre, t2, t3, gu, rep, h⟩ := exec_decrypt_ok he
  obtain ⟨g, h1, h2⟩ := h.keys.gave
  exact ⟨ekm, kex, s, pre ++ (t2 ++ t3), gu ++ rep, h.key, by rw [h.eq]; simp, g, by simp [h1], h2⟩

/-! ### C41 -/

namespace SM
variable {M : Mgr} {msg : Message}

theorem uses_recovers {o : Op} (h : Op.usesSession o = true) : Op.recovers o = true := by
  unfold Op.usesSession at h
  split at h <;> first | rfl | cases h

theorem late_quiet {k : Bool} {o : Op} (h : late k o = true) : Op.recovers o = false ∧ ¬ Checks o ∨ ∃ k, o = .load k := by
  have hc : ∀ {o : Op}, Op.looks o = false → (∀ dev, o ≠ .evalTrust dev) → ¬ Checks o := by
    rintro o h1 h2 (h | ⟨dev, h⟩)
    · rw [h1] at h; cases h
    · exact h2 _ h
  unfold late at h
  split at h <;> first | (cases h; done) | exact .inr ⟨_, rfl⟩ | exact .inl ⟨rfl, hc rfl nofun⟩

/-- The interactions that recover key material are all in the part for the key material. -/
theorem uses_part {t : List Ev} {r} (he : Exec (decrypt M msg) t r) {e : Ev} (hm : e ∈ t)
    (hu : Op.usesSession e.1 = true ∨ ∃ ns j d, e.1 = .loadSession ns j d) :
    ∃ ekm kex dev rest t2 r2, keyForUs M msg = some (ekm, kex) ∧ Gated M msg t dev rest ∧ KeyRun M msg dev ekm kex t2 r2 ∧ e ∈ t2 ∧
      (∀ x ∈ t2, x ∈ t) ∧ ∀ x, r2 = .raised x → r = .raised x := by
  have hrec : Op.recovers e.1 = true := by
    rcases hu with hu | ⟨ns, j, d, hu⟩
    · exact uses_recovers hu
    · rw [hu]; rfl
  have hno : ∀ {km : PlainKM} {t3 : List Ev} {r}, OpenRun msg km t3 r → e ∉ t3 := by
    intro km t3 r h hm
    cases h with
    | empty => cases hm
    | start => cases hm
    | failed => cases List.mem_singleton.1 hm; rcases hu with hu | ⟨_, _, _, hu⟩ <;> cases hu
    | opened => cases List.mem_singleton.1 hm; rcases hu with hu | ⟨_, _, _, hu⟩ <;> cases hu
  rcases (exec_decrypt he).split with ⟨h1, _⟩ | ⟨ekm, kex, dev, rest, hk, hg, ht⟩
  · rw [((h1 e hm).quiet).1] at hrec; cases hrec
  obtain ⟨pre, rfl, hp⟩ := Gated.checks hg
  replace hm : e ∈ rest := by
    rcases List.mem_append.1 hm with h | h
    · rw [((hp e h).quiet).1] at hrec; cases hrec
    · exact h
  cases ht with
  | keys h2 hr =>
    refine ⟨ekm, kex, dev, _, _, _, hk, hg, h2, hm, fun x hx => by simp [hx], ?_⟩
    rintro x rfl
    rcases hr with ⟨_, h, rfl⟩ | ⟨h, _⟩ <;> cases h
    rfl
  | content h2 h3 =>
    rcases List.mem_append.1 hm with h | h
    · exact ⟨ekm, kex, dev, _, _, _, hk, hg, h2, h, fun x hx => by simp [hx], by simp⟩
    · exact absurd h (hno h3)
  | post h2 h3 h4 =>
    rcases List.mem_append.1 hm with h | h
    · rcases List.mem_append.1 h with h | h
      · exact ⟨ekm, kex, dev, _, _, _, hk, hg, h2, h, fun x hx => by simp [hx], by simp⟩
      · exact absurd h (hno h3)
    · rcases late_quiet (ops_postDecrypt.exec h4 _ h) with h | ⟨k, h⟩
      · rw [h.1] at hrec; cases hrec
      · rw [h] at hrec; cases hrec

end SM

/-- C41, existing sessions: key material is decrypted only with the session loaded for the sending device, and, if there is a key
exchange, only if this session was built passively by the same key exchange. -/
theorem C41_used (M : Mgr) (msg : Message) (t : List Ev) (r) (he : Exec (decrypt M msg) t r) (ns : Ns) (s0 : Session) (k : EncKM) (a)
    (hm : (⟨.decryptKM ns s0 k, a⟩ : Ev) ∈ t) :
    ns = msg.ns ∧ (⟨.loadSession msg.ns msg.bareJid msg.deviceId, .ok (some s0)⟩ : Ev) ∈ t ∧
      ∃ kex, keyForUs M msg = some (k, kex) ∧ ∀ x, kex = some x → Same M s0 x := by
  obtain ⟨ekm, kex, dev, rest, t2, r2, hk, hg, h2, h3, h4, _⟩ := uses_part he hm (.inl rfl)
  obtain ⟨bs, t1, l, _, _, hd, _⟩ := hg.backend
  cases h2 with
  | mismatch => cases h3
  | start => cases h3
  | loadFailed => simp at h3
  | noSession => simp at h3
  | loaded => simp at h3
  | useFailed h =>
    simp only [List.mem_cons, List.not_mem_nil, or_false] at h3
    rcases h3 with h3 | h3 <;> cases h3
    exact ⟨rfl, h4 _ (by rw [hd.bareJid, hd.deviceId]; exact List.mem_cons_self), kex, hk, fun x hx => (h x hx).2⟩
  | used h =>
    simp only [List.mem_cons, List.not_mem_nil, or_false] at h3
    rcases h3 with h3 | h3 <;> cases h3
    exact ⟨rfl, h4 _ (by rw [hd.bareJid, hd.deviceId]; exact List.mem_cons_self), kex, hk, fun x hx => (h x hx).2⟩
  | buildFailed =>
    simp only [List.mem_cons, List.not_mem_nil, or_false] at h3
    rcases h3 with h3 | h3 <;> cases h3
  | built =>
    simp only [List.mem_cons, List.not_mem_nil, or_false] at h3
    rcases h3 with h3 | h3 <;> cases h3

/-- C41, new sessions: a session is built only from the key exchange that comes with the key for this device, for the sending device, and
only if there is no stored session built passively by the same key exchange. -/
theorem C41_built (M : Mgr) (msg : Message) (t : List Ev) (r) (he : Exec (decrypt M msg) t r) (ns : Ns) (j : Jid) (d : DevId)
    (x : KeyExchange) (k : EncKM) (a) (hm : (⟨.buildPassive ns j d x k, a⟩ : Ev) ∈ t) :
    ns = msg.ns ∧ j = msg.bareJid ∧ d = msg.deviceId ∧ keyForUs M msg = some (k, some x) ∧
      ∃ o, (⟨.loadSession msg.ns msg.bareJid msg.deviceId, .ok o⟩ : Ev) ∈ t ∧ ∀ s0, o = some s0 → ¬ Same M s0 x := by
  obtain ⟨ekm, kex, dev, rest, t2, r2, hk, hg, h2, h3, h4, _⟩ := uses_part he hm (.inl rfl)
  obtain ⟨bs, t1, l, _, _, hd, _⟩ := hg.backend
  cases h2 with
  | mismatch => cases h3
  | start => cases h3
  | loadFailed => simp at h3
  | noSession => simp at h3
  | loaded => simp at h3
  | useFailed h =>
    simp only [List.mem_cons, List.not_mem_nil, or_false] at h3
    rcases h3 with h3 | h3 <;> cases h3
  | used h =>
    simp only [List.mem_cons, List.not_mem_nil, or_false] at h3
    rcases h3 with h3 | h3 <;> cases h3
  | buildFailed hx _ hs =>
    simp only [List.mem_cons, List.not_mem_nil, or_false] at h3
    rcases h3 with h3 | h3 <;> cases h3
    cases hx
    exact ⟨rfl, hd.bareJid, hd.deviceId, hk, _, h4 _ (by rw [hd.bareJid, hd.deviceId]; exact List.mem_cons_self), hs⟩
  | built hx _ hs =>
    simp only [List.mem_cons, List.not_mem_nil, or_false] at h3
    rcases h3 with h3 | h3 <;> cases h3
    cases hx
    exact ⟨rfl, hd.bareJid, hd.deviceId, hk, _, h4 _ (by rw [hd.bareJid, hd.deviceId]; exact List.mem_cons_self), hs⟩

/-- C41, no session: without key exchange and without stored session `decrypt` raises `NoSession`. -/
theorem C41_noSession (M : Mgr) (msg : Message) (t : List Ev) (r) (he : Exec (decrypt M msg) t r) (ns : Ns) (j : Jid) (d : DevId)
    (k : EncKM) (hk : keyForUs M msg = some (k, none)) (hm : (⟨.loadSession ns j d, .ok none⟩ : Ev) ∈ t) : r = .raised .noSession := by
  obtain ⟨ekm, kex, dev, rest, t2, r2, hk', hg, h2, h3, h4, h5⟩ := uses_part he hm (.inr ⟨_, _, _, rfl⟩)
  rw [hk] at hk'; cases hk'
  cases h2 with
  | mismatch => cases h3
  | start => cases h3
  | loadFailed => simp at h3
  | noSession => exact h5 _ rfl
  | loaded _ h =>
    cases List.mem_singleton.1 h3
    exact absurd rfl (h rfl)
  | useFailed h =>
    simp only [List.mem_cons, List.not_mem_nil, or_false] at h3
    rcases h3 with h3 | h3 <;> cases h3
  | used h =>
    simp only [List.mem_cons, List.not_mem_nil, or_false] at h3
    rcases h3 with h3 | h3 <;> cases h3
  | buildFailed hx _ hs => cases hx
  | built hx _ hs => cases hx

/-- C41, exactly one session: when `decrypt` succeeds, key material was recovered exactly once. -/
theorem C41_once (M : Mgr) (msg : Message) (t : List Ev) (p : Option Bytes) (dev : DeviceInfo) (km : PlainKM)
    (he : Exec (decrypt M msg) t (.ok (p, dev, km))) : (t.filter fun e => Op.usesSession e.1).length = 1 := by
  obtain ⟨ekm, kex, s, pre, t2, t3, gu, rep, h⟩ := exec_decrypt_ok he
  have h1 : pre.filter (fun e => Op.usesSession e.1) = [] := by
    rw [List.filter_eq_nil_iff]
    intro e he hu
    have := ((h.checks e he).quiet).1
    rw [uses_recovers hu] at this
    cases this
  have h2 : (t2.filter (fun e => Op.usesSession e.1)).length = 1 := by cases h.keys <;> rfl
  have h3 : t3.filter (fun e => Op.usesSession e.1) = [] := by cases h.opened <;> rfl
  have h4 : gu.filter (fun e => Op.usesSession e.1) = [] := by
    rcases h.givenUp with ⟨_, h⟩ | ⟨_, rfl⟩
    · cases h with
      | hide h1 => cases h1 with
        | unchanged => rfl
        | changed h1 => cases h1 <;> rfl
      | delete h1 => cases h1 with
        | unchanged => rfl
        | changed h1 => cases h1 <;> rfl
    · rfl
  have h5 : rep.filter (fun e => Op.usesSession e.1) = [] := by
    rcases h.replied with ⟨_, h⟩ | ⟨_, rfl⟩
    · cases h <;> rfl
    · rfl
  rw [h.eq]
  simp only [List.filter_append, h1, h3, List.nil_append]
  rw [List.length_append, h2, List.filter_cons_of_neg (by simp [Op.usesSession]), List.filter_append, h4, h5]
  rfl

end Verif
