import Verif.Props.Silent
import Verif.Props.Attribution
/-
Whom the library contacts.
-/
namespace Verif
open SM Spec Foot

namespace Spec

/-- The interaction asks for something of the account `j`, or sends it something. -/
inductive Contacts (j : Jid) : Op → Prop
  | list (ns : Ns) : Contacts j (.downloadList ns j)
  | bundle (ns : Ns) (d : DevId) : Contacts j (.downloadBundle ns j d)
  | message (m : Message) : Contacts j (.sendMessage m j)

/-- The application names the account `j` in a call that is about contacting it: the recipients and the sender of messages, accounts whose device lists, devices or sessions are asked for. -/
inductive Names (j : Jid) : Call → Prop
  | list (ns : Ns) : Names j (.refreshDeviceList ns j)
  | lists : Names j (.refreshDeviceLists j)
  | replace (d : DevId) : Names j (.replaceSessions j d)
  | info : Names j (.getDeviceInformation j)
  | recipient {js : List Jid} (pt : Dict Ns Bytes) (pr : Option (List Ns)) (i : Option String) : j ∈ js → Names j (.encrypt js pt pr i)
  | sender (m : Message) : m.bareJid = j → Names j (.decrypt m)

/-- The trust decision contacts nobody and queues no replies. -/
def Reserved (M : Mgr) : Prop := ∀ ds i, AllOps (fun o : Op => (∀ j, ¬ Contacts j o) ∧ ∀ ns v, o ≠ .store (.queue ns) v) (M.decide ds i)

/-- Replies are queued for accounts in `A` only. -/
def QueuedFor (A : Jid → Prop) (m : Disk) : Prop := ∀ ns l, m (.queue ns) = some (.list l) → ∀ j ∈ l.map JVal.asStr, A j

end Spec

namespace Contact
variable {A : Jid → Prop} {M : Mgr} {K : List Ev → Prop}

/-- A queue was read that contains `j`. -/
def Read (h : List Ev) (j : Jid) : Prop := ∃ ns l, (⟨.load (.queue ns), .ok (some (.list l))⟩ : Ev) ∈ h ∧ j ∈ l.map JVal.asStr

/-- `j` is allowed, or was found in a queue, or is the JID of a session that was asked for with such a JID. -/
def Src (A : Jid → Prop) (h : List Ev) (j : Jid) : Prop :=
  (A j ∨ Read h j) ∨ ∃ ns j' d s, Made h ns j' d s ∧ s.bareJid = j ∧ (A j' ∨ Read h j')

theorem Read.mono {h h' : List Ev} {j} (hs : h ⊆ h') (hr : Read h j) : Read h' j := let ⟨ns, l, h1, h2⟩ := hr; ⟨ns, l, hs h1, h2⟩

theorem Src.mono {h h' : List Ev} {j} (hs : h ⊆ h') (hr : Src A h j) : Src A h' j := by
  rcases hr with hr | ⟨ns, j', d, s, h1, h2, h3⟩
  · exact .inl (hr.imp_right (Read.mono hs))
  · exact .inr ⟨ns, j', d, s, Belongs.Made.mono (fun _ h => hs h) h1, h2, h3.imp_right (Read.mono hs)⟩

instance {j} : Lasting (fun h => Read h j) := ⟨fun _ _ => Read.mono (List.subset_append_left ..)⟩

/-- What precedes contacts and changes to the queues. -/
def Rule (A : Jid → Prop) (h : List Ev) : Op → Prop
  | .downloadList _ j => A j
  | .downloadBundle _ j _ => A j
  | .sendMessage _ j => Src A h j
  | .store (.queue _) v => ∃ l : List String, v = .ofStrs l ∧ ∀ j ∈ l, Src A h j
  | _ => True

theorem Rule.mono {h h' : List Ev} {o : Op} (hr : Rule A h o) (hs : h ⊆ h') : Rule A h' o := by
  unfold Rule at *
  split at hr
  · exact hr
  · exact hr
  · exact Src.mono hs hr
  · obtain ⟨l, h1, h2⟩ := hr
    exact ⟨l, h1, fun j hj => Src.mono hs (h2 j hj)⟩
  · trivial

/-- Interactions that are fine at any time. -/
def Easy (A : Jid → Prop) : Op → Prop
  | .downloadList _ j => A j
  | .downloadBundle _ j _ => A j
  | .sendMessage _ _ => False
  | .store (.queue _) _ => False
  | _ => True

theorem Easy.rule {o : Op} (h : Easy A o) (x : List Ev) : Rule A x o := by
  unfold Easy at h
  split at h <;> first
    | exact h.elim
    | exact h
    | (unfold Rule; split <;> first | trivial | (exfalso; simp_all; done))

variable [Lasting K]

theorem easy {α : Type} {p : P α} (h : AllOps (Easy A) p) : Kn (Rule A) K p (fun _ _ => True) := Kn.ops (h.mono fun _ ho x _ => ho.rule x)

omit [Lasting K] in
theorem easy_call {o : Op} (h : Easy A o) : Kn (Rule A) K (call o) (fun a h => (⟨o, .ok a⟩ : Ev) ∈ h) := Kn.call fun x _ => h.rule x

theorem easy_info {jid : Jid} (ha : A jid) {o : Op} (h : Info jid o) : Easy A o := by cases h <;> first | trivial | exact ha

theorem easy_update {ns : Ns} {jid : Jid} {o : Op} (h : Update M ns jid o) : Easy A o := by cases h <;> trivial

theorem easy_refresh {ns : Ns} {jid : Jid} (ha : A jid) {o : Op} (h : Refresh M ns jid o) : Easy A o := by
  cases h with
  | download => exact ha
  | update h => exact easy_update h

theorem easy_purge {ns : Ns} (ha : A M.ownJid) {o : Op} (h : PurgeBackend M ns o) : Easy A o := by
  cases h with
  | info h => exact easy_info ha h
  | download => exact ha
  | _ => trivial

theorem easy_create (ha : A M.ownJid) {o : Op} (h : Ikp o ∨ Create M o) : Easy A o := by
  rcases h with h | h
  · cases h <;> trivial
  · cases h with
    | refresh ns d h => exact easy_refresh (M := { M with ownDev := d }) ha h
    | info h => exact easy_info ha h
    | purge ns d h => exact easy_purge (M := { M with ownDev := d }) ha h
    | download => exact ha
    | _ => trivial

/-! ### Queues and replies -/

theorem kn_loadQueue (ns : Ns) : Kn (Rule A) K (Sto.loadStrs (.queue ns)) (fun x h => ∀ j, j ∈ Maybe.maybe x [] → Read h j) := by
  unfold Sto.loadStrs
  refine Kn.bind (easy_call trivial) fun v => ?_
  cases v with
  | none => exact Kn.ret fun _ _ _ h => by cases h
  | some v =>
    simp only [Maybe.fmap]
    cases v with
    | list l =>
      cases hc : checkList .str (.list l) with
      | error e => exact Kn.raise
      | ok l' =>
        have : l' = l := by
          simp only [checkList] at hc
          split at hc
          · cases hc; rfl
          · cases hc
        subst this
        exact Kn.ret fun h hk j hj => ⟨ns, _, hk.2, hj⟩
    | _ => exact Kn.raise

theorem kn_send (ns : Ns) (j : Jid) (d : DevId) (s : Session) (hs : ∀ h, K h → Made h ns j d s) (ha : ∀ h, K h → A j ∨ Read h j) :
    Kn (Rule A) K (sendEmptyMessage M ns s) (fun _ _ => True) := by
  unfold sendEmptyMessage
  refine Kn.seq (easy_call trivial) fun x => ?_
  obtain ⟨content, km⟩ := x
  refine Kn.bind (easy_call trivial) fun x => ?_
  obtain ⟨ekm, session⟩ := x
  exact Kn.seq (Kn.call fun h hk => .inr ⟨ns, j, d, session, .encrypt (hs h hk.1) hk.2, rfl, ha h hk.1⟩) fun _ => easy (.perform trivial)

theorem kn_after : Kn (Rule A) K (afterHistorySync M) (fun _ _ => True) := by
  unfold afterHistorySync sendQueuedBackend sendQueuedJid sendQueued
  refine Kn.seq (easy_call trivial) fun _ => Kn.seq (easy_call trivial) fun bs => Kn.seq (Kn.forEach fun ns _ => easy (.perform trivial)) fun _ =>
    Kn.seq (easy_call trivial) fun bs' => Kn.forEach fun ns _ => Kn.bind (kn_loadQueue ns) fun jids => ?_
  haveI : Lasting (fun h => ∀ j, j ∈ Maybe.maybe jids [] → Read h j) := inferInstance
  refine Kn.seq (easy_call trivial) fun _ => Kn.forEach fun jid hj => Kn.seq (easy (allOps_loadInts trivial)) fun ids => Kn.seq (easy_call trivial) fun _ =>
    Kn.forEach fun d _ => Kn.bind (easy_call trivial) fun s => ?_
  split
  · exact Kn.pure fun _ _ => trivial
  · exact kn_send ns jid d _ (fun h hk => .load hk.2) fun h hk => .inr (hk.1.2 jid (mem_dedup.1 (SetOrder.mem_iter.1 hj)))

theorem kn_replace {jid : Jid} (ha : A jid) (d : DevId) (ns : Ns) : Kn (Rule A) K (replaceSession M jid d ns) (fun _ _ => True) := by
  unfold replaceSession
  refine Kn.seq (easy_call trivial) fun x => ?_
  obtain ⟨content, km⟩ := x
  refine Kn.seq (easy_call ha) fun bundle => Kn.seq (easy_call trivial) fun x => ?_
  obtain ⟨session, ekm⟩ := x
  exact Kn.seq (Kn.call fun h hk => .inl (.inl ha)) fun _ => easy (.perform trivial)

theorem pureK {α : Type} {p : P α} {R : α → Prop} (hp : AllOps (Easy A) p) (hr : ∀ t a, Exec p t (.ok a) → R a) : Kn (Rule A) K p (fun a _ => R a) := by
  intro h hk
  induction p generalizing h with
  | ret a => exact hr [] a (.ret a)
  | raise => trivial
  | op o k ih => exact ⟨hp.1.rule h, fun r => ih r (hp.2 r) (fun t a he => hr (⟨o, r⟩ :: t) a (.op r he)) _ (Lasting.step _ _ hk)⟩

theorem kn_info {jid : Jid} (ha : A jid) : Kn (Rule A) K (getDeviceInformation M jid) (fun x _ => ∀ dev ∈ x, dev.bareJid = jid) :=
  pureK ((ops_getDeviceInformation M jid).mono fun _ => easy_info ha) fun _ _ he =>
    (Grd.exec (Belongs.kn_info (K := fun _ => True) (own := "") (dev := 0) (In := fun _ => True) (M := M) jid [] trivial) he).2 _ rfl

theorem kn_info' {jid : Jid} (ha : A jid) : Kn (Rule A) K (getDeviceInformation' M jid) (fun x _ => ∀ dev, dev ∈ x.1 → dev.bareJid = jid) :=
  pureK ((ops_getDeviceInformation' M jid).mono fun _ => easy_info ha) fun _ _ he =>
    ((Grd.exec (Belongs.kn_info' (K := fun _ => True) (own := "") (dev := 0) (In := fun _ => True) (M := M) jid [] trivial) he).2 _ rfl).1

theorem kn_replaces {jid : Jid} (ha : A jid) (d : DevId) : Kn (Rule A) K (replaceSessions M jid d) (fun _ _ => True) := by
  unfold replaceSessions
  refine Kn.bind (kn_info ha) fun devices => Kn.bind (R := fun x _ => x ∈ devices) ?_ fun device => ?_
  · cases hf : (M.O.iter devices).find? fun dev => decide (dev.deviceId = d) with
    | none => exact Kn.raise
    | some x => exact Kn.ret fun _ _ => SetOrder.mem_iter.1 (List.mem_of_find?_eq_some hf)
  · intro h hk
    have hj : A device.bareJid := by rw [hk.1.2 device hk.2]; exact ha
    revert h hk
    refine Kn.seq (easy_call trivial) fun bs => Kn.seq (Kn.filterAll fun ns _ => Kn.seq (easy_call trivial) fun _ => Kn.pure fun _ _ => trivial) fun ws =>
      Kn.seq (easy_call trivial) fun bs' => Kn.fold (fun _ _ => trivial) fun un ns _ => ?_
    split
    · refine Kn.tryElse (kn_replace hj _ ns) (fun e => ?_) fun _ => Kn.pure fun _ _ => trivial
      split
      · exact Kn.pure fun _ _ => trivial
      · exact Kn.raise
    · exact Kn.pure fun _ _ => trivial

/-! ### Messages -/

theorem kn_queue (ns : Ns) (j : Jid) (d : DevId) (s : Session) (hs : ∀ h, K h → Made h ns j d s) (ha : A j) : Kn (Rule A) K (queueEmpty M s) (fun _ _ => True) := by
  unfold queueEmpty
  refine Kn.bind (kn_loadQueue _) fun jids => ?_
  haveI : Lasting (fun h => ∀ j, j ∈ Maybe.maybe jids [] → Read h j) := inferInstance
  refine Kn.seq (Kn.call fun h hk => ⟨_, rfl, fun x hx => ?_⟩) fun _ => Kn.seq (easy (allOps_loadInts trivial)) fun ids => easy (.perform trivial)
  rcases mem_setAdd.1 (SetOrder.mem_iter.1 hx) with hx | rfl
  · exact .inl (.inr (hk.2 x (mem_dedup.1 hx)))
  · exact .inr ⟨ns, j, d, s, hs h hk.1, rfl, .inl ha⟩

theorem kn_post (msg : Message) (kex : Option KeyExchange) (s : Session) (ha : A msg.bareJid) (hs : ∀ h, K h → Made h msg.ns msg.bareJid msg.deviceId s) :
    Kn (Rule A) K (postDecrypt M msg.ns kex s) (fun _ _ => True) := by
  unfold postDecrypt autoReply
  refine Kn.seq (easy_call trivial) fun _ => Kn.seq (Kn.when' fun _ => easy ?_) fun _ => Kn.when' fun _ => Kn.seq (easy_call trivial) fun sync => ?_
  · unfold consumePreKey discardPreKey refillPreKeys
    lib_ops []
    all_goals trivial
  · split
    · exact kn_queue msg.ns _ _ s hs ha
    · exact kn_send msg.ns _ _ s hs fun _ _ => .inl ha

theorem kn_content (msg : Message) (x : DeviceInfo) (k : EncKM) (kex : Option KeyExchange) (hx : x.bareJid = msg.bareJid ∧ x.deviceId = msg.deviceId) :
    Kn (Rule A) K (decryptContent M msg x k kex) (fun r h => Made h msg.ns msg.bareJid msg.deviceId r.2.1) := by
  have hdec : ∀ {L : List Ev → Prop} [Lasting L] (s : Session), (∀ h, L h → Made h msg.ns msg.bareJid msg.deviceId s) →
      Kn (Rule A) L (do let (km, session) ← call (.decryptKM msg.ns s k); pure (session, km) : P (Session × PlainKM)) (fun r h => Made h msg.ns msg.bareJid msg.deviceId r.1) := by
    intro L _ s hs
    refine Kn.bind (easy_call trivial) fun r => ?_
    obtain ⟨km, s'⟩ := r
    exact Kn.pure fun h hk => .decrypt (hs h hk.1) hk.2
  unfold decryptContent
  refine Kn.seq (easy_call trivial) fun level => ?_
  split
  · exact Kn.raise
  refine Kn.bind (R := fun r h => Made h msg.ns msg.bareJid msg.deviceId r.1) ?_ fun r => ?_
  · unfold keyMaterial
    cases kex with
    | none =>
      dsimp only
      unfold decryptKeyMaterial
      refine Kn.bind (easy_call trivial) fun so => ?_
      cases so with
      | none => exact Kn.raise
      | some s => exact hdec s fun h hk => .load (by rw [← hx.1, ← hx.2]; exact hk.2)
    | some kex =>
      dsimp only
      unfold handleKeyExchange
      split
      · exact Kn.raise
      refine Kn.bind (easy_call trivial) fun so => ?_
      split
      · refine Kn.post (easy_call (K := fun h => K h ∧ _) trivial) fun r h hr => ?_
        obtain ⟨s, km⟩ := r
        rw [hx.1, hx.2] at hr
        exact .passive hr
      · rename_i s hs
        have hs := (Option.filter_eq_some_iff.1 hs).1
        exact hdec s fun h hk => .load (by rw [← hx.1, ← hx.2, ← hs]; exact hk.2)
  · obtain ⟨s, km⟩ := r
    refine Kn.seq (R := fun _ _ => True) (easy ?_) fun pt => Kn.pure fun h hk => hk.2
    unfold plaintextOf
    lib_ops []
    all_goals trivial

theorem kn_decrypt (msg : Message) (ha : A msg.bareJid) : Kn (Rule A) K (decrypt M msg) (fun _ _ => True) := by
  unfold decrypt
  refine Kn.seq (easy_call trivial) fun bs => ?_
  split
  · exact Kn.raise
  split
  · exact Kn.raise
  rename_i k kex hk
  refine Kn.bind (R := fun x _ => x.bareJid = msg.bareJid ∧ x.deviceId = msg.deviceId) (pureK ?_ fun t x he => ?_) fun x h hx => ?_
  · unfold findSender
    have h1 := (ops_getDeviceInformation M msg.bareJid).mono fun _ => easy_info ha
    have h2 := (ops_refreshDeviceList M msg.ns msg.bareJid).mono fun _ => easy_refresh ha
    lib_ops [h1, h2]
  · exact (Grd.exec (Belongs.kn_findSender (K := fun _ => True) (own := "") (dev := 0) (In := fun _ => True) (M := M) msg [] trivial) he).2 _ rfl
  · refine (Kn.bind (kn_content (K := K) msg x k kex hx.2) fun r => ?_) h hx.1
    obtain ⟨pt, s, km⟩ := r
    exact Kn.seq (kn_post msg kex s ha fun h hk => hk.2) fun _ => Kn.pure fun _ _ => trivial

/-- All devices are of allowed accounts. -/
abbrev Of (A : Jid → Prop) (ds : List DeviceInfo) : Prop := ∀ dev, dev ∈ ds → A dev.bareJid

theorem kn_recipients (order : List Ns) (jids : List Jid) (ha : ∀ j ∈ jids, A j) : Kn (Rule A) K (recipientDevices M order jids) (fun x _ => Of A x.1) := by
  unfold recipientDevices
  refine Kn.bind (Kn.mapAll (S := fun x _ => Of A x.1) fun jid hj => (kn_info' (ha jid (SetOrder.mem_iter.1 hj))).post fun x h hx dev hd => ?_) fun tmp => ?_
  · rw [hx dev hd]; exact ha jid (SetOrder.mem_iter.1 hj)
  dsimp only
  haveI : Lasting (fun _ : List Ev => ∀ y, y ∈ tmp → Of A y.1) := Lasting.const
  refine Kn.bind (Kn.filterAll fun _ _ => easy (allOps_liftE _)) fun devices => ?_
  haveI : Lasting (fun _ : List Ev => ∀ y, y ∈ devices → y ∈ M.O.iter (dedup (tmp.map (·.1)).flatten)) := Lasting.const
  intro h hk
  have hds : Of A devices := by
    intro y hy
    obtain ⟨l, hl, hy⟩ := List.mem_flatten.1 (mem_dedup.1 (SetOrder.mem_iter.1 (hk.2 y hy)))
    obtain ⟨z, hz, rfl⟩ := List.mem_map.1 hl
    exact hk.1.2 z hz y hy
  revert h hk
  refine Kn.bind (Kn.mapAll (S := fun x _ => A x.bareJid) fun x hx => ?_) fun ds => Kn.pure fun h hk y hy => ?_
  · have hx := hds x (SetOrder.mem_iter.1 hx)
    unfold applyPriority
    cases activeNamespaces x with
    | error e => exact Kn.raise
    | ok l => exact Kn.ret fun _ _ => hx
  · exact hk.2 y (mem_dedup.1 (List.mem_filter.1 hy).1)

theorem kn_trust (level : TrustLevel) (ds : List DeviceInfo) : Kn (Rule A) K (devicesWithTrust level ds) (fun ys _ => ∀ y, y ∈ ys → y ∈ ds) := by
  unfold devicesWithTrust
  refine Kn.filterAll fun x _ => easy ?_
  lib_ops []
  all_goals trivial

theorem kn_forDevice (ns : Ns) (x : DeviceInfo) (so : Option Session) (bo : Option Bundle) (km : PlainKM) (ha : A x.bareJid) : AllOps (Easy A) (encryptForDevice ns x so bo km) := by
  unfold encryptForDevice bundleFor
  lib_ops []
  all_goals first | trivial | exact ha

theorem kn_backend (cache : List Bundle) (pt : Dict Ns Bytes) (st : EncAll) (ns : Ns) (ha : Of A st.devices) :
    Kn (Rule A) K (encryptBackend M cache pt st ns) (fun st' _ => Of A st'.devices) := by
  unfold encryptBackend
  dsimp only
  split
  · exact Kn.pure fun _ _ => ha
  split
  · exact Kn.raise
  refine Kn.seq (easy_call trivial) fun x => ?_
  obtain ⟨content, km⟩ := x
  refine Kn.bind (Kn.fold (S := fun st' _ => Of A st'.devices) (fun h hk => ha) fun st' x hx => ?_) fun st' => Kn.pure fun h hk => hk.2
  have hx := ha x (List.mem_filter.1 (SetOrder.mem_iter.1 hx)).1
  haveI : Lasting (fun _ : List Ev => Of A st'.devices) := Lasting.const
  unfold encryptDevice
  refine Kn.seq (easy_call trivial) fun so => ?_
  dsimp only
  refine Kn.tryElse (easy (kn_forDevice ns x so _ km hx)) (fun e => ?_) fun r => ?_
  · split
    · exact Kn.pure fun h hk y hy => hk.2 y (mem_setDiff.1 hy).1
    · exact Kn.raise
  · obtain ⟨session, ekm⟩ := r
    exact Kn.pure fun h hk => hk.1.2

theorem kn_decide (devices : List DeviceInfo) (i : Option String) (ha : Of A devices) (hd : Reserved M) : Kn (Rule A) K (decideTrust M devices i) (fun x _ => Of A x) := by
  unfold decideTrust
  refine Kn.seq (kn_trust _ _) fun un => Kn.bind (R := fun x _ => Of A x) ?_ fun ds => ?_
  · unfold askTrust
    split
    · refine Kn.seq (easy ((hd un i).mono fun o h => ?_)) fun _ => Kn.bind (Kn.mapAll (S := fun x _ => A x.bareJid) fun x hx => ?_) fun ds => Kn.pure fun h hk y hy => hk.2 y (mem_dedup.1 hy)
      · unfold Easy
        split
        · exact (h.1 _ (.list _)).elim
        · exact (h.1 _ (.bundle _ _)).elim
        · exact h.1 _ (.message _)
        · exact h.2 _ _ rfl
        · trivial
      · have hx := ha x (SetOrder.mem_iter.1 hx)
        exact Kn.seq (easy (allOps_loadStr trivial)) fun _ => Kn.pure fun _ _ => hx
    · exact Kn.pure fun _ _ => ha
  · haveI : Lasting (fun _ : List Ev => Of A ds) := Lasting.const
    refine Kn.seq (kn_trust _ _) fun _ => ?_
    split
    · exact Kn.raise
    · exact Kn.pure fun _ hk => hk.2

theorem kn_encrypt (jids : List Jid) (pt : Dict Ns Bytes) (prio : Option (List Ns)) (i : Option String) (hd : Reserved M) (ho : A M.ownJid) (ha : ∀ j ∈ jids, A j) :
    Kn (Rule A) K (encrypt M jids pt prio i) (fun _ _ => True) := by
  unfold encrypt
  refine Kn.seq (easy_call trivial) fun bs => Kn.seq (easy (allOps_liftE _)) fun order => ?_
  dsimp only
  refine Kn.bind (kn_recipients order _ ?_) fun x => ?_
  · intro j hj
    rcases mem_setUnion.1 hj with hj | hj
    · exact ha j hj
    · obtain rfl := List.mem_singleton.1 hj
      exact ho
  obtain ⟨devices, cache⟩ := x
  intro h hk
  have h1 : Of A devices := hk.2
  revert h hk
  haveI : Lasting (fun _ : List Ev => Of A devices) := Lasting.const
  refine Kn.bind (kn_decide devices i h1 hd) fun devices' => ?_
  intro h hk
  have h2 : Of A devices' := hk.2
  revert h hk
  unfold encryptTrusted
  refine Kn.bind (kn_trust _ _) fun ds => ?_
  intro h hk
  have h3 : Of A ds := fun y hy => h2 y (SetOrder.mem_iter.1 (hk.2 y hy))
  replace hk := hk.1.1.1
  revert h hk
  refine Kn.seq (easy_call trivial) fun bs => Kn.seq (R := fun _ _ => True) ((Kn.fold (S := fun st _ => Of A st.devices) (fun _ _ => h3) fun st ns _ => ?_).post fun _ _ _ => trivial) fun st => ?_
  · intro h hk
    exact kn_backend (K := K) cache pt st ns hk.2 h hk.1
  · dsimp only
    refine easy ?_
    lib_ops []
    all_goals trivial

/-- All calls. -/
theorem kn_call (c : Call) (hd : Reserved M) (ho : A M.ownJid) (ha : ∀ j, Names j c → A j) : Kn (Rule A) K (c.run M) (fun _ _ => True) := by
  cases c <;> simp only [Call.run]
  case encrypt jids pt prio i => exact Kn.seq (kn_encrypt jids pt prio i hd ho fun j hj => ha j (.recipient _ _ _ hj)) fun _ => Kn.pure fun _ _ => trivial
  case decrypt msg => exact Kn.seq (kn_decrypt msg (ha _ (.sender _ rfl))) fun _ => Kn.pure fun _ _ => trivial
  case afterHistorySync => exact kn_after
  case replaceSessions jid d => exact Kn.seq (kn_replaces (ha _ (.replace _)) d) fun _ => Kn.pure fun _ _ => trivial
  case getIdentityKeyPair => exact Kn.seq (easy (ops_ikp.mono fun _ h => by cases h <;> trivial)) fun _ => Kn.pure fun _ _ => trivial
  case create bs label fuel => exact Kn.seq (easy ((ops_create M bs label fuel).mono fun _ h => easy_create ho h)) fun _ => Kn.pure fun _ _ => trivial
  case purgeBackend ns => exact easy ((ops_purgeBackend M ns).mono fun _ h => easy_purge ho h)
  case purgeBareJid jid => exact easy ((ops_purgeBareJid M jid).mono fun _ h => by cases h <;> trivial)
  case ensureDataConsistency =>
    refine easy ((ops_ensureDataConsistency M).mono fun _ h => ?_)
    cases h with
    | refresh _ h => exact easy_refresh ho h
    | download => exact ho
    | _ => trivial
  case rotation p f r => exact easy ((ops_manageRotation M p f r).mono fun _ h => by cases h <;> trivial)
  case updateDeviceList ns jid dl => exact easy ((ops_updateDeviceList M ns jid dl).mono fun _ => easy_update)
  case refreshDeviceList ns jid => exact easy ((ops_refreshDeviceList M ns jid).mono fun _ => easy_refresh (ha _ (.list _)))
  case refreshDeviceLists jid =>
    unfold refreshDeviceLists
    exact Kn.seq (easy_call trivial) fun bs => Kn.forEach fun ns _ => easy ((ops_refreshDeviceList M ns jid).mono fun _ => easy_refresh (ha _ .lists))
  case setTrust => exact easy (.perform trivial)
  case getSendingChainLength x =>
    unfold getSendingChainLength
    refine Kn.seq (Kn.seq (easy_call trivial) fun bs => easy ?_) fun _ => Kn.pure fun _ _ => trivial
    lib_ops []
    all_goals trivial
  case setOwnLabel l => exact easy ((ops_setOwnLabel M l).mono fun _ h => by cases h <;> first | trivial | exact ho)
  case getDeviceInformation jid => exact Kn.seq (kn_info (ha _ .info)) fun _ => Kn.pure fun _ _ => trivial
  case getOwnDeviceInformation => exact Kn.seq (easy ((ops_getOwnDeviceInformation M).mono fun _ h => easy_info ho h)) fun _ => Kn.pure fun _ _ => trivial
  case beforeHistorySync => exact easy (.perform trivial)

theorem src_allowed {h : List Ev} {j : Jid} (hl : ∀ e ∈ h, Lasts e) (hr : ∀ j, Read h j → A j) (hs : Src A h j) : A j := by
  rcases hs with (hs | hs) | ⟨ns, j', d, s, h1, rfl, h2⟩
  · exact hs
  · exact hr _ hs
  · rw [(Crossing.made_with hl h1).1]
    exact h2.elim id (hr _)

theorem queued_next {w : World} {e : Ev} (hq : QueuedFor A w.disk) (hs : ∀ ns v, e.1 = .store (.queue ns) v → ∃ l : List String, v = .ofStrs l ∧ ∀ j ∈ l, A j) :
    QueuedFor A (Lib.next w e).disk := by
  obtain ⟨o, r⟩ := e
  have hupd : ∀ k v, (∀ ns, k = .queue ns → ∀ l, v = some (JVal.list l) → ∀ j ∈ l.map JVal.asStr, A j) → QueuedFor A (w.disk.upd k v) := by
    intro k v h ns l hl j hj
    by_cases hk : Key.queue ns = k
    · subst hk
      rw [Disk.upd_self] at hl
      exact h ns rfl l hl j hj
    · rw [Disk.upd_of_ne hk] at hl
      exact hq ns l hl j hj
  cases o with
  | store k v =>
    cases r with
    | error _ => exact hq
    | ok _ =>
      refine hupd k (some v) fun ns hk l hl j hj => ?_
      subst hk
      obtain ⟨l', rfl, h⟩ := hs ns v rfl
      cases hl
      simp only [List.map_map, List.mem_map, Function.comp, JVal.asStr] at hj
      obtain ⟨x, hx, rfl⟩ := hj
      exact h x hx
  | delete k =>
    cases r with
    | error _ => exact hq
    | ok _ => exact hupd k none fun _ _ l hl => by cases hl
  | _ => first
    | exact hq
    | (cases r <;> exact hq)

theorem allowed {w w' : World} {t : List Ev} (hg : Guarded (fun h e => Rule A h e.1) t) (hl : ∀ e ∈ t, Lasts e) (hr : Lib.Runs w t w') (hq : QueuedFor A w.disk) :
    QueuedFor A w'.disk ∧ ∀ j, Read t j → A j := by
  have key : ∀ t2 t1 w1, t = t1 ++ t2 → Lib.Runs w1 t2 w' → QueuedFor A w1.disk → (∀ j, Read t1 j → A j) → QueuedFor A w'.disk ∧ ∀ j, Read t j → A j := by
    intro t2
    induction t2 with
    | nil =>
      intro t1 w1 ht hr hq hrd
      cases hr
      rw [List.append_nil] at ht
      subst ht
      exact ⟨hq, hrd⟩
    | cons e t2 ih =>
      intro t1 w1 ht hr hq hrd
      refine ih (t1 ++ [e]) _ (by simp [ht]) hr.2 (queued_next hq fun ns v he => ?_) fun j hj => ?_
      · have := hg t1 e t2 ht
        dsimp only at this
        rw [he] at this
        obtain ⟨l, h1, h2⟩ := this
        exact ⟨l, h1, fun j hj => src_allowed (fun x hx => hl x (by rw [ht]; exact List.mem_append_left _ hx)) hrd (h2 j hj)⟩
      · obtain ⟨ns, l, h1, h2⟩ := hj
        rcases List.mem_append.1 h1 with h1 | h1
        · exact hrd j ⟨ns, l, h1, h2⟩
        · obtain rfl := List.mem_singleton.1 h1
          have : some (JVal.list l) = w1.disk (.queue ns) := hr.1
          exact hq ns l this.symm j h2
  exact key t [] w rfl hr hq fun j ⟨_, _, h, _⟩ => by cases h

theorem contacts_allowed {w w' : World} {t : List Ev} (hg : Guarded (fun h e => Rule A h e.1) t) (hl : ∀ e ∈ t, Lasts e) (hr : Lib.Runs w t w') (hq : QueuedFor A w.disk) :
    ∀ e ∈ t, ∀ j, Contacts j e.1 → A j := by
  intro e he j hc
  obtain ⟨t1, t2, rfl⟩ := List.append_of_mem he
  have hrd := (allowed hg hl hr hq).2
  have hg := hg t1 e t2 rfl
  dsimp only at hg
  generalize e.1 = o at hg hc
  cases hc with
  | list ns => exact hg
  | bundle ns d => exact hg
  | message m => exact src_allowed (fun x hx => hl x (List.mem_append_left _ hx)) (fun j hj => hrd j (Read.mono (List.subset_append_left ..) hj)) hg

end Contact

/-- C116: of calls that overlap in any way, only the own account is contacted, those the application named in one of these calls, and those for which replies were queued before. -/
theorem C116_calls (own : Jid) (Q : Jid → Prop) (calls : List Running) (t : List Ev) (w w' : World) (h : ∀ k ∈ calls, k.M.ownJid = own ∧ Reserved k.M)
    (hs : Shuffle (calls.map (·.trace)) t) (hr : Lib.Runs w t w') (hl : ∀ e ∈ t, Lasts e) (hq : QueuedFor Q w.disk) :
    (∀ e ∈ t, ∀ j, Contacts j e.1 → (j = own ∨ ∃ k ∈ calls, Names j k.c) ∨ Q j) ∧ QueuedFor (fun j => (j = own ∨ ∃ k ∈ calls, Names j k.c) ∨ Q j) w'.disk := by
  have hg : Guarded (fun h e => Contact.Rule (fun j => (j = own ∨ ∃ k ∈ calls, Names j k.c) ∨ Q j) h e.1) t := by
    intro h1 e h2 ht
    refine Silent.shuffled (R := Contact.Rule (fun j => (j = own ∨ ∃ k ∈ calls, Names j k.c) ∨ Q j)) Contact.Rule.mono hs [] (fun u hu => ?_) h1 e h2 ht
    obtain ⟨k, hk, rfl⟩ := List.mem_map.1 hu
    exact ⟨[], List.Subset.refl _, Kn.exec (Contact.kn_call (K := fun _ => True) k.c (h k hk).2 (.inl (.inl (h k hk).1)) fun j hj => .inl (.inr ⟨k, hk, hj⟩)) k.exec⟩
  have hq' : QueuedFor (fun j => (j = own ∨ ∃ k ∈ calls, Names j k.c) ∨ Q j) w.disk := fun ns l h1 j hj => .inr (hq ns l h1 j hj)
  exact ⟨Contact.contacts_allowed hg hl hr hq', (Contact.allowed hg hl hr hq').1⟩

namespace Contact

theorem lasts_internal {e : Ev} (h : e.1.isExternal = false) : Lasts e := by
  refine ⟨?_, ?_, ?_, ?_, ?_⟩ <;> intros <;> subst_vars <;> cases h

theorem lasts_all {w w' : World} {t : List Ev} (hr : Lib.Runs w t w') (hl : ∀ e ∈ w'.log, Lasts e) : ∀ e ∈ t, Lasts e := by
  intro e he
  cases hx : e.1.isExternal with
  | true => exact hl e (by rw [Lib.log_external hr]; exact List.mem_append_right _ (List.mem_filter.2 ⟨he, hx⟩))
  | false => exact lasts_internal hx

theorem log_grows {own : Jid} {x : XEdDSA} {s s' : Use} {cs : List (Mgr × Call)} (h : Life own x s cs s') : ∀ e ∈ s.world.log, e ∈ s'.world.log := by
  induction h with
  | nil => exact fun _ h => h
  | cons hst _ ih =>
    intro e he
    obtain ⟨t, r, -, hr⟩ := Attribution.step_exec hst
    exact ih e (by rw [Lib.log_external hr]; exact List.mem_append_left _ he)

/-- One more call. -/
theorem step {own : Jid} {x : XEdDSA} {s s' : Use} {c : Mgr × Call} (h : Step own x s c s') (hm : ∀ M ∈ s.mgrs, M.ownJid = own) (hd : Reserved c.1) (ho : A own)
    (ha : ∀ j, Names j c.2 → A j) (hl : ∀ e ∈ s'.world.log, Lasts e) (hq : QueuedFor A s.world.disk) (hc : ∀ e ∈ s.world.log, ∀ j, Contacts j e.1 → A j) :
    QueuedFor A s'.world.disk ∧ ∀ e ∈ s'.world.log, ∀ j, Contacts j e.1 → A j := by
  obtain ⟨t, r, he, hr⟩ := Attribution.step_exec h
  have hg : Guarded (fun h e => Rule A h e.1) t := by
    refine Kn.exec (R := fun _ _ => True) ?_ he
    cases h with
    | ikp M => exact Kn.seq (easy (ops_ikp.mono fun _ h => by cases h <;> trivial)) fun _ => Kn.pure fun _ _ => trivial
    | create M bs label fuel hj => exact kn_call _ hd (by rw [hj]; exact ho) ha
    | call M c hM => exact kn_call _ hd (by rw [hm M hM]; exact ho) ha
  have hl' := lasts_all hr hl
  refine ⟨(allowed hg hl' hr hq).1, fun e he j hj => ?_⟩
  rw [Lib.log_external hr] at he
  rcases List.mem_append.1 he with he | he
  · exact hc e he j hj
  · exact contacts_allowed hg hl' hr hq e (List.mem_filter.1 he).1 j hj

theorem mgrs_step {own : Jid} {x : XEdDSA} {s s' : Use} {c : Mgr × Call} (h : Step own x s c s') (hm : ∀ M ∈ s.mgrs, M.ownJid = own) : ∀ M ∈ s'.mgrs, M.ownJid = own := by
  cases h with
  | ikp M => exact hm
  | call M c => exact hm
  | @create w' t r M bs label fuel hj =>
    intro M' hM
    rcases List.mem_append.1 hM with hM | hM
    · exact hm M' hM
    · cases r with
      | ok d => obtain rfl := List.mem_singleton.1 hM; exact hj
      | _ => cases hM

theorem life {own : Jid} {x : XEdDSA} {s s' : Use} {cs : List (Mgr × Call)} (h : Life own x s cs s') (hm : ∀ M ∈ s.mgrs, M.ownJid = own) (hd : ∀ c ∈ cs, Reserved c.1) (ho : A own)
    (ha : ∀ c ∈ cs, ∀ j, Names j c.2 → A j) (hl : ∀ e ∈ s'.world.log, Lasts e) (hq : QueuedFor A s.world.disk) (hc : ∀ e ∈ s.world.log, ∀ j, Contacts j e.1 → A j) :
    ∀ e ∈ s'.world.log, ∀ j, Contacts j e.1 → A j := by
  induction h with
  | nil => exact hc
  | cons hst hlf ih =>
    obtain ⟨h1, h2⟩ := step hst hm (hd _ (.head _)) ho (ha _ (.head _)) (fun e he => hl e (log_grows hlf e he)) hq hc
    exact ih (mgrs_step hst hm) (fun c hc => hd c (.tail _ hc)) (fun c hc => ha c (.tail _ hc)) hl h1 h2

end Contact

/-- C116: in the whole life of an account, only the own account is contacted and those the application named. -/
theorem C116 (own : Jid) (x : XEdDSA) (s0 s : Use) (cs : List (Mgr × Call)) (h0 : New s0) (hlog : s0.world.log = []) (h : Life own x s0 cs s) (hd : ∀ c ∈ cs, Reserved c.1)
    (hl : ∀ e ∈ s.world.log, Lasts e) (e : Ev) (he : e ∈ s.world.log) (j : Jid) (hj : Contacts j e.1) : j = own ∨ ∃ c ∈ cs, Names j c.2 := by
  refine Contact.life (A := fun j => j = own ∨ ∃ c ∈ cs, Names j c.2) h ?_ hd (.inl rfl) (fun c hc j hj => .inr ⟨c, hc, hj⟩) hl ?_ ?_ e he j hj
  · rw [h0.mgrs]; exact fun _ h => by cases h
  · intro ns l hk
    rcases h0.disk _ _ hk with h | h <;> cases h
  · rw [hlog]; exact fun _ h => by cases h

namespace Contact

theorem discreet_ex : Reserved Mgr.ex := by
  intro ds i
  show AllOps _ (Mgr.ex.decide ds i)
  unfold Mgr.ex
  lib_ops []
  all_goals exact ⟨fun _ h => by cases h, fun _ _ h => by cases h⟩

/-- The reply to the first message is sent after the synchronization. -/
def replied : Use := (Attribution.world 7).use Mgr.ex .afterHistorySync Attribution.greeted

theorem replied_life : ∃ cs, Life "me" Mgr.ex.x Use.fresh cs replied ∧ (∀ c ∈ cs, c.1 = Mgr.ex) ∧ ¬ Names "a" (Call.afterHistorySync) :=
  ⟨_, (Attribution.world 7).life Attribution.greeted_life Attribution.hasEx (fun _ _ _ h => by cases h), by simp, fun h => by cases h⟩

def sentB (e : Ev) : Bool := match e.1 with
  | .sendMessage _ j => decide (j = "a")
  | _ => false

end Contact

/-- A reply is sent in a call that does not name its recipient, which is the sender of a message received earlier. -/
theorem C116_example : ∃ cs e m, New Use.fresh ∧ Use.fresh.world.log = [] ∧ Life "me" Mgr.ex.x Use.fresh cs Contact.replied ∧ (∀ c ∈ cs, Reserved c.1) ∧
    (∀ e ∈ Contact.replied.world.log, Lasts e) ∧ e ∈ Contact.replied.world.log ∧ e ∉ Attribution.greeted.world.log ∧ e.1 = .sendMessage m "a" ∧ Contacts "a" e.1 ∧
    (Mgr.ex, Call.decrypt Attribution.hello) ∈ cs := by
  have h1 : Contact.replied.world.log.any Contact.sentB = true := by decide +kernel
  have h2 : Attribution.greeted.world.log.any Contact.sentB = false := by decide +kernel
  have h3 : ∀ e ∈ Contact.replied.world.log, Lasts e := Run.keeps_of (by decide +kernel)
  obtain ⟨e, he, hb⟩ := List.any_eq_true.1 h1
  have hn : e ∉ Attribution.greeted.world.log := fun h => by
    rw [List.any_eq_false] at h2
    exact h2 e h hb
  unfold Contact.sentB at hb
  split at hb
  · rename_i m j hm
    obtain rfl : j = "a" := of_decide_eq_true hb
    refine ⟨_, e, m, fresh_new, rfl, (Attribution.world 7).life Attribution.greeted_life Attribution.hasEx (fun _ _ _ h => by cases h), ?_, h3, he, hn, hm, by rw [hm]; exact .message m, by simp⟩
    intro c hc
    simp only [List.cons_append, List.nil_append, List.mem_cons, List.not_mem_nil, or_false] at hc
    rcases hc with rfl | rfl | rfl | rfl <;> exact Contact.discreet_ex
  · cases hb

end Verif
