import Verif.Props.Echo
import Verif.Props.Ratchet
import Verif.Props.Handed
import Verif.Props.Replace
/-
The two ends of a conversation and their sessions; key exchanges that cross.
-/
namespace Verif
open SM Spec

namespace Spec

/-- The session is one with the device `d` of `j`. -/
def Session.with (s : Session) (j : Jid) (d : DevId) : Prop := s.bareJid = j ∧ s.deviceId = d

instance (s : Session) (j : Jid) (d : DevId) : Decidable (Session.with s j d) := inferInstanceAs (Decidable (_ ∧ _))

/-- What sessions are made of does not change (session.py:28-66): by using a session, neither the device it is with changes, nor who built it, nor
the key exchange.  Sessions are built for the given device, passive ones from the given key exchange.  Encrypted key material names the device of the session. -/
structure Lasts (e : Ev) : Prop where
  load : ∀ ns j d s, e = ⟨.loadSession ns j d, .ok (some s)⟩ → Session.with s j d
  active : ∀ ns j d b m s k, e = ⟨.buildActive ns j d b m, .ok (s, k)⟩ → (Session.with s j d ∧ s.initiation = .active) ∧ k.bareJid = j ∧ k.deviceId = d
  passive : ∀ ns j d x k s m, e = ⟨.buildPassive ns j d x k, .ok (s, m)⟩ → Session.with s j d ∧ s.initiation = .passive ∧ s.keyExchange = x
  encrypt : ∀ ns s m k s', e = ⟨.encryptKM ns s m, .ok (k, s')⟩ → (Session.with s' s.bareJid s.deviceId ∧ s'.initiation = s.initiation ∧
    s'.keyExchange = s.keyExchange) ∧ k.bareJid = s.bareJid ∧ k.deviceId = s.deviceId
  decrypt : ∀ ns s k m s', e = ⟨.decryptKM ns s k, .ok (m, s')⟩ → Session.with s' s.bareJid s.deviceId ∧ s'.initiation = s.initiation ∧
    s'.keyExchange = s.keyExchange

/-- The backend `ns` keeps the session with the device `d` of `j` that was stored last, until it is purged. -/
def Shelf (ns : Ns) (j : Jid) (d : DevId) : Sem LibSig Exn (Option Session) where
  ok w e := match e with
    | ⟨.loadSession ns' j' d', .ok o⟩ => ns' = ns ∧ j' = j ∧ d' = d → o = w
    | _ => True
  next w e := match e with
    | ⟨.storeSession ns' s, .ok _⟩ => if ns' = ns ∧ s.bareJid = j ∧ s.deviceId = d then some s else w
    | ⟨.purge ns', .ok _⟩ => if ns' = ns then none else w
    | ⟨.purgeJid ns' j', .ok _⟩ => if ns' = ns ∧ j' = j then none else w
    | _ => w

/-- The messages an execution gives to the world. -/
def outOf (t : List Ev) : List Message := t.filterMap fun | ⟨.sendMessage m _, _⟩ => some m | _ => none

/-- The life of a device: calls one after the other, each of which may end in any way.  `In`: the messages it is given to decrypt; `C`: the calls
considered.  The last argument collects the messages sent and those returned by `encrypt`. -/
inductive Acts (M : Mgr) (In : Message → Prop) (C : Call → Prop) : List Ev → List Message → Prop
  | start : Acts M In C [] []
  | call {h out c t r} : Acts M In C h out → C c → (∀ m, c = .decrypt m → In m) → Exec (c.run M) t r → Acts M In C (h ++ t) (out ++ outOf t)
  | encrypt {h out jids pt prio i t ms es} : Acts M In C h out → C (.encrypt jids pt prio i) → Exec (SM.encrypt M jids pt prio i) t (.ok (ms, es)) →
      Acts M In C (h ++ t) (out ++ outOf t ++ ms.map (·.1))

/-- The session `s` is used or stored. -/
inductive Uses (h : List Ev) (ns : Ns) (s : Session) : Prop
  | encrypt {m r} : (⟨.encryptKM ns s m, r⟩ : Ev) ∈ h → Uses h ns s
  | decrypt {k r} : (⟨.decryptKM ns s k, r⟩ : Ev) ∈ h → Uses h ns s
  | store {r} : (⟨.storeSession ns s, r⟩ : Ev) ∈ h → Uses h ns s

/-- What one device is given to decrypt as a message of the other, was made by the other. -/
def FromPeer (B : Mgr) (ns : Ns) (out : List Message) (m : Message) : Prop := m.ns = ns → m.bareJid = B.ownJid → m.deviceId = B.ownDev → m ∈ out

/-- Trust decisions that do not touch sessions, keys and messages. -/
def PlainDecisions (M : Mgr) : Prop := ∀ ds i, AllOps (fun o => Belongs.plain o = true) (M.decide ds i)

/-- The life `h` of the device of `M`, seen from the device of `P`: it is left with the session `w'` for it, beginning with `w`. -/
structure Lives (M P : Mgr) (ns : Ns) (C : Call → Prop) (In : Message → Prop) (w w' : Option Session) (h : List Ev) (out : List Message) : Prop where
  plain : PlainDecisions M
  acts : Acts M In C h out
  keeps : ∀ e ∈ h, Lasts e
  shelf : (Shelf ns P.ownJid P.ownDev).Runs w h w'

/-- No sessions are replaced on request. -/
def NoReplace (c : Call) : Prop := ∀ j d, c ≠ .replaceSessions j d

/-- What `A` encrypts for `B`, `B` tries to decrypt with the session that was built by the same key exchange. -/
def InCommon (A B : Mgr) (ns : Ns) (hA hB : List Ev) : Prop := ∀ s m k s1 s2 r, (⟨.encryptKM ns s m, .ok (k, s1)⟩ : Ev) ∈ hA →
  Session.with s B.ownJid B.ownDev → (⟨.decryptKM ns s2 k, r⟩ : Ev) ∈ hB → Session.with s2 A.ownJid A.ownDev → s.keyExchange = s2.keyExchange

/-- Devices that only send and receive messages have sessions in common. -/
def CommonSession : Prop := ∀ (A B : Mgr) (ns : Ns) (wA wB : Option Session) (hA hB : List Ev) (outA outB : List Message),
  Lives A B ns NoReplace (FromPeer B ns outB) none wA hA outA → Lives B A ns NoReplace (FromPeer A ns outA) none wB hB outB →
    InCommon A B ns hA hB ∧ InCommon B A ns hB hA

end Spec

namespace Crossing

/-! ### When sessions are built -/

/-- Sessions are built if there is none, or, passively, if it is another one. -/
def Building (M : Mgr) (h : List Ev) : Op → Prop
  | .buildActive ns j d _ _ => (⟨.loadSession ns j d, .ok none⟩ : Ev) ∈ h
  | .buildPassive ns j d x _ => ∃ o, (⟨.loadSession ns j d, .ok o⟩ : Ev) ∈ h ∧ ∀ s0, o = some s0 → ¬ Same M s0 x
  | _ => True

def idle : Op → Bool
  | .buildActive .. | .buildPassive .. => false
  | _ => true

section
variable {M : Mgr} {K : List Ev → Prop}

theorem of_idle {o : Op} (h : idle o = true) (x : List Ev) : Building M x o := by
  cases o <;> first
    | (cases h; done)
    | trivial

theorem idle_of_plain {o : Op} (h : Belongs.plain o = true) : idle o = true := by
  cases o <;> first
    | (cases h; done)
    | rfl

variable [Lasting K]

theorem quiet {α : Type} {p : P α} (h : AllOps (fun o => idle o = true) p) : Kn (Building M) K p (fun _ _ => True) :=
  Kn.ops (h.mono fun _ ho x _ => of_idle ho x)

omit [Lasting K] in
theorem idle_call {o : Op} (h : idle o = true) : Kn (Building M) K (call o) (fun a h => (⟨o, .ok a⟩ : Ev) ∈ h) :=
  Kn.call fun x _ => of_idle h x

theorem kn_encryptDevice (ns : Ns) (cache : List Bundle) (km : PlainKM) (st : EncState) (x : DeviceInfo) :
    Kn (Building M) K (encryptDevice M ns cache km st x) (fun _ _ => True) := by
  unfold encryptDevice encryptForDevice
  refine Kn.bind (idle_call rfl) fun so => ?_
  dsimp only
  refine Kn.tryElse (R := fun _ _ => True) ?_ (fun e => ?_) fun r => ?_
  · cases so with
    | none =>
      refine Kn.seq (R := fun _ _ => True) ?_ fun b => (Kn.call fun h hk => hk.2).post fun _ _ _ => trivial
      unfold bundleFor
      exact quiet (by lib_ops [])
    | some s => exact Kn.seq (idle_call rfl) fun _ => Kn.pure fun _ _ => trivial
  · split
    · exact Kn.pure fun _ _ => trivial
    · exact Kn.raise
  · exact Kn.pure fun _ _ => trivial

theorem kn_encrypt (hd : PlainDecisions M) (jids : List Jid) (pt : Dict Ns Bytes) (prio : Option (List Ns)) (i : Option String) :
    Kn (Building M) K (encrypt M jids pt prio i) (fun _ _ => True) := by
  unfold encrypt
  refine Kn.seq (idle_call rfl) fun bs => Kn.seq (quiet (allOps_liftE _)) fun order => ?_
  dsimp only
  refine Kn.seq (R := fun _ _ => True) (quiet ?_) fun x => Kn.seq (R := fun _ _ => True) (quiet ?_) fun ds => ?_
  · unfold recipientDevices getDeviceInformation' deviceInformation identityKeyOf repairNamespaces
    lib_ops []
    exact (ops_fetchIdentityKey ..).mono fun _ h => idle_of_plain (Belongs.info_plain h)
  · unfold decideTrust askTrust devicesWithTrust reloadTrust
    lib_ops []
    exact (hd _ _).mono fun _ h => idle_of_plain h
  · unfold encryptTrusted
    refine Kn.seq (R := fun _ _ => True) (quiet ?_) fun ds => Kn.seq (idle_call rfl) fun bs => Kn.seq (R := fun _ _ => True)
      (Kn.fold (fun _ _ => trivial) fun st ns _ => ?_) fun st => quiet ?_
    · unfold devicesWithTrust; lib_ops []
    · unfold encryptBackend
      dsimp only
      split
      · exact Kn.pure fun _ _ => trivial
      split
      · exact Kn.raise
      refine Kn.seq (idle_call rfl) fun x => Kn.seq (R := fun _ _ => True) (Kn.fold (fun _ _ => trivial) fun st' x _ => ?_) fun _ => Kn.pure fun _ _ => trivial
      exact kn_encryptDevice _ _ _ _ _
    · dsimp only
      split
      · exact AllOps.raise _
      · lib_ops []

theorem kn_decrypt (msg : Message) : Kn (Building M) K (decrypt M msg) (fun _ _ => True) := by
  unfold decrypt
  refine Kn.seq (idle_call rfl) fun bs => ?_
  split
  · exact Kn.raise
  split
  · exact Kn.raise
  refine Kn.seq (R := fun _ _ => True) (quiet (ops_findSender.mono fun _ h => ?_)) fun x => Kn.seq (R := fun _ _ => True) ?_ fun r => ?_
  · unfold Op.looks at h
    split at h <;> first | rfl | cases h
  · unfold decryptContent
    refine Kn.seq (idle_call rfl) fun level => ?_
    split
    · exact Kn.raise
    refine Kn.seq (R := fun _ _ => True) ?_ fun r => quiet ?_
    · unfold keyMaterial
      split
      · unfold decryptKeyMaterial
        exact quiet (by lib_ops [])
      · rename_i kex
        unfold handleKeyExchange
        split
        · exact Kn.raise
        refine Kn.bind (idle_call rfl) fun so => ?_
        split
        · rename_i hs
          refine (Kn.call fun h hk => ⟨so, hk.2, fun s0 h0 hsame => ?_⟩).post fun _ _ _ => trivial
          subst h0
          simp [Option.filter_some, hsame.1, hsame.2] at hs
        · exact Kn.seq (idle_call rfl) fun _ => Kn.pure fun _ _ => trivial
    · obtain ⟨s, km⟩ := r
      unfold plaintextOf
      lib_ops []
  · obtain ⟨pt, s, km⟩ := r
    refine quiet ?_
    unfold postDecrypt consumePreKey discardPreKey refillPreKeys autoReply queueEmpty sendEmptyMessage
    lib_ops []

theorem kn_call (hd : PlainDecisions M) (c : Call) (hc : ∀ j d, c ≠ .replaceSessions j d) : Kn (Building M) K (c.run M) (fun _ _ => True) := by
  have ofPlain : ∀ {α : Type} {p : P α}, AllOps (fun o => Belongs.plain o = true) p → Kn (Building M) K (do let _ ← p; pure ()) (fun _ _ => True) :=
    fun h => Kn.seq (quiet (h.mono fun _ => idle_of_plain)) fun _ => Kn.pure fun _ _ => trivial
  have ofPlain' : ∀ {α : Type} {p : P α}, AllOps (fun o => Belongs.plain o = true) p → Kn (Building M) K p (fun _ _ => True) :=
    fun h => quiet (h.mono fun _ => idle_of_plain)
  cases c <;> simp only [Call.run]
  case encrypt jids pt prio i => exact Kn.seq (kn_encrypt hd jids pt prio i) fun _ => Kn.pure fun _ _ => trivial
  case decrypt msg => exact Kn.seq (kn_decrypt msg) fun _ => Kn.pure fun _ _ => trivial
  case replaceSessions j d => exact absurd rfl (hc j d)
  case afterHistorySync => exact quiet ((ops_afterHistorySync M).mono fun _ h => by cases h with | sendEmpty _ h => cases h <;> rfl | _ => rfl)
  case getIdentityKeyPair => exact ofPlain (ops_ikp.mono fun _ h => by cases h <;> rfl)
  case create bs label fuel => exact ofPlain ((ops_create M bs label fuel).mono fun _ h => Belongs.create_plain h)
  case purgeBackend ns => exact ofPlain' ((ops_purgeBackend M ns).mono fun _ h => Belongs.purge_plain h)
  case purgeBareJid jid => exact ofPlain' ((ops_purgeBareJid M jid).mono fun _ h => by cases h <;> rfl)
  case ensureDataConsistency => exact ofPlain' ((ops_ensureDataConsistency M).mono fun _ h => by cases h with | refresh _ h => exact Belongs.refresh_plain h | _ => rfl)
  case rotation p f r => exact ofPlain' ((ops_manageRotation M p f r).mono fun _ h => by cases h <;> rfl)
  case updateDeviceList ns jid dl => exact ofPlain' ((ops_updateDeviceList M ns jid dl).mono fun _ h => by cases h <;> rfl)
  case refreshDeviceList ns jid => exact ofPlain' ((ops_refreshDeviceList M ns jid).mono fun _ h => Belongs.refresh_plain h)
  case refreshDeviceLists jid =>
    unfold refreshDeviceLists
    exact Kn.seq (idle_call rfl) fun bs => Kn.forEach fun ns _ => ofPlain' ((ops_refreshDeviceList M ns jid).mono fun _ h => Belongs.refresh_plain h)
  case setTrust => exact (idle_call rfl).post fun _ _ _ => trivial
  case getSendingChainLength x =>
    unfold getSendingChainLength
    exact Kn.seq (Kn.seq (idle_call rfl) fun bs => quiet (by lib_ops [])) fun _ => Kn.pure fun _ _ => trivial
  case setOwnLabel l => exact ofPlain' ((ops_setOwnLabel M l).mono fun _ h => by cases h <;> rfl)
  case getDeviceInformation jid => exact ofPlain ((ops_getDeviceInformation M jid).mono fun _ h => Belongs.info_plain h)
  case getOwnDeviceInformation => exact ofPlain ((ops_getOwnDeviceInformation M).mono fun _ h => Belongs.info_plain h)
  case beforeHistorySync => exact (idle_call rfl).post fun _ _ _ => trivial

end

/-! ### Histories -/

theorem building_mono {M : Mgr} {h h' : List Ev} {o : Op} (hs : ∀ e ∈ h, e ∈ h') (hb : Building M h o) : Building M h' o := by
  unfold Building at *
  cases o <;> first
    | trivial
    | exact hs _ hb
    | exact hb.imp fun _ h => ⟨hs _ h.1, h.2⟩

theorem guarded_append {G : List Ev → Ev → Prop} (hm : ∀ h h' e, (∀ x ∈ h, x ∈ h') → G h e → G h' e) {h t : List Ev} (hh : Guarded G h) (ht : Guarded G t) :
    Guarded G (h ++ t) := by
  intro h1 e h2 he
  rcases List.append_eq_append_iff.1 he with ⟨u, rfl, hu⟩ | ⟨u, hu1, hu2⟩
  · exact hm u _ e (fun _ hx => List.mem_append_right _ hx) (ht u e h2 hu)
  · cases u with
    | nil =>
      simp at hu1 hu2
      subst hu1
      exact hm [] _ e (fun _ hx => by cases hx) (ht [] e h2 hu2.symm)
    | cons x u =>
      obtain ⟨rfl, rfl⟩ : e = x ∧ h2 = u ++ t := by simpa using hu2
      exact hh h1 e u hu1

theorem grd_plain {M : Mgr} {own dev In} (hd : PlainDecisions M) (ds i h) : Grd (Belongs.Rule own dev In) (fun _ _ => True) (M.decide ds i) h :=
  Belongs.quiet (K := fun _ => True) (hd ds i) h trivial

theorem acts_belongs {M : Mgr} {In C} {h out} (ha : Acts M In C h out) (hd : PlainDecisions M) :
    Guarded (Belongs M.ownJid M.ownDev In) h ∧ ∀ m ∈ out, Composed h m := by
  have sent : ∀ t : List Ev, Guarded (Belongs M.ownJid M.ownDev In) t → ∀ m ∈ outOf t, Composed t m := by
    intro t ht m hm
    obtain ⟨j, x, hm⟩ := Echo.mem_sentIn hm
    obtain ⟨h1, h2, rfl⟩ := List.append_of_mem hm
    exact Belongs.Composed.mono (fun _ h => List.mem_append_left _ h) (ht h1 _ h2 rfl)
  induction ha with
  | start => exact ⟨fun h1 e h2 hh => by simp at hh, nofun⟩
  | @call h out c t r _ _ hi he ih =>
    have hg : Guarded (Belongs M.ownJid M.ownDev In) t := Kn.exec (Belongs.kn_call (K := fun _ => True) c hi (grd_plain hd)) he
    refine ⟨guarded_append (G := Belongs M.ownJid M.ownDev In) (fun _ _ _ => Belongs.belongs_mono) ih.1 hg, fun m hm => ?_⟩
    rcases List.mem_append.1 hm with hm | hm
    · exact Belongs.Composed.mono (fun _ h => List.mem_append_left _ h) (ih.2 m hm)
    · exact Belongs.Composed.mono (fun _ h => List.mem_append_right _ h) (sent t hg m hm)
  | @encrypt h out jids pt prio i t ms es _ _ he ih =>
    have hg : Guarded (Belongs M.ownJid M.ownDev In) t := Kn.exec (Belongs.kn_encrypt (K := fun _ => True) jids pt prio i (grd_plain hd)) he
    have hc := Grd.exec (Belongs.kn_encrypt (K := fun _ => True) (own := M.ownJid) (dev := M.ownDev) (In := In) jids pt prio i (grd_plain hd) [] trivial) he
    refine ⟨guarded_append (G := Belongs M.ownJid M.ownDev In) (fun _ _ _ => Belongs.belongs_mono) ih.1 hg, fun m hm => ?_⟩
    rcases List.mem_append.1 hm with hm | hm
    · rcases List.mem_append.1 hm with hm | hm
      · exact Belongs.Composed.mono (fun _ h => List.mem_append_left _ h) (ih.2 m hm)
      · exact Belongs.Composed.mono (fun _ h => List.mem_append_right _ h) (sent t hg m hm)
    · obtain ⟨x, hx, rfl⟩ := List.mem_map.1 hm
      have := (hc.2 _ rfl x hx).1
      rw [List.nil_append] at this
      exact Belongs.Composed.mono (fun _ h => List.mem_append_right _ h) this

theorem acts_building {M : Mgr} {In C} {h out} (ha : Acts M In C h out) (hd : PlainDecisions M) (hc : ∀ j d, ¬ C (.replaceSessions j d)) :
    Guarded (fun h e => Building M h e.1) h := by
  induction ha with
  | start => exact fun h1 e h2 hh => by simp at hh
  | @call h out c t r _ h1 hi he ih =>
    refine guarded_append (G := fun h e => Building M h e.1) (fun _ _ _ => building_mono) ih (Kn.exec (kn_call (K := fun _ => True) hd c fun j d hh => ?_) he)
    subst hh
    exact hc j d h1
  | @encrypt h out jids pt prio i t ms es _ _ he ih =>
    exact guarded_append (G := fun h e => Building M h e.1) (fun _ _ _ => building_mono) ih (Kn.exec (kn_encrypt (K := fun _ => True) hd jids pt prio i) he)

/-! ### What is kept -/

section
variable {h : List Ev} {ns : Ns} {j : Jid} {d : DevId} {s : Session}

theorem made_with (hk : ∀ e ∈ h, Lasts e) (hm : Made h ns j d s) : Session.with s j d := by
  induction hm with
  | load h => exact (hk _ h).load _ _ _ _ rfl
  | active h => exact ((hk _ h).active _ _ _ _ _ _ _ rfl).1.1
  | passive h => exact ((hk _ h).passive _ _ _ _ _ _ _ rfl).1
  | encrypt _ h ih =>
    have := ((hk _ h).encrypt _ _ _ _ _ rfl).1.1
    exact ⟨this.1.trans ih.1, this.2.trans ih.2⟩
  | decrypt _ h ih =>
    have := ((hk _ h).decrypt _ _ _ _ _ rfl).1
    exact ⟨this.1.trans ih.1, this.2.trans ih.2⟩

theorem made_kind (hk : ∀ e ∈ h, Lasts e) {φ : Initiation → KeyExchange → Prop}
    (hl : ∀ s, (⟨.loadSession ns j d, .ok (some s)⟩ : Ev) ∈ h → φ s.initiation s.keyExchange)
    (ha : ∀ b m s k, (⟨.buildActive ns j d b m, .ok (s, k)⟩ : Ev) ∈ h → φ s.initiation s.keyExchange)
    (hp : ∀ x k s m, (⟨.buildPassive ns j d x k, .ok (s, m)⟩ : Ev) ∈ h → φ s.initiation s.keyExchange)
    (hm : Made h ns j d s) : φ s.initiation s.keyExchange := by
  induction hm with
  | load h => exact hl _ h
  | active h => exact ha _ _ _ _ h
  | passive h => exact hp _ _ _ _ h
  | encrypt _ h ih =>
    have := ((hk _ h).encrypt _ _ _ _ _ rfl).1.2
    rw [this.1, this.2]; exact ih
  | decrypt _ h ih =>
    have := ((hk _ h).decrypt _ _ _ _ _ rfl).2
    rw [this.1, this.2]; exact ih

/-- If all sessions built with the peer are of a kind, all that are kept are. -/
theorem shelf_kind {own dev In} {H : List Ev} (hb : Guarded (Belongs own dev In) H) (hk : ∀ e ∈ H, Lasts e) {φ : Initiation → KeyExchange → Prop}
    {L : Option Session → Prop} (hL : ∀ s, L (some s) ↔ φ s.initiation s.keyExchange)
    (hn : L none ∨ ∀ e ∈ H, ∀ j, e.1 ≠ .purge ns ∧ e.1 ≠ .purgeJid ns j)
    (ha : ∀ h1 h2 b m s k, H = h1 ++ (⟨.buildActive ns j d b m, .ok (s, k)⟩ : Ev) :: h2 → (∀ o, (⟨.loadSession ns j d, .ok o⟩ : Ev) ∈ h1 → L o) →
      φ s.initiation s.keyExchange)
    (hp : ∀ h1 h2 x k s m, H = h1 ++ (⟨.buildPassive ns j d x k, .ok (s, m)⟩ : Ev) :: h2 → (∀ o, (⟨.loadSession ns j d, .ok o⟩ : Ev) ∈ h1 → L o) →
      φ s.initiation s.keyExchange)
    {w w'} (hr : (Shelf ns j d).Runs w H w') (hw : L w) : (∀ o, (⟨.loadSession ns j d, .ok o⟩ : Ev) ∈ H → L o) ∧ L w' := by
  have key : ∀ suf pre w, H = pre ++ suf → (∀ o, (⟨.loadSession ns j d, .ok o⟩ : Ev) ∈ pre → L o) →
      (∀ b m s k, (⟨.buildActive ns j d b m, .ok (s, k)⟩ : Ev) ∈ pre → φ s.initiation s.keyExchange) →
      (∀ x k s m, (⟨.buildPassive ns j d x k, .ok (s, m)⟩ : Ev) ∈ pre → φ s.initiation s.keyExchange) → L w → (Shelf ns j d).Runs w suf w' →
      (∀ o, (⟨.loadSession ns j d, .ok o⟩ : Ev) ∈ H → L o) ∧ L w' := by
    intro suf
    induction suf with
    | nil =>
      intro pre w he h1 h2 h3 hw hr
      cases hr
      rw [List.append_nil] at he
      subst he
      exact ⟨h1, hw⟩
    | cons e suf ih =>
      intro pre w he h1 h2 h3 hw hr
      have hkp : ∀ e ∈ pre, Lasts e := fun e hx => hk e (by rw [he]; exact List.mem_append_left _ hx)
      refine ih (pre ++ [e]) _ (by simp [he]) (fun o ho => ?_) (fun b m s k ho => ?_) (fun x k s m ho => ?_) ?_ hr.2
      · rcases List.mem_append.1 ho with ho | ho
        · exact h1 o ho
        · obtain rfl := List.mem_singleton.1 ho
          have := hr.1 ⟨rfl, rfl, rfl⟩
          exact this ▸ hw
      · rcases List.mem_append.1 ho with ho | ho
        · exact h2 _ _ _ _ ho
        · obtain rfl := List.mem_singleton.1 ho
          exact ha pre suf _ _ _ _ he h1
      · rcases List.mem_append.1 ho with ho | ho
        · exact h3 _ _ _ _ ho
        · obtain rfl := List.mem_singleton.1 ho
          exact hp pre suf _ _ _ _ he h1
      · have hm : e ∈ H := by rw [he]; simp
        have hbe := hb pre e suf he
        unfold Shelf
        dsimp only
        split
        · rename_i ns' s a
          split
          · rename_i hh
            obtain ⟨rfl, rfl, rfl⟩ := hh
            obtain ⟨j', d', hmade⟩ := hbe
            obtain ⟨rfl, rfl⟩ := made_with hkp hmade
            exact (hL s).2 (made_kind hkp (fun s hs => (hL s).1 (h1 _ hs)) h2 h3 hmade)
          · exact hw
        · split
          · rename_i hh
            subst hh
            rcases hn with hn | hn
            · exact hn
            · exact absurd rfl (hn _ hm "").1
          · exact hw
        · split
          · rename_i j' _ hh
            obtain ⟨rfl, rfl⟩ := hh
            rcases hn with hn | hn
            · exact hn
            · exact absurd rfl (hn _ hm j').2
          · exact hw
        · exact hw
  exact key H [] w rfl nofun nofun nofun hw hr

theorem used_made {own dev In} (hb : Guarded (Belongs own dev In) h) (hk : ∀ e ∈ h, Lasts e) (hu : Uses h ns s) : Made h ns s.bareJid s.deviceId s := by
  have : ∃ j d, Made h ns j d s := by
    cases hu with
    | encrypt hm =>
      obtain ⟨h1, h2, rfl⟩ := List.append_of_mem hm
      obtain ⟨⟨j, d, h3⟩, _⟩ := hb h1 _ h2 rfl
      exact ⟨j, d, Belongs.Made.mono (fun _ h => List.mem_append_left _ h) h3⟩
    | decrypt hm =>
      obtain ⟨h1, h2, rfl⟩ := List.append_of_mem hm
      obtain ⟨_, _, _, _, _, h3⟩ := hb h1 _ h2 rfl
      exact ⟨_, _, Belongs.Made.mono (fun _ h => List.mem_append_left _ h) h3⟩
    | store hm =>
      obtain ⟨h1, h2, rfl⟩ := List.append_of_mem hm
      obtain ⟨j, d, h3⟩ := hb h1 _ h2 rfl
      exact ⟨j, d, Belongs.Made.mono (fun _ h => List.mem_append_left _ h) h3⟩
  obtain ⟨j, d, hm⟩ := this
  obtain ⟨rfl, rfl⟩ := made_with hk hm
  exact hm

theorem locked_for {m k} (hk : ∀ e ∈ h, Lasts e) (hl : Locked h ns j d m k s) : k.bareJid = j ∧ k.deviceId = d := by
  rcases hl with ⟨s0, h1, h2⟩ | ⟨b, h1⟩
  · have := ((hk _ h2).encrypt _ _ _ _ _ rfl).2
    have h3 := made_with hk h1
    exact ⟨this.1.trans h3.1, this.2.trans h3.2⟩
  · exact ((hk _ h1).active _ _ _ _ _ _ _ rfl).2

end

section
variable {A B : Mgr} {ns : Ns} {C : Call → Prop} {In : Message → Prop} {w w' : Option Session} {h : List Ev} {out : List Message}

/-- All sessions with the peer are of a kind if those built are. -/
theorem kind (hl : Lives A B ns C In w w' h out) {φ : Initiation → KeyExchange → Prop}
    (ha : ∀ b m s k, (⟨.buildActive ns B.ownJid B.ownDev b m, .ok (s, k)⟩ : Ev) ∈ h → φ s.initiation s.keyExchange)
    (hp : ∀ x k s m, (⟨.buildPassive ns B.ownJid B.ownDev x k, .ok (s, m)⟩ : Ev) ∈ h → φ s.initiation s.keyExchange)
    (hw : ∀ s, w = some s → φ s.initiation s.keyExchange) {s : Session} (hm : Made h ns B.ownJid B.ownDev s) : φ s.initiation s.keyExchange := by
  have hb := (acts_belongs hl.acts hl.plain).1
  refine made_kind hl.keeps (fun s hs => ?_) ha hp hm
  have := (shelf_kind hb hl.keeps (L := fun o => ∀ s, o = some s → φ s.initiation s.keyExchange) (by simp) (.inl nofun)
    (fun h1 h2 b m s k hh _ => ha b m s k (by rw [hh]; simp)) (fun h1 h2 x k s m hh _ => hp x k s m (by rw [hh]; simp)) hl.shelf hw).1 _ hs
  exact this s rfl

/-- A key exchange in a message for the peer is that of a session with it, and this session is active. -/
theorem kex_active (hl : Lives A B ns C In w w' h out) {m : Message} (hm : m ∈ out) (hns : m.ns = ns) {k y} (hc : Carries B.ownJid B.ownDev m k (some y)) :
    ∃ s, Made h ns B.ownJid B.ownDev s ∧ s.keyExchange = y ∧ s.initiation = .active := by
  obtain ⟨km, -, h2⟩ := (acts_belongs hl.acts hl.plain).2 m hm
  obtain ⟨j, d, s, h3, h4⟩ := h2 k _ hc.1
  rw [hns] at h3 h4
  obtain ⟨e1, e2⟩ := locked_for hl.keeps h3
  obtain rfl := e1.symm.trans hc.2.1
  obtain rfl := e2.symm.trans hc.2.2
  obtain ⟨h5, h6⟩ := h4.2 y rfl
  refine ⟨s, Belongs.Locked.made h3, h5.symm, ?_⟩
  rcases h6 with h6 | ⟨_, _, _, h6⟩
  · exact h6
  · exact ((hl.keeps _ h6).active _ _ _ _ _ _ _ rfl).1.2

/-- Where the key exchange of a passive session comes from. -/
theorem built_from (hl : Lives A B ns C In w w' h out) {x k s m} (hm : (⟨.buildPassive ns B.ownJid B.ownDev x k, .ok (s, m)⟩ : Ev) ∈ h) :
    (s.initiation = .passive ∧ s.keyExchange = x) ∧ ∃ msg, In msg ∧ msg.ns = ns ∧ Carries A.ownJid A.ownDev msg k (some x) ∧ msg.bareJid = B.ownJid ∧ msg.deviceId = B.ownDev := by
  refine ⟨((hl.keeps _ hm).passive _ _ _ _ _ _ _ rfl).2, ?_⟩
  obtain ⟨h1, h2, rfl⟩ := List.append_of_mem hm
  obtain ⟨msg, a, b, c, d, e⟩ := (acts_belongs hl.acts hl.plain).1 h1 _ h2 rfl
  exact ⟨msg, a, b, c, d.symm, e.symm⟩

end
end Crossing

/-- C102 (partial: full claim is `CommonSession`, refuted below): if only one of two devices ever builds sessions actively, and these all by one key exchange,
then on both sides all sessions with the other are from this key exchange, for any calls with any answers and any delay, loss or repetition of messages. -/
theorem C102_partial (A B : Mgr) (ns : Ns) (C : Call → Prop) (x : KeyExchange) {wA wB : Option Session} {hA hB : List Ev} {outA outB : List Message}
    (a : Lives A B ns C (FromPeer B ns outB) none wA hA outA) (b : Lives B A ns C (FromPeer A ns outA) none wB hB outB)
    (one : ∀ bd m s k, (⟨.buildActive ns B.ownJid B.ownDev bd m, .ok (s, k)⟩ : Ev) ∈ hA → s.keyExchange = x)
    (no : ∀ bd m r, (⟨.buildActive ns A.ownJid A.ownDev bd m, r⟩ : Ev) ∉ hB) :
    (∀ s, Uses hA ns s → Session.with s B.ownJid B.ownDev → s.initiation = .active ∧ s.keyExchange = x) ∧
      (∀ s, Uses hB ns s → Session.with s A.ownJid A.ownDev → s.initiation = .passive ∧ s.keyExchange = x) ∧
      InCommon A B ns hA hB ∧ InCommon B A ns hB hA := by
  have b1 : ∀ s, Made hB ns A.ownJid A.ownDev s → s.initiation = .passive := fun s hm =>
    Crossing.kind b (φ := fun i _ => i = .passive) (fun _ _ _ _ h => absurd h (no _ _ _)) (fun _ _ _ _ h => (Crossing.built_from b h).1.1) nofun hm
  have a1 : ∀ s, Made hA ns B.ownJid B.ownDev s → s.initiation = .active ∧ s.keyExchange = x := fun s hm =>
    Crossing.kind a (φ := fun i y => i = .active ∧ y = x)
      (fun _ _ _ _ h => ⟨((a.keeps _ h).active _ _ _ _ _ _ _ rfl).1.2, one _ _ _ _ h⟩)
      (fun _ _ _ _ h => by
        obtain ⟨-, msg, h1, h2, h3, h4, h5⟩ := Crossing.built_from a h
        obtain ⟨s, h6, -, h7⟩ := Crossing.kex_active b (h1 h2 h4 h5) h2 h3
        exact absurd (h7.symm.trans (b1 s h6)) (by decide)) nofun hm
  have b2 : ∀ s, Made hB ns A.ownJid A.ownDev s → s.initiation = .passive ∧ s.keyExchange = x := fun s hm =>
    Crossing.kind b (φ := fun i y => i = .passive ∧ y = x) (fun _ _ _ _ h => absurd h (no _ _ _))
      (fun _ _ _ _ h => by
        obtain ⟨h0, msg, h1, h2, h3, h4, h5⟩ := Crossing.built_from b h
        obtain ⟨s, h6, h7, -⟩ := Crossing.kex_active a (h1 h2 h4 h5) h2 h3
        exact ⟨h0.1, h0.2.trans (h7.symm.trans (a1 s h6).2)⟩) nofun hm
  have ua : ∀ s, Uses hA ns s → Session.with s B.ownJid B.ownDev → s.initiation = .active ∧ s.keyExchange = x := fun s hu hs => by
    have := Crossing.used_made (Crossing.acts_belongs a.acts a.plain).1 a.keeps hu
    rw [hs.1, hs.2] at this
    exact a1 s this
  have ub : ∀ s, Uses hB ns s → Session.with s A.ownJid A.ownDev → s.initiation = .passive ∧ s.keyExchange = x := fun s hu hs => by
    have := Crossing.used_made (Crossing.acts_belongs b.acts b.plain).1 b.keeps hu
    rw [hs.1, hs.2] at this
    exact b2 s this
  exact ⟨ua, ub, fun s m k s1 s2 r h1 h2 h3 h4 => (ua s (.encrypt h1) h2).2.trans (ub s2 (.decrypt h3) h4).2.symm,
    fun s m k s1 s2 r h1 h2 h3 h4 => (ub s (.encrypt h1) h2).2.trans (ua s2 (.decrypt h3) h4).2.symm⟩

/-! ### Key exchanges that cross -/

/-- C102, what happens to a key exchange: unless the stored session is a passive one built by the same key exchange, then after decryption the stored session is
a passive one from the key exchange that came with the message. -/
theorem C102_takes (M : Mgr) (msg : Message) {t p dev km} (he : Exec (decrypt M msg) t (.ok (p, dev, km))) (hk : ∀ e ∈ t, Lasts e) {w w'}
    (hr : (Shelf msg.ns msg.bareJid msg.deviceId).Runs w t w') {k y} (hy : keyForUs M msg = some (k, some y)) (hs : ∀ s0, w = some s0 → ¬ Same M s0 y) :
    ∃ s, w' = some s ∧ s.initiation = .passive ∧ s.keyExchange = y := by
  let φ : Session → Prop := fun s => s.initiation = .passive ∧ s.keyExchange = y
  have hg := Kn.exec (Echo.kn_decrypt (M := M) (msg := msg) (K := fun _ => True)) he
  -- sessions after receiving
  have recv : ∀ pre s, (∀ e ∈ pre, e ∈ t) → (∀ o, (⟨.loadSession msg.ns msg.bareJid msg.deviceId, .ok o⟩ : Ev) ∈ pre →
      ∀ s, o = some s → ¬ Same M s y ∨ φ s) → Received M msg pre s → φ s ∧ Session.with s msg.bareJid msg.deviceId := by
    intro pre s hp hl h
    cases h with
    | @used k' x' s1 m h1 h2 h3 =>
      rw [hy] at h1
      cases h1
      obtain ⟨-, -, kex, h4, h5⟩ := C41_used M msg t _ he _ _ _ _ (hp _ h3)
      rw [hy] at h4
      cases h4
      have hsame := h5 y rfl
      have h7 := hl _ h2 _ rfl
      have hd := (hk _ (hp _ h3)).decrypt _ _ _ _ _ rfl
      have hw := (hk _ (hp _ h2)).load _ _ _ _ rfl
      rcases h7 with h7 | h7
      · exact absurd hsame h7
      · exact ⟨⟨hd.2.1.trans h7.1, hd.2.2.trans h7.2⟩, hd.1.1.trans hw.1, hd.1.2.trans hw.2⟩
    | @built k' x' m h1 h2 =>
      rw [hy] at h1
      cases h1
      have hd := (hk _ (hp _ h2)).passive _ _ _ _ _ _ _ rfl
      exact ⟨hd.2, hd.1⟩
  have nopurge : ∀ e ∈ t, (∀ ns, e.1 ≠ .purge ns) ∧ ∀ ns j, e.1 ≠ .purgeJid ns j := by
    intro e hm
    have hd := (ops_decrypt M msg).exec he e hm
    constructor
    · intro ns hh
      rw [hh] at hd
      cases hd with
      | info h => cases h
      | refresh h => cases h with | update h => cases h
      | sendEmpty h => cases h
    · intro ns j hh
      rw [hh] at hd
      cases hd with
      | info h => cases h
      | refresh h => cases h with | update h => cases h
      | sendEmpty h => cases h
  have key : ∀ suf pre w, t = pre ++ suf → (∀ o, (⟨.loadSession msg.ns msg.bareJid msg.deviceId, .ok o⟩ : Ev) ∈ pre →
      ∀ s, o = some s → ¬ Same M s y ∨ φ s) → (∀ s, w = some s → ¬ Same M s y ∨ φ s) →
      (Shelf msg.ns msg.bareJid msg.deviceId).Runs w suf w' →
      ((∃ s, w = some s ∧ φ s) ∨ ∃ s, (⟨.storeSession msg.ns s, .ok ()⟩ : Ev) ∈ suf) → ∃ s, w' = some s ∧ φ s := by
    intro suf
    induction suf with
    | nil =>
      intro pre w _ _ _ hr hh
      cases hr
      rcases hh with hh | ⟨_, hh⟩
      · exact hh
      · cases hh
    | cons e suf ih =>
      intro pre w hh hl hw hr hf
      have hpre : ∀ x ∈ pre, x ∈ t := fun x hx => by rw [hh]; exact List.mem_append_left _ hx
      have hl' : ∀ o, (⟨.loadSession msg.ns msg.bareJid msg.deviceId, .ok o⟩ : Ev) ∈ pre ++ [e] → ∀ s, o = some s → ¬ Same M s y ∨ φ s := by
        intro o ho
        rcases List.mem_append.1 ho with ho | ho
        · exact hl o ho
        · obtain rfl := List.mem_singleton.1 ho
          have := hr.1 ⟨rfl, rfl, rfl⟩
          exact this ▸ hw
      have stored : ∀ s, e = ⟨.storeSession msg.ns s, .ok ()⟩ → (Shelf msg.ns msg.bareJid msg.deviceId).next w e = some s ∧ φ s := by
        rintro s rfl
        have hst : φ s ∧ Session.with s msg.bareJid msg.deviceId := by
          rcases hg pre _ suf hh with h1 | ⟨s1, h1, _, _, _, _, km', k', h2⟩
          · exact recv pre s hpre hl h1
          · have h3 := recv pre s1 hpre hl h1
            have h4 := ((hk _ (hpre _ h2)).encrypt _ _ _ _ _ rfl).1
            exact ⟨⟨h4.2.1.trans h3.1.1, h4.2.2.trans h3.1.2⟩, h4.1.1.trans h3.2.1, h4.1.2.trans h3.2.2⟩
        refine ⟨?_, hst.1⟩
        unfold Shelf
        exact if_pos ⟨rfl, hst.2⟩
      have same : (∀ s, e ≠ ⟨.storeSession msg.ns s, .ok ()⟩) → (Shelf msg.ns msg.bareJid msg.deviceId).next w e = w := by
        intro hne
        have hnp := nopurge e (by rw [hh]; simp)
        unfold Shelf
        dsimp only
        split
        · split
          · rename_i h1
            obtain ⟨rfl, _⟩ := h1
            exact absurd rfl (hne _)
          · rfl
        · exact absurd rfl (hnp.1 _)
        · exact absurd rfl (hnp.2 _ _)
        · rfl
      by_cases hst : ∃ s, e = ⟨.storeSession msg.ns s, .ok ()⟩
      · obtain ⟨s, hst⟩ := hst
        obtain ⟨h1, h2⟩ := stored s hst
        exact ih (pre ++ [e]) _ (by simp [hh]) hl' (fun s' h => .inr (by rw [h1] at h; cases h; exact h2)) hr.2 (.inl ⟨s, h1, h2⟩)
      · have h1 := same fun s h => hst ⟨s, h⟩
        have h2 := hr.2
        rw [h1] at h2
        refine ih (pre ++ [e]) w (by simp [hh]) hl' hw h2 (hf.imp id fun ⟨s, h⟩ => ⟨s, ?_⟩)
        rcases List.mem_cons.1 h with h | h
        · exact absurd ⟨s, h.symm⟩ hst
        · exact h
  obtain ⟨_, _, s, _, _, _, _, _, hd⟩ := exec_decrypt_ok he
  exact key t [] _ rfl nofun (fun s h => .inl (hs s h)) hr (.inr ⟨s, by rw [hd.eq]; simp⟩)

/-- C102, crossing: whoever has built a session actively and then decrypts a message of the same device with a key exchange, no longer has the session it built. -/
theorem C102_crossed (M : Mgr) (msg : Message) {t p dev km} (he : Exec (decrypt M msg) t (.ok (p, dev, km))) (hk : ∀ e ∈ t, Lasts e) {s0 : Session} {w'}
    (hr : (Shelf msg.ns msg.bareJid msg.deviceId).Runs (some s0) t w') (hs : s0.initiation = .active) {k y} (hy : keyForUs M msg = some (k, some y)) :
    ∃ s, w' = some s ∧ s.initiation = .passive ∧ s.keyExchange = y :=
  C102_takes M msg he hk hr hy fun s h hs' => by cases h; exact absurd (hs.symm.trans hs'.1) (by decide)

namespace Crossing
variable {A B : Mgr} {ns : Ns} {In : Message → Prop} {s0 : Session} {w' : Option Session} {h : List Ev} {out : List Message}

/-- No active sessions are built while there is a passive one. -/
theorem stays_passive (hl : Lives A B ns NoReplace In (some s0) w' h out) (h0 : s0.initiation = .passive)
    (hp : ∀ e ∈ h, ∀ j, e.1 ≠ .purge ns ∧ e.1 ≠ .purgeJid ns j) :
    (∀ bd m r, (⟨.buildActive ns B.ownJid B.ownDev bd m, r⟩ : Ev) ∉ h) ∧ ∀ s, Made h ns B.ownJid B.ownDev s → s.initiation = .passive := by
  have hb := acts_building hl.acts hl.plain fun j d hc => hc j d rfl
  have hs := (shelf_kind (acts_belongs hl.acts hl.plain).1 hl.keeps (φ := fun i _ => i = .passive) (L := fun o => ∃ s, o = some s ∧ s.initiation = .passive)
    (by simp) (.inr hp)
    (fun h1 h2 b m s k hh hl => by
      obtain ⟨s, h, -⟩ := hl _ (hb h1 _ h2 hh)
      cases h)
    (fun h1 h2 x k s m hh _ => ((hl.keeps ⟨.buildPassive ns B.ownJid B.ownDev x k, .ok (s, m)⟩ (by rw [hh]; simp)).passive _ _ _ _ _ _ _ rfl).2.1) hl.shelf ⟨s0, rfl, h0⟩).1
  have ha : ∀ bd m r, (⟨.buildActive ns B.ownJid B.ownDev bd m, r⟩ : Ev) ∉ h := by
    intro bd m r hm
    obtain ⟨h1, h2, rfl⟩ := List.append_of_mem hm
    obtain ⟨s, h, -⟩ := hs _ (List.mem_append_left _ (hb h1 _ h2 rfl))
    cases h
  refine ⟨ha, fun s hm => made_kind (φ := fun i _ => i = .passive) hl.keeps (fun s h => ?_) (fun _ _ _ _ h => absurd h (ha _ _ _)) (fun x k s m h => ?_) hm⟩
  · obtain ⟨s', h1, h2⟩ := hs _ h
    cases h1
    exact h2
  · exact ((hl.keeps _ h).passive _ _ _ _ _ _ _ rfl).2.1

theorem stays (hl : Lives A B ns NoReplace In (some s0) w' h out) (h0 : s0.initiation = .passive)
    (hp : ∀ e ∈ h, ∀ j, e.1 ≠ .purge ns ∧ e.1 ≠ .purgeJid ns j)
    (hi : ∀ msg k x, In msg → msg.ns = ns → Carries A.ownJid A.ownDev msg k (some x) → msg.bareJid = B.ownJid → msg.deviceId = B.ownDev →
      A.sameSession s0.keyExchange x = true) :
    (∀ s, Uses h ns s → Session.with s B.ownJid B.ownDev → s.initiation = .passive ∧ s.keyExchange = s0.keyExchange) ∧
      ∃ s, w' = some s ∧ s.initiation = .passive ∧ s.keyExchange = s0.keyExchange := by
  have hb := acts_building hl.acts hl.plain fun j d hc => hc j d rfl
  obtain ⟨ha, -⟩ := stays_passive hl h0 hp
  have nob : ∀ h1 h2 x k r, h = h1 ++ (⟨.buildPassive ns B.ownJid B.ownDev x k, r⟩ : Ev) :: h2 →
      (∀ o, (⟨.loadSession ns B.ownJid B.ownDev, .ok o⟩ : Ev) ∈ h1 → ∃ s, o = some s ∧ s.initiation = .passive ∧ s.keyExchange = s0.keyExchange) → False := by
    intro h1 h2 x k r hh hl1
    obtain ⟨o, h3, h4⟩ := hb h1 _ h2 hh
    obtain ⟨s, rfl, h5, h6⟩ := hl1 o h3
    obtain ⟨msg, a, b, c, d, e⟩ := (acts_belongs hl.acts hl.plain).1 h1 _ h2 hh
    exact h4 s rfl ⟨h5, h6 ▸ hi msg k x a b c d.symm e.symm⟩
  have hs := shelf_kind (acts_belongs hl.acts hl.plain).1 hl.keeps (φ := fun i y => i = .passive ∧ y = s0.keyExchange)
    (L := fun o => ∃ s, o = some s ∧ s.initiation = .passive ∧ s.keyExchange = s0.keyExchange) (by simp) (.inr hp)
    (fun h1 h2 b m s k hh hl => absurd (by rw [hh]; simp) (ha b m (.ok (s, k))))
    (fun h1 h2 x k s m hh hl => (nob h1 h2 x k _ hh hl).elim) hl.shelf ⟨s0, rfl, h0, rfl⟩
  refine ⟨fun s hu hw => ?_, hs.2⟩
  have hm := used_made (acts_belongs hl.acts hl.plain).1 hl.keeps hu
  rw [hw.1, hw.2] at hm
  refine made_kind (φ := fun i y => i = .passive ∧ y = s0.keyExchange) hl.keeps (fun s h => ?_) (fun _ _ _ _ h => absurd h (ha _ _ _)) (fun x k s m h => ?_) hm
  · obtain ⟨s', h1, h2⟩ := hs.1 _ h
    cases h1
    exact h2
  · obtain ⟨h1, h2, rfl⟩ := List.append_of_mem h
    exact (nob h1 h2 x k _ rfl fun o ho => hs.1 o (List.mem_append_left _ ho)).elim

end Crossing

/-- C102, and it stays so: once each of two devices has a passive session with the other, from different key exchanges, then whatever they send each
other, and however the messages arrive, neither gets a session the other has, until sessions are replaced on request or purged.  What is still underway from
before may carry the key exchanges these sessions are from. -/
theorem C102_forever (A B : Mgr) (ns : Ns) {sA sB : Session} {wA wB : Option Session} {hA hB : List Ev} {outA outB : List Message}
    (a : Lives A B ns NoReplace (fun m => FromPeer B ns outB m ∨ ∀ k z, (k, some z) ∈ m.keys → A.sameSession sA.keyExchange z = true) (some sA) wA hA outA)
    (b : Lives B A ns NoReplace (fun m => FromPeer A ns outA m ∨ ∀ k z, (k, some z) ∈ m.keys → B.sameSession sB.keyExchange z = true) (some sB) wB hB outB)
    (ha : sA.initiation = .passive) (hb : sB.initiation = .passive)
    (pa : ∀ e ∈ hA, ∀ j, e.1 ≠ .purge ns ∧ e.1 ≠ .purgeJid ns j) (pb : ∀ e ∈ hB, ∀ j, e.1 ≠ .purge ns ∧ e.1 ≠ .purgeJid ns j) :
    (∀ s, Uses hA ns s → Session.with s B.ownJid B.ownDev → s.initiation = .passive ∧ s.keyExchange = sA.keyExchange) ∧
      (∀ s, Uses hB ns s → Session.with s A.ownJid A.ownDev → s.initiation = .passive ∧ s.keyExchange = sB.keyExchange) ∧
      (∃ s, wA = some s ∧ s.initiation = .passive ∧ s.keyExchange = sA.keyExchange) ∧
      ∃ s, wB = some s ∧ s.initiation = .passive ∧ s.keyExchange = sB.keyExchange := by
  have a1 := (Crossing.stays_passive a ha pa).2
  have b1 := (Crossing.stays_passive b hb pb).2
  obtain ⟨a2, a3⟩ := Crossing.stays a ha pa fun msg k x hi h1 h2 h3 h4 => by
    rcases hi with hi | hi
    · obtain ⟨s, h5, -, h6⟩ := Crossing.kex_active b (hi h1 h3 h4) h1 h2
      exact absurd (h6.symm.trans (b1 s h5)) (by decide)
    · exact hi k x h2.1
  obtain ⟨b2, b3⟩ := Crossing.stays b hb pb fun msg k x hi h1 h2 h3 h4 => by
    rcases hi with hi | hi
    · obtain ⟨s, h5, -, h6⟩ := Crossing.kex_active a (hi h1 h3 h4) h1 h2
      exact absurd (h6.symm.trans (a1 s h5)) (by decide)
    · exact hi k x h2.1
  exact ⟨a2, b2, a3, b3⟩

/-- C102, and nothing can be read: if key material can only be decrypted with a session from the key exchange of the session it was encrypted with, then in this
situation no attempt to decrypt what the other side encrypts succeeds. -/
theorem C102_unreadable (A B : Mgr) (ns : Ns) {sA sB : Session} {wA wB : Option Session} {hA hB : List Ev} {outA outB : List Message}
    (a : Lives A B ns NoReplace (fun m => FromPeer B ns outB m ∨ ∀ k z, (k, some z) ∈ m.keys → A.sameSession sA.keyExchange z = true) (some sA) wA hA outA)
    (b : Lives B A ns NoReplace (fun m => FromPeer A ns outA m ∨ ∀ k z, (k, some z) ∈ m.keys → B.sameSession sB.keyExchange z = true) (some sB) wB hB outB)
    (ha : sA.initiation = .passive) (hb : sB.initiation = .passive)
    (pa : ∀ e ∈ hA, ∀ j, e.1 ≠ .purge ns ∧ e.1 ≠ .purgeJid ns j) (pb : ∀ e ∈ hB, ∀ j, e.1 ≠ .purge ns ∧ e.1 ≠ .purgeJid ns j)
    (hne : sA.keyExchange ≠ sB.keyExchange)
    (bound : ∀ s m k s1 s2 m2 s3, (⟨.encryptKM ns s m, .ok (k, s1)⟩ : Ev) ∈ hA → (⟨.decryptKM ns s2 k, .ok (m2, s3)⟩ : Ev) ∈ hB → s.keyExchange = s2.keyExchange)
    {s m k s1} (he : (⟨.encryptKM ns s m, .ok (k, s1)⟩ : Ev) ∈ hA) (hs : Session.with s B.ownJid B.ownDev) {s2 r}
    (hd : (⟨.decryptKM ns s2 k, r⟩ : Ev) ∈ hB) (hs2 : Session.with s2 A.ownJid A.ownDev) : ∃ e, r = .error e := by
  obtain ⟨h1, h2, -⟩ := C102_forever A B ns a b ha hb pa pb
  cases r with
  | error e => exact ⟨e, rfl⟩
  | ok x =>
    obtain ⟨m2, s3⟩ := x
    exact absurd ((h1 s (.encrypt he) hs).2.symm.trans ((bound _ _ _ _ _ _ _ he hd).trans (h2 s2 (.decrypt hd) hs2).2)) hne

/-! ### The way out -/

theorem Crossing.shelf_last {ns : Ns} {j : Jid} {d : DevId} {w w' : Option Session} {t : List Ev} (hr : (Shelf ns j d).Runs w t w')
    (hp : ∀ e ∈ t, (∀ ns, e.1 ≠ .purge ns) ∧ ∀ ns j, e.1 ≠ .purgeJid ns j) (hs : ∃ s, (⟨.storeSession ns s, .ok ()⟩ : Ev) ∈ t ∧ Session.with s j d) :
    ∃ s, w' = some s ∧ (⟨.storeSession ns s, .ok ()⟩ : Ev) ∈ t ∧ Session.with s j d := by
  have key : ∀ w, (Shelf ns j d).Runs w t w' → w' = w ∧ (∀ s, (⟨.storeSession ns s, .ok ()⟩ : Ev) ∈ t → ¬ Session.with s j d) ∨
      ∃ s, w' = some s ∧ (⟨.storeSession ns s, .ok ()⟩ : Ev) ∈ t ∧ Session.with s j d := by
    clear hr hs w
    induction t with
    | nil => intro w hr; cases hr; exact .inl ⟨rfl, nofun⟩
    | cons e t ih =>
      intro w hr
      rcases ih (fun e he => hp e (List.mem_cons_of_mem _ he)) _ hr.2 with ⟨h1, h2⟩ | ⟨s, h1, h2, h3⟩
      · by_cases he : ∃ s, e = ⟨.storeSession ns s, .ok ()⟩ ∧ Session.with s j d
        · obtain ⟨s, rfl, hw⟩ := he
          refine .inr ⟨s, ?_, List.mem_cons_self .., hw⟩
          rw [h1]
          unfold Shelf
          exact if_pos ⟨rfl, hw⟩
        · refine .inl ⟨?_, fun s hm hw => ?_⟩
          · rw [h1]
            have hnp := hp e (List.mem_cons_self ..)
            unfold Shelf
            dsimp only
            split
            · split
              · rename_i hh
                obtain ⟨rfl, hw⟩ := hh
                exact absurd ⟨_, rfl, hw⟩ he
              · rfl
            · exact absurd rfl (hnp.1 _)
            · exact absurd rfl (hnp.2 _ _)
            · rfl
          · rcases List.mem_cons.1 hm with hm | hm
            · exact he ⟨s, hm.symm, hw⟩
            · exact h2 s hm hw
      · exact .inr ⟨s, h1, List.mem_cons_of_mem _ h2, h3⟩
  rcases key w hr with ⟨-, h⟩ | h
  · obtain ⟨s, h1, h2⟩ := hs
    exact absurd h2 (h s h1)
  · exact h

/-- C102, the way out: when `replace_sessions` has replaced the session, then the message it sent brings the other side to the same session, whatever
session it has had. -/
theorem C102_remedy (A B : Mgr) (ns : Ns) {t r} (he : Exec (replaceSessions A B.ownJid B.ownDev) t r) (hk : ∀ e ∈ t, Lasts e) {w w'}
    (hr : (Shelf ns B.ownJid B.ownDev).Runs w t w') (hs : ∃ s, (⟨.storeSession ns s, .ok ()⟩ : Ev) ∈ t) :
    ∃ s m, (w' = some s ∧ s.initiation = .active) ∧ ((⟨.sendMessage m B.ownJid, .ok ()⟩ : Ev) ∈ t ∧ m.ns = ns ∧ m.bareJid = A.ownJid ∧ m.deviceId = A.ownDev ∧ ∃ k, m.keys = [(k, some s.keyExchange)]) ∧
      ∀ {t' p dev km v v'}, Exec (decrypt B m) t' (.ok (p, dev, km)) → (∀ e ∈ t', Lasts e) → (Shelf ns A.ownJid A.ownDev).Runs v t' v' →
        (∀ s0, v = some s0 → ¬ Same B s0 s.keyExchange) → ∃ s', v' = some s' ∧ s'.initiation = .passive ∧ s'.keyExchange = s.keyExchange := by
  have ann : ∀ s, (⟨.storeSession ns s, .ok ()⟩ : Ev) ∈ t → ∃ content km b ekm, (⟨.buildActive ns B.ownJid B.ownDev b km, .ok (s, ekm)⟩ : Ev) ∈ t ∧
      (⟨.sendMessage ⟨ns, A.ownJid, A.ownDev, content, [(ekm, some s.keyExchange)]⟩ B.ownJid, .ok ()⟩ : Ev) ∈ t := by
    intro s hm
    obtain ⟨u, v, rfl⟩ := List.append_of_mem hm
    obtain ⟨u1, u2, rfl, content, km, b, ekm, rfl⟩ := C63_announced A _ _ _ _ he u ns s _ v rfl
    exact ⟨content, km, b, ekm, by simp, by simp⟩
  obtain ⟨s, h1, h2, -⟩ := Crossing.shelf_last hr (fun e hm => by
      have hd := (ops_replaceSessions A B.ownJid B.ownDev).exec he e hm
      constructor
      · intro ns hh
        rw [hh] at hd
        cases hd with
        | info h => cases h
      · intro ns j hh
        rw [hh] at hd
        cases hd with
        | info h => cases h) (by
      obtain ⟨s, hs⟩ := hs
      obtain ⟨_, _, _, _, hb, -⟩ := ann s hs
      exact ⟨s, hs, ((hk _ hb).active _ _ _ _ _ _ _ rfl).1.1⟩)
  obtain ⟨content, km, b, ekm, h3, h4⟩ := ann s h2
  have hb := (hk _ h3).active _ _ _ _ _ _ _ rfl
  refine ⟨s, _, ⟨h1, hb.1.2⟩, ⟨h4, rfl, rfl, rfl, _, rfl⟩, fun hd hk' hr' hv => ?_⟩
  refine C102_takes B _ hd hk' hr' (k := ekm) ?_ hv
  unfold keyForUs
  have : (B.O.iter [(ekm, some s.keyExchange)]) = [(ekm, some s.keyExchange)] := by
    have hp := B.O.perm [(ekm, some s.keyExchange)]
    exact List.perm_singleton.1 hp
  rw [this]
  simp [hb.2.1, hb.2.2]

/-! ### A run -/

/-- The devices of the two sides, each of which knows and trusts the other. -/
def World.side : World where
  disk := fun k => match k with
    | .devList "a" => some (.ofInts [7])
    | .devNamespaces "a" 7 => some (.ofStrs ["n"])
    | .devActive "a" 7 => some (.ofBools [("n", true)])
    | .devLabel "a" 7 => some (.ofOptStr none)
    | .devIdentityKey "a" 7 => some (.str (Base64.encode [7]))
    | .trust "a" [7] => some (.str "trusted")
    | .devList "me" => some (.ofInts [1])
    | .devNamespaces "me" 1 => some (.ofStrs ["n"])
    | .devActive "me" 1 => some (.ofBools [("n", true)])
    | .devLabel "me" 1 => some (.ofOptStr none)
    | .devIdentityKey "me" 1 => some (.str (Base64.encode [1]))
    | .trust "me" [1] => some (.str "trusted")
    | _ => none
  backends := ["n"]
  sync := false
  log := []

/-- Key exchanges carry the identity key of who builds the session; key material can be decrypted with a session from the same key exchange. -/
def exchanging (me : UInt8) : World → (o : Op) → Except Exn o.Ret
  | w, .loadSession ns j d => .ok (Ratchet.lastStored w.log ns j d)
  | _, .buildActive ns j d _ _ => .ok (⟨ns, j, d, .active, false, ⟨[me], 0⟩, none, 1, 0⟩, ⟨j, d, me.toNat⟩)
  | _, .encryptKM _ s _ => .ok (⟨s.bareJid, s.deviceId, (s.keyExchange.identityKey.headD 0).toNat⟩, { s with sendingChainLength := s.sendingChainLength + 1 })
  | _, .decryptKM _ s e => if e.blob = (s.keyExchange.identityKey.headD 0).toNat then .ok (⟨1⟩, { s with confirmed := true }) else .error .decryptionFailed
  | w, o => friendly w o

/-- What happened, what was sent, and the state. -/
abbrev Run := List Ev × List Message × World

namespace Run

/-- The call of `encrypt`. -/
def call (M : Mgr) (me : UInt8) (to : Jid) (x : Run) := runProg (Lib.env (exchanging me)) Lib.next 200 (SM.encrypt M [to] [("n", [1])] none none) x.2.2

def encrypt (M : Mgr) (me : UInt8) (to : Jid) (x : Run) : Run :=
  (x.1 ++ (call M me to x).1, x.2.1 ++ outOf (call M me to x).1 ++ (match (call M me to x).2.1 with | .ok (ms, _) => ms.map (·.1) | _ => []), (call M me to x).2.2)

def decrypt (M : Mgr) (me : UInt8) (msg : Message) (x : Run) : Run :=
  let y := runProg (Lib.env (exchanging me)) Lib.next 200 (Call.run M (.decrypt msg)) x.2.2
  (x.1 ++ y.1, x.2.1 ++ outOf y.1, y.2.2)

def works {α : Type} : Res Exn α → Bool
  | .ok _ => true
  | _ => false

theorem acts_encrypt {M : Mgr} {In C} {me : UInt8} {to : Jid} {x : Run} (ha : Acts M In C x.1 x.2.1) (hc : ∀ jids pt prio i, C (.encrypt jids pt prio i))
    (hok : works (call M me to x).2.1 = true) : Acts M In C (x.encrypt M me to).1 (x.encrypt M me to).2.1 := by
  have he : Exec _ (call M me to x).1 (call M me to x).2.1 := runProg_exec (Lib.env (exchanging me)) Lib.next 200 _ x.2.2
  unfold Run.encrypt
  dsimp only
  revert he hok
  cases (call M me to x).2.1 with
  | ok a => exact fun _ he => .encrypt ha (hc _ _ _ _) he
  | raised e => intro h; cases h
  | crashed => intro h; cases h

theorem acts_decrypt {M : Mgr} {In C} {me : UInt8} {msg : Message} {x : Run} (ha : Acts M In C x.1 x.2.1) (hc : C (.decrypt msg))
    (hi : In msg) : Acts M In C (x.decrypt M me msg).1 (x.decrypt M me msg).2.1 :=
  .call ha hc (fun _ h => by cases h; exact hi) (runProg_exec (Lib.env (exchanging me)) Lib.next 200 _ x.2.2)

def keepsB (e : Ev) : Bool := match e with
  | ⟨.loadSession _ j d, .ok (some s)⟩ => decide (s.bareJid = j ∧ s.deviceId = d)
  | ⟨.buildActive _ j d _ _, .ok (s, k)⟩ => decide (((s.bareJid = j ∧ s.deviceId = d) ∧ s.initiation = .active) ∧ k.bareJid = j ∧ k.deviceId = d)
  | ⟨.buildPassive _ j d x _, .ok (s, _)⟩ => decide ((s.bareJid = j ∧ s.deviceId = d) ∧ s.initiation = .passive ∧ s.keyExchange = x)
  | ⟨.encryptKM _ s _, .ok (k, s')⟩ => decide (((s'.bareJid = s.bareJid ∧ s'.deviceId = s.deviceId) ∧ s'.initiation = s.initiation ∧
      s'.keyExchange = s.keyExchange) ∧ k.bareJid = s.bareJid ∧ k.deviceId = s.deviceId)
  | ⟨.decryptKM _ s _, .ok (_, s')⟩ => decide ((s'.bareJid = s.bareJid ∧ s'.deviceId = s.deviceId) ∧ s'.initiation = s.initiation ∧ s'.keyExchange = s.keyExchange)
  | _ => true

theorem keeps_of {h : List Ev} (hb : h.all keepsB = true) : ∀ e ∈ h, Lasts e := by
  intro e he
  have := List.all_eq_true.1 hb e he
  constructor <;> intros <;> subst_vars <;> exact of_decide_eq_true this

def shelfB (ns : Ns) (j : Jid) (d : DevId) : Option Session → List Ev → Bool
  | _, [] => true
  | w, e :: t => (match e with
    | ⟨.loadSession ns' j' d', .ok o⟩ => decide (ns' = ns ∧ j' = j ∧ d' = d → o = w)
    | _ => true) && shelfB ns j d ((Shelf ns j d).next w e) t

theorem shelf_of {ns j d} {w : Option Session} {t : List Ev} (hb : shelfB ns j d w t = true) : (Shelf ns j d).Runs w t (t.foldl (Shelf ns j d).next w) := by
  induction t generalizing w with
  | nil => rfl
  | cons e t ih =>
    unfold shelfB at hb
    rw [Bool.and_eq_true] at hb
    refine ⟨?_, ih hb.2⟩
    unfold Shelf
    dsimp only
    split
    · exact of_decide_eq_true hb.1
    · trivial

end Run

theorem Crossing.plain_ex : PlainDecisions Mgr.ex := fun _ _ => AllOps.ret _
theorem Crossing.plain_phone : PlainDecisions Mgr.phone := fun _ _ => AllOps.ret _

namespace Crossing
open Run

/-- The first messages of the two sides. -/
def hello : Message := ⟨"n", "me", 1, ⟨false, 1⟩, [(⟨"a", 7, 1⟩, some ⟨[1], 0⟩)]⟩
def hi : Message := ⟨"n", "a", 7, ⟨false, 1⟩, [(⟨"me", 1, 7⟩, some ⟨[7], 0⟩)]⟩
/-- What "me" sends after both arrived. -/
def lost : Message := ⟨"n", "me", 1, ⟨false, 1⟩, [(⟨"a", 7, 7⟩, none)]⟩

def left1 : Run := Run.decrypt Mgr.ex 1 hi (Run.encrypt Mgr.ex 1 "a" ([], [], .side))
def left : Run := Run.encrypt Mgr.ex 1 "a" left1
def right1 : Run := Run.decrypt Mgr.phone 7 hello (Run.encrypt Mgr.phone 7 "me" ([], [], .side))
def right : Run := Run.decrypt Mgr.phone 7 lost right1

theorem left_lives (B : Mgr) (hB : B.ownJid = "a" ∧ B.ownDev = 7) (out : List Message) (ho : hi ∈ out) :
    Lives Mgr.ex B "n" NoReplace (FromPeer B "n" out) none (left.1.foldl (Shelf "n" "a" 7).next none) left.1 left.2.1 where
  plain := plain_ex
  acts := acts_encrypt (acts_decrypt (acts_encrypt .start (fun _ _ _ _ => nofun) (by decide +kernel)) nofun fun _ _ _ => ho)
    (fun _ _ _ _ => nofun) (by decide +kernel)
  keeps := keeps_of (by decide +kernel)
  shelf := by rw [hB.1, hB.2]; exact shelf_of (by decide +kernel)

theorem right_lives (A : Mgr) (hA : A.ownJid = "me" ∧ A.ownDev = 1) (out : List Message) (ho : hello ∈ out ∧ lost ∈ out) :
    Lives Mgr.phone A "n" NoReplace (FromPeer A "n" out) none (right.1.foldl (Shelf "n" "me" 1).next none) right.1 right.2.1 where
  plain := plain_phone
  acts := acts_decrypt (acts_decrypt (acts_encrypt .start (fun _ _ _ _ => nofun) (by decide +kernel)) nofun fun _ _ _ => ho.1) nofun fun _ _ _ => ho.2
  keeps := keeps_of (by decide +kernel)
  shelf := by rw [hA.1, hA.2]; exact shelf_of (by decide +kernel)

def encryptsWith (x : KeyExchange) (k : EncKM) (e : Ev) : Bool := match e with
  | ⟨.encryptKM "n" s _, .ok (k', _)⟩ => decide (s.keyExchange = x ∧ k' = k ∧ s.bareJid = "a" ∧ s.deviceId = 7)
  | _ => false

def decryptsWith (x : KeyExchange) (k : EncKM) (e : Ev) : Bool := match e with
  | ⟨.decryptKM "n" s k', .error _⟩ => decide (s.keyExchange = x ∧ k' = k ∧ s.bareJid = "me" ∧ s.deviceId = 1)
  | _ => false

end Crossing

/-- The claim in general does not hold: both sides build a session at the same time, and then each takes the one of the other.  What "me" sends afterwards,
the phone tries to decrypt with another session. -/
theorem C102_refuted : ¬ CommonSession := by
  intro h
  obtain ⟨h, -⟩ := h Mgr.ex Mgr.phone "n" _ _ Crossing.left.1 Crossing.right.1 Crossing.left.2.1 Crossing.right.2.1
    (Crossing.left_lives Mgr.phone ⟨rfl, rfl⟩ _ (by decide +kernel)) (Crossing.right_lives Mgr.ex ⟨rfl, rfl⟩ _ (by decide +kernel))
  have h1 : Crossing.left.1.any (Crossing.encryptsWith ⟨[7], 0⟩ ⟨"a", 7, 7⟩) = true := by decide +kernel
  have h2 : Crossing.right.1.any (Crossing.decryptsWith ⟨[1], 0⟩ ⟨"a", 7, 7⟩) = true := by decide +kernel
  obtain ⟨e1, hm1, h1⟩ := List.any_eq_true.1 h1
  obtain ⟨e2, hm2, h2⟩ := List.any_eq_true.1 h2
  unfold Crossing.encryptsWith at h1
  unfold Crossing.decryptsWith at h2
  split at h1
  · split at h2
    · obtain ⟨a, rfl, b⟩ := of_decide_eq_true h1
      obtain ⟨c, rfl, d⟩ := of_decide_eq_true h2
      have := h _ _ _ _ _ _ hm1 b hm2 d
      rw [a, c] at this
      exact absurd this (by decide)
    · cases h2
  · cases h1

/-- The hypotheses of `C102_crossed`: the phone had built a session, and decrypts a message with a key exchange. -/
theorem C102_crossed_example : ∃ s, (Shelf "n" "me" 1).Runs (Ratchet.lastStored (Run.encrypt Mgr.phone 7 "me" ([], [], .side)).2.2.log "n" "me" 1)
    (runProg (Lib.env (exchanging 7)) Lib.next 200 (decrypt Mgr.phone Crossing.hello) (Run.encrypt Mgr.phone 7 "me" ([], [], .side)).2.2).1 (some s) ∧
    s.initiation = .passive ∧ s.keyExchange = ⟨[1], 0⟩ := by
  let w := (Run.encrypt Mgr.phone 7 "me" ([], [], .side)).2.2
  let y := runProg (Lib.env (exchanging 7)) Lib.next 200 (decrypt Mgr.phone Crossing.hello) w
  have he : Exec _ y.1 y.2.1 := runProg_exec (Lib.env (exchanging 7)) Lib.next 200 _ _
  have hl : Ratchet.lastStored w.log "n" "me" 1 = some ⟨"n", "me", 1, .active, false, ⟨[7], 0⟩, none, 1, 0⟩ := by decide +kernel
  have hok : Run.works y.2.1 = true := by decide +kernel
  have hr := Run.shelf_of (ns := "n") (j := "me") (d := 1) (w := some ⟨"n", "me", 1, .active, false, ⟨[7], 0⟩, none, 1, 0⟩) (t := y.1) (by decide +kernel)
  have hk : ∀ e ∈ y.1, Lasts e := Run.keeps_of (by decide +kernel)
  show ∃ s, (Shelf "n" "me" 1).Runs (Ratchet.lastStored w.log "n" "me" 1) y.1 (some s) ∧ _
  rw [hl]
  revert he hok
  cases y.2.1 with
  | ok a =>
    intro he _
    obtain ⟨p, dev, km⟩ := a
    obtain ⟨s, h1, h2, h3⟩ := C102_crossed Mgr.phone Crossing.hello he hk hr rfl (k := ⟨"a", 7, 1⟩) (y := ⟨[1], 0⟩) (by decide +kernel)
    exact ⟨s, h1 ▸ hr, h2, h3⟩
  | raised e => intro _ h; cases h
  | crashed => intro _ h; cases h

namespace Crossing
open Run

/-- The sessions left after crossing. -/
def ofLeft : Session := ⟨"n", "a", 7, .passive, true, ⟨[7], 0⟩, some 1, 1, 1⟩
def ofRight : Session := ⟨"n", "me", 1, .passive, true, ⟨[1], 0⟩, some 1, 1, 1⟩

/-- What follows: "me" sends a message, and the phone tries to read it; it also gets the first message once more. -/
def left2 : Run := Run.encrypt Mgr.ex 1 "a" ([], [], left1.2.2)
def right2 : Run := Run.decrypt Mgr.phone 7 hello (Run.decrypt Mgr.phone 7 lost ([], [], right1.2.2))

def purgesB (e : Ev) : Bool := match e.1 with
  | .purge _ | .purgeJid _ _ => false
  | _ => true

theorem nopurge_of {h : List Ev} {ns : Ns} (hb : h.all purgesB = true) : ∀ e ∈ h, ∀ j, e.1 ≠ .purge ns ∧ e.1 ≠ .purgeJid ns j := by
  intro e he j
  have := List.all_eq_true.1 hb e he
  constructor <;> intro hh <;> rw [purgesB, hh] at this <;> cases this

end Crossing

/-- The hypotheses of `C102_forever` are met after the crossing, and a message is lost. -/
theorem C102_forever_example :
    (∀ s, Uses Crossing.left2.1 "n" s → Session.with s "a" 7 → s.initiation = .passive ∧ s.keyExchange = ⟨[7], 0⟩) ∧
      (∀ s, Uses Crossing.right2.1 "n" s → Session.with s "me" 1 → s.initiation = .passive ∧ s.keyExchange = ⟨[1], 0⟩) ∧
      Crossing.left2.1.any (Crossing.encryptsWith ⟨[7], 0⟩ ⟨"a", 7, 7⟩) = true ∧ Crossing.right2.1.any (Crossing.decryptsWith ⟨[1], 0⟩ ⟨"a", 7, 7⟩) = true := by
  obtain ⟨h1, h2, -⟩ := C102_forever Mgr.ex Mgr.phone "n" (sA := Crossing.ofLeft) (sB := Crossing.ofRight) (hA := Crossing.left2.1) (hB := Crossing.right2.1)
    (outA := Crossing.left2.2.1) (outB := Crossing.right2.2.1)
    (wA := Crossing.left2.1.foldl (Shelf "n" "a" 7).next (some Crossing.ofLeft)) (wB := Crossing.right2.1.foldl (Shelf "n" "me" 1).next (some Crossing.ofRight))
    ⟨Crossing.plain_ex, Run.acts_encrypt .start (fun _ _ _ _ => nofun) (by decide +kernel), Run.keeps_of (by decide +kernel), Run.shelf_of (by decide +kernel)⟩
    ⟨Crossing.plain_phone, Run.acts_decrypt (Run.acts_decrypt .start nofun (.inl fun _ _ _ => by decide +kernel)) nofun
        (.inr fun k z hm => by cases List.mem_singleton.1 hm; decide +kernel),
      Run.keeps_of (by decide +kernel), Run.shelf_of (by decide +kernel)⟩
    rfl rfl (Crossing.nopurge_of (by decide +kernel)) (Crossing.nopurge_of (by decide +kernel))
  exact ⟨h1, h2, by decide +kernel, by decide +kernel⟩

namespace Crossing
open Run

/-- A conversation without crossing: the phone answers, and both go on. -/
def answerMsg : Message := ⟨"n", "a", 7, ⟨true, 0⟩, [(⟨"me", 1, 1⟩, none)]⟩
def second : Message := ⟨"n", "me", 1, ⟨false, 1⟩, [(⟨"a", 7, 1⟩, none)]⟩
def calm : Run := Run.encrypt Mgr.ex 1 "a" (Run.decrypt Mgr.ex 1 answerMsg (Run.encrypt Mgr.ex 1 "a" ([], [], .side)))
def calmPhone : Run := Run.decrypt Mgr.phone 7 second (Run.decrypt Mgr.phone 7 hello ([], [], .side))

def builtBy (x : KeyExchange) (e : Ev) : Bool := match e with
  | ⟨.buildActive _ _ _ _ _, .ok (s, _)⟩ => decide (s.keyExchange = x)
  | _ => true

def buildsNone (e : Ev) : Bool := match e.1 with
  | .buildActive .. => false
  | _ => true

end Crossing

/-- The hypotheses of `C102_partial` are met; key material is decrypted on both sides. -/
theorem C102_example : (InCommon Mgr.ex Mgr.phone "n" Crossing.calm.1 Crossing.calmPhone.1 ∧ InCommon Mgr.phone Mgr.ex "n" Crossing.calmPhone.1 Crossing.calm.1) ∧
    (Crossing.calm.1.any fun e => match e with | ⟨.decryptKM .., .ok _⟩ => true | _ => false) = true ∧
    (Crossing.calmPhone.1.any fun e => match e with | ⟨.decryptKM .., .ok _⟩ => true | _ => false) = true := by
  refine ⟨(C102_partial Mgr.ex Mgr.phone "n" NoReplace ⟨[1], 0⟩ (hA := Crossing.calm.1) (hB := Crossing.calmPhone.1)
    (outA := Crossing.calm.2.1) (outB := Crossing.calmPhone.2.1)
    (wA := Crossing.calm.1.foldl (Shelf "n" "a" 7).next none) (wB := Crossing.calmPhone.1.foldl (Shelf "n" "me" 1).next none)
    ⟨Crossing.plain_ex, Run.acts_encrypt (Run.acts_decrypt (Run.acts_encrypt .start (fun _ _ _ _ => nofun) (by decide +kernel)) nofun fun _ _ _ => by decide +kernel)
      (fun _ _ _ _ => nofun) (by decide +kernel), Run.keeps_of (by decide +kernel), Run.shelf_of (by decide +kernel)⟩
    ⟨Crossing.plain_phone, Run.acts_decrypt (Run.acts_decrypt .start nofun fun _ _ _ => by decide +kernel) nofun fun _ _ _ => by decide +kernel,
      Run.keeps_of (by decide +kernel), Run.shelf_of (by decide +kernel)⟩
    (fun bd m s k hm => ?_) (fun bd m r hm => ?_)).2.2, by decide +kernel, by decide +kernel⟩
  · have : Crossing.calm.1.all (Crossing.builtBy ⟨[1], 0⟩) = true := by decide +kernel
    exact of_decide_eq_true (List.all_eq_true.1 this _ hm)
  · have : Crossing.calmPhone.1.all Crossing.buildsNone = true := by decide +kernel
    exact absurd (List.all_eq_true.1 this _ hm) (by simp [Crossing.buildsNone])

/-- The hypotheses of `C102_remedy`: after the crossing "me" replaces the session with the phone, and the phone, had it lost its own, reads the message. -/
def Crossing.replaced := runProg (Lib.env (exchanging 1)) Lib.next 200 (replaceSessions Mgr.ex "a" 7) Crossing.left1.2.2

def Crossing.note : Message := ⟨"n", "me", 1, ⟨true, 0⟩, [(⟨"a", 7, 1⟩, some ⟨[1], 0⟩)]⟩

theorem C102_remedy_example : (∃ s m, (Crossing.replaced.1.foldl (Shelf "n" "a" 7).next (some Crossing.ofLeft) = some s ∧ s.initiation = .active) ∧
      (⟨.sendMessage m "a", .ok ()⟩ : Ev) ∈ Crossing.replaced.1) ∧ Crossing.note ∈ outOf Crossing.replaced.1 ∧
    Run.works (runProg (Lib.env (exchanging 7)) Lib.next 200 (decrypt Mgr.phone Crossing.note) .side).2.1 = true := by
  refine ⟨?_, by decide +kernel, by decide +kernel⟩
  have hs : Crossing.replaced.1.any (fun e => match e with | ⟨.storeSession "n" _, .ok ()⟩ => true | _ => false) = true := by decide +kernel
  obtain ⟨s, m, h1, h2, -⟩ := C102_remedy Mgr.ex Mgr.phone "n" (runProg_exec (Lib.env (exchanging 1)) Lib.next 200 (replaceSessions Mgr.ex "a" 7) Crossing.left1.2.2)
    (Run.keeps_of (by decide +kernel)) (Run.shelf_of (w := some Crossing.ofLeft) (by decide +kernel)) (by
      obtain ⟨e, hm, he⟩ := List.any_eq_true.1 hs
      split at he
      · exact ⟨_, hm⟩
      · cases he)
  exact ⟨s, m, h1, h2.1⟩

end Verif
