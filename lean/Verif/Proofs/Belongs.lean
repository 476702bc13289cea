import Verif.Proofs.Proper
/-
Where the objects come from that the library hands to backends.
-/
namespace Verif
open Spec Foot

namespace Spec

/-- The session `s` came from the backend `ns`, where it was loaded or built for the device `d` of `j`, possibly followed by uses. -/
inductive Made (h : List Ev) (ns : Ns) (j : Jid) (d : DevId) : Session → Prop where
  | load {s : Session} : (⟨.loadSession ns j d, .ok (some s)⟩ : Ev) ∈ h → Made h ns j d s
  | active {b : Bundle} {m : PlainKM} {s : Session} {k : EncKM} : (⟨.buildActive ns j d b m, .ok (s, k)⟩ : Ev) ∈ h → Made h ns j d s
  | passive {x : KeyExchange} {k : EncKM} {s : Session} {m : PlainKM} : (⟨.buildPassive ns j d x k, .ok (s, m)⟩ : Ev) ∈ h → Made h ns j d s
  | encrypt {s s' : Session} {m : PlainKM} {k : EncKM} : Made h ns j d s → (⟨.encryptKM ns s m, .ok (k, s')⟩ : Ev) ∈ h → Made h ns j d s'
  | decrypt {s s' : Session} {m : PlainKM} {k : EncKM} : Made h ns j d s → (⟨.decryptKM ns s k, .ok (m, s')⟩ : Ev) ∈ h → Made h ns j d s'

/-- The key material `m` came from the backend `ns` together with the content `c` of a message to be sent. -/
def Fresh (h : List Ev) (ns : Ns) (c : Content) (m : PlainKM) : Prop :=
  (∃ p, (⟨.encryptPlaintext ns p, .ok (c, m)⟩ : Ev) ∈ h) ∨ (⟨.encryptEmpty ns, .ok (c, m)⟩ : Ev) ∈ h

/-- The key material `m` was recovered by the backend `ns` from what a message carries for this device. -/
def Recovered (h : List Ev) (ns : Ns) (k : EncKM) (m : PlainKM) : Prop :=
  (∃ s s', (⟨.decryptKM ns s k, .ok (m, s')⟩ : Ev) ∈ h) ∨ ∃ j d x s, (⟨.buildPassive ns j d x k, .ok (s, m)⟩ : Ev) ∈ h

/-- The bundle `b` was downloaded, either for this namespace and device or for others, and then names this namespace and device. -/
def Fetched (h : List Ev) (ns : Ns) (j : Jid) (d : DevId) (b : Bundle) : Prop :=
  (⟨.downloadBundle ns j d, .ok b⟩ : Ev) ∈ h ∨
    (b.ns = ns ∧ b.bareJid = j ∧ b.deviceId = d) ∧ ∃ ns' j' d', (⟨.downloadBundle ns' j' d', .ok b⟩ : Ev) ∈ h

/-- The encrypted key material `k` came from the backend `ns`, made from `m`, together with the session `s` for the device `d` of `j`. -/
def Locked (h : List Ev) (ns : Ns) (j : Jid) (d : DevId) (m : PlainKM) (k : EncKM) (s : Session) : Prop :=
  (∃ s0, Made h ns j d s0 ∧ (⟨.encryptKM ns s0 m, .ok (k, s)⟩ : Ev) ∈ h) ∨ ∃ b, (⟨.buildActive ns j d b m, .ok (s, k)⟩ : Ev) ∈ h

/-- `x` is the key exchange that goes with what was encrypted with the session `s`. -/
def Attached (h : List Ev) (ns : Ns) (j : Jid) (d : DevId) (s : Session) (x : Option KeyExchange) : Prop :=
  (s.initiation = .active ∧ s.confirmed = false → x = some s.keyExchange) ∧
    ∀ y, x = some y → y = s.keyExchange ∧ (s.initiation = .active ∨ ∃ b m k, (⟨.buildActive ns j d b m, .ok (s, k)⟩ : Ev) ∈ h)

/-- All parts of the message `m` came from the backend of its namespace, and belong together: its content, the key material encrypted with a
session, and the key exchange, which is the one of this session.  There is one if the session is active and not confirmed, and only if it is active or was
just built actively. -/
def Composed (h : List Ev) (m : Message) : Prop :=
  ∃ km, Fresh h m.ns m.content km ∧
    ∀ k x, (k, x) ∈ m.keys → ∃ j d s, Locked h m.ns j d km k s ∧ Attached h m.ns j d s x

/-- `k` and `x` are what the message `m` carries for the device `dev` of `own`. -/
def Carries (own : Jid) (dev : DevId) (m : Message) (k : EncKM) (x : Option KeyExchange) : Prop :=
  (k, x) ∈ m.keys ∧ k.bareJid = own ∧ k.deviceId = dev

/-- The objects handed over in an interaction are where they belong.  `In`: the messages given to be decrypted. -/
def Belongs (own : Jid) (dev : DevId) (In : Message → Prop) (h : List Ev) (e : Ev) : Prop :=
  match e.1 with
  | .storeSession ns s => ∃ j d, Made h ns j d s
  | .encryptKM ns s m => (∃ j d, Made h ns j d s) ∧ ∃ c, Fresh h ns c m
  | .buildActive ns j d b m => Fetched h ns j d b ∧ ∃ c, Fresh h ns c m
  | .decryptKM ns s k => ∃ msg x, In msg ∧ msg.ns = ns ∧ Carries own dev msg k x ∧ Made h ns msg.bareJid msg.deviceId s
  | .buildPassive ns j d x k => ∃ msg, In msg ∧ msg.ns = ns ∧ Carries own dev msg k (some x) ∧ j = msg.bareJid ∧ d = msg.deviceId
  | .decryptPlaintext ns c m => ∃ msg k x, In msg ∧ msg.ns = ns ∧ msg.content = c ∧ Carries own dev msg k x ∧ Recovered h ns k m
  | .hidePreKey ns s | .deletePreKey ns s => ∃ msg, In msg ∧ msg.ns = ns ∧ Made h ns msg.bareJid msg.deviceId s
  | .sendMessage m _ => Composed h m
  | _ => True

end Spec

namespace Belongs
open SM

theorem Made.mono {h h' : List Ev} {ns j d s} (hs : ∀ e ∈ h, e ∈ h') (hm : Made h ns j d s) : Made h' ns j d s := by
  induction hm with
  | load h => exact .load (hs _ h)
  | active h => exact .active (hs _ h)
  | passive h => exact .passive (hs _ h)
  | encrypt _ h ih => exact .encrypt ih (hs _ h)
  | decrypt _ h ih => exact .decrypt ih (hs _ h)

theorem Fresh.mono {h h' : List Ev} {ns c m} (hs : ∀ e ∈ h, e ∈ h') (hm : Fresh h ns c m) : Fresh h' ns c m :=
  hm.imp (fun ⟨p, h⟩ => ⟨p, hs _ h⟩) (hs _)

theorem Recovered.mono {h h' : List Ev} {ns k m} (hs : ∀ e ∈ h, e ∈ h') (hm : Recovered h ns k m) : Recovered h' ns k m :=
  hm.imp (fun ⟨s, s', h⟩ => ⟨s, s', hs _ h⟩) fun ⟨j, d, x, s, h⟩ => ⟨j, d, x, s, hs _ h⟩

theorem Fetched.mono {h h' : List Ev} {ns j d b} (hs : ∀ e ∈ h, e ∈ h') (hm : Fetched h ns j d b) : Fetched h' ns j d b :=
  hm.imp (hs _) fun ⟨h1, a, b, c, h2⟩ => ⟨h1, a, b, c, hs _ h2⟩

theorem Locked.mono {h h' : List Ev} {ns j d m k s} (hs : ∀ e ∈ h, e ∈ h') (hm : Locked h ns j d m k s) : Locked h' ns j d m k s :=
  hm.imp (fun ⟨s0, h1, h2⟩ => ⟨s0, Made.mono hs h1, hs _ h2⟩) fun ⟨b, h⟩ => ⟨b, hs _ h⟩

theorem Locked.made {h : List Ev} {ns j d m k s} (hm : Locked h ns j d m k s) : Made h ns j d s := by
  rcases hm with ⟨s0, h1, h2⟩ | ⟨b, h⟩
  · exact .encrypt h1 h2
  · exact .active h

theorem Attached.mono {h h' : List Ev} {ns j d s x} (hs : ∀ e ∈ h, e ∈ h') (hm : Attached h ns j d s x) : Attached h' ns j d s x :=
  ⟨hm.1, fun y hy => ⟨(hm.2 y hy).1, (hm.2 y hy).2.imp id fun ⟨b, m, k, h⟩ => ⟨b, m, k, hs _ h⟩⟩⟩

theorem attached_kexFor {h : List Ev} {ns j d s} : Attached h ns j d s (kexFor s) := by
  unfold kexFor
  split
  · rename_i hs
    exact ⟨fun _ => rfl, fun y hy => by cases hy; exact ⟨rfl, .inl hs.1⟩⟩
  · rename_i hs
    exact ⟨fun h => absurd h hs, nofun⟩

theorem Composed.mono {h h' : List Ev} {m} (hs : ∀ e ∈ h, e ∈ h') (hm : Composed h m) : Composed h' m := by
  obtain ⟨km, h1, h2⟩ := hm
  refine ⟨km, Fresh.mono hs h1, fun k x hx => ?_⟩
  obtain ⟨j, d, s, h3, h4⟩ := h2 k x hx
  exact ⟨j, d, s, Locked.mono hs h3, Attached.mono hs h4⟩

theorem belongs_mono {own dev In} {h h' : List Ev} {e : Ev} (hs : ∀ x ∈ h, x ∈ h') (hb : Belongs own dev In h e) : Belongs own dev In h' e := by
  obtain ⟨o, r⟩ := e
  unfold Belongs at *
  cases o <;> first
    | trivial
    | exact Composed.mono hs hb
    | (obtain ⟨j, d, h1⟩ := hb; exact ⟨j, d, Made.mono hs h1⟩)
    | (obtain ⟨⟨j, d, h1⟩, c, h2⟩ := hb; exact ⟨⟨j, d, Made.mono hs h1⟩, c, Fresh.mono hs h2⟩)
    | (obtain ⟨h1, c, h2⟩ := hb; exact ⟨Fetched.mono hs h1, c, Fresh.mono hs h2⟩)
    | (obtain ⟨m, x, h1, h2, h3, h4⟩ := hb; exact ⟨m, x, h1, h2, h3, Made.mono hs h4⟩)
    | exact hb
    | (obtain ⟨m, k, x, h1, h2, h3, h4, h5⟩ := hb; exact ⟨m, k, x, h1, h2, h3, h4, Recovered.mono hs h5⟩)
    | (obtain ⟨m, h1, h2, h3⟩ := hb; exact ⟨m, h1, h2, Made.mono hs h3⟩)

instance {ns j d s} : Lasting (fun h => Made h ns j d s) := ⟨fun _ _ hk => Made.mono (fun _ h => List.mem_append_left _ h) hk⟩
instance {ns c m} : Lasting (fun h => Fresh h ns c m) := ⟨fun _ _ hk => Fresh.mono (fun _ h => List.mem_append_left _ h) hk⟩
instance {ns k m} : Lasting (fun h => Recovered h ns k m) := ⟨fun _ _ hk => Recovered.mono (fun _ h => List.mem_append_left _ h) hk⟩
instance {ns j d m k s} : Lasting (fun h => Locked h ns j d m k s) := ⟨fun _ _ hk => Locked.mono (fun _ h => List.mem_append_left _ h) hk⟩
instance {m} : Lasting (fun h => Composed h m) := ⟨fun _ _ hk => Composed.mono (fun _ h => List.mem_append_left _ h) hk⟩

/-- The rule for an interaction. -/
abbrev Rule (own : Jid) (dev : DevId) (In : Message → Prop) (h : List Ev) (o : Op) : Prop := Spec.Belongs own dev In h ⟨o, .error .runtimeError⟩

/-- Interactions in which nothing of this kind is handed over. -/
def plain : Op → Bool
  | .storeSession .. | .encryptKM .. | .buildActive .. | .decryptKM .. | .buildPassive .. | .decryptPlaintext .. | .hidePreKey .. | .deletePreKey ..
  | .sendMessage .. => false
  | _ => true

variable {own : Jid} {dev : DevId} {In : Message → Prop} {M : Mgr} {K : List Ev → Prop}

theorem of_plain {o : Op} (h : plain o = true) (x : List Ev) : Rule own dev In x o := by
  cases o <;> first
    | (cases h; done)
    | trivial

variable [Lasting K]

theorem quiet {α : Type} {p : P α} (h : AllOps (fun o => plain o = true) p) : Kn (Rule own dev In) K p (fun _ _ => True) :=
  Kn.ops (h.mono fun _ ho x _ => of_plain ho x)

omit [Lasting K] in
theorem plain_call {o : Op} (h : plain o = true) : Kn (Rule own dev In) K (call o) (fun a h => (⟨o, .ok a⟩ : Ev) ∈ h) :=
  Kn.call fun x _ => of_plain h x

/-! ### Device information -/

/-- The bundle was downloaded. -/
def Down (h : List Ev) (b : Bundle) : Prop := ∃ ns j d, (⟨.downloadBundle ns j d, .ok b⟩ : Ev) ∈ h

instance {b} : Lasting (fun h => Down h b) :=
  ⟨fun _ _ ⟨ns, j, d, h⟩ => ⟨ns, j, d, List.mem_append_left _ h⟩⟩

theorem kn_fetch (jid : Jid) (d : DevId) (nss : List Ns) :
    Kn (Rule own dev In) K (fetchIdentityKey jid d nss) (fun o h => ∀ b, o = some b → Down h b) := by
  induction nss with
  | nil => exact Kn.ret fun _ _ _ h => by cases h
  | cons ns rest ih =>
    unfold fetchIdentityKey
    refine Kn.tryElse (plain_call rfl) (fun e => ?_) fun b => Kn.seq (quiet (allOps_storeBytes rfl)) fun _ => Kn.pure fun h hk b' hb => ?_
    · split
      · exact ih
      · exact Kn.raise
    · cases hb
      exact ⟨ns, jid, d, hk.2⟩

theorem kn_identityKeyOf (jid : Jid) (d : DevId) (nss : List Ns) :
    Kn (Rule own dev In) K (identityKeyOf M jid d nss) (fun o h => ∀ ik b, o = some (ik, some b) → Down h b) := by
  unfold identityKeyOf
  refine Kn.onNothing ?_ ?_
  · exact Kn.seq (quiet (allOps_loadBytes rfl)) fun m => Kn.seq (quiet (allOps_fromJust _)) fun ik => Kn.pure fun h _ ik b hb => by cases hb
  · refine Kn.bind (kn_fetch jid d _) fun o => ?_
    cases o with
    | none => exact Kn.pure fun h _ ik b hb => by cases hb
    | some b => exact Kn.pure fun h hk ik b' hb => by cases hb; exact hk.2 b rfl

theorem kn_deviceInformation (jid : Jid) (d : DevId) :
    Kn (Rule own dev In) K (deviceInformation M jid d) (fun o h => ∀ x b, o = some (x, b) → x.bareJid = jid ∧ ∀ y, b = some y → Down h y) := by
  unfold deviceInformation
  refine Kn.seq (quiet (allOps_loadStrs rfl)) fun m => Kn.seq (quiet (allOps_fromJust _)) fun nss => ?_
  dsimp only
  refine Kn.bind (kn_identityKeyOf jid d _) fun o => ?_
  obtain _ | ⟨ik, b⟩ := o
  · exact Kn.pure fun h _ x b hb => by cases hb
  · refine Kn.seq (quiet (allOps_loadBools rfl)) fun _ => Kn.seq (quiet (allOps_fromJust _)) fun a => Kn.seq (quiet (allOps_loadOptStr rfl)) fun _ =>
      Kn.seq (quiet (allOps_fromJust _)) fun l => Kn.seq (quiet (allOps_loadStr rfl)) fun tl => Kn.seq (R := fun _ _ => True) (quiet ?_) fun ns' =>
      Kn.pure fun h hk x b' hb => ?_
    · unfold repairNamespaces; lib_ops []
    · cases hb
      exact ⟨rfl, fun y hy => hk.2 ik y (by rw [hy])⟩

/-- What is known of looked up devices. -/
abbrev Looked (jid : Jid) (x : List DeviceInfo × List Bundle) (h : List Ev) : Prop := (∀ dev ∈ x.1, dev.bareJid = jid) ∧ ∀ b, b ∈ x.2 → Down h b

theorem kn_info' (jid : Jid) : Kn (Rule own dev In) K (getDeviceInformation' M jid) (fun x h => Looked jid x h) := by
  unfold getDeviceInformation'
  refine Kn.seq (quiet (allOps_loadInts rfl)) fun l => Kn.fold (S := fun x h => Looked jid x h) (fun _ _ => ⟨nofun, nofun⟩) fun x d _ => ?_
  obtain ⟨devs, cache⟩ := x
  haveI : Lasting (fun h => K h ∧ Looked jid (devs, cache) h) :=
    ⟨fun h e hk => ⟨Lasting.step h e hk.1, hk.2.1, fun b hb => Lasting.step (K := fun h => Down h b) h e (hk.2.2 b hb)⟩⟩
  refine Kn.bind (kn_deviceInformation jid d) fun o => ?_
  obtain _ | ⟨x, _ | b⟩ := o
  · exact Kn.pure fun h hk => hk.1.2
  · refine Kn.pure fun h hk => ⟨fun y hy => ?_, hk.1.2.2⟩
    rcases mem_setAdd.1 hy with hy | hy
    · exact hk.1.2.1 y hy
    · exact hy ▸ (hk.2 x none rfl).1
  · refine Kn.pure fun h hk => ⟨fun y hy => ?_, fun y hy => ?_⟩
    · rcases mem_setAdd.1 hy with hy | hy
      · exact hk.1.2.1 y hy
      · exact hy ▸ (hk.2 x _ rfl).1
    · rcases mem_setAdd.1 hy with hy | hy
      · exact hk.1.2.2 y hy
      · exact hy ▸ (hk.2 x _ rfl).2 b rfl

theorem kn_info (jid : Jid) : Kn (Rule own dev In) K (getDeviceInformation M jid) (fun x _ => ∀ dev ∈ x, dev.bareJid = jid) := by
  unfold getDeviceInformation
  refine Kn.bind (kn_info' jid) fun x => ?_
  obtain ⟨ds, c⟩ := x
  exact Kn.pure fun _ hk => hk.2.1

theorem info_plain {jid : Jid} {o : Op} (h : Info jid o) : plain o = true := by cases h <;> rfl

/-! ### Sending -/

theorem kn_sendEmptyMessage (ns : Ns) (j : Jid) (d : DevId) (s : Session) (hs : ∀ h, K h → Made h ns j d s) :
    Kn (Rule own dev In) K (sendEmptyMessage M ns s) (fun _ _ => True) := by
  unfold sendEmptyMessage
  refine Kn.bind (plain_call rfl) fun x => ?_
  obtain ⟨content, km⟩ := x
  refine Kn.bind (Kn.call fun h hk => ⟨⟨j, d, hs h hk.1⟩, content, .inr hk.2⟩) fun x => ?_
  obtain ⟨ekm, session⟩ := x
  refine Kn.seq (Kn.call fun h hk => ⟨km, .inr hk.1.2, fun k x hx => ?_⟩) fun _ =>
    (Kn.call fun h hk => ⟨j, d, .encrypt (hs h hk.1.1) hk.2⟩).post fun _ _ _ => trivial
  cases List.mem_singleton.1 hx
  refine ⟨j, d, session, .inl ⟨s, hs h hk.1.1, hk.2⟩, attached_kexFor⟩

theorem kn_replaceSession (jid : Jid) (d : DevId) (ns : Ns) : Kn (Rule own dev In) K (replaceSession M jid d ns) (fun _ _ => True) := by
  unfold replaceSession
  refine Kn.bind (plain_call rfl) fun x => ?_
  obtain ⟨content, km⟩ := x
  refine Kn.bind (plain_call rfl) fun bundle => Kn.bind (Kn.call fun h hk => ⟨.inl hk.2, content, .inr hk.1.2⟩) fun x => ?_
  obtain ⟨session, ekm⟩ := x
  refine Kn.seq (Kn.call fun h hk => ⟨km, .inr hk.1.1.2, fun k x hx => ?_⟩) fun _ =>
    (Kn.call fun h hk => ⟨jid, d, .active hk.2⟩).post fun _ _ _ => trivial
  cases List.mem_singleton.1 hx
  exact ⟨jid, d, session, .inr ⟨bundle, hk.2⟩, fun _ => rfl, fun y hy => by cases hy; exact ⟨rfl, .inr ⟨_, _, _, hk.2⟩⟩⟩

theorem kn_replaceSessions (jid : Jid) (d : DevId) : Kn (Rule own dev In) K (replaceSessions M jid d) (fun _ _ => True) := by
  unfold replaceSessions
  refine Kn.seq (kn_info jid) fun devices => Kn.seq (quiet (allOps_next _)) fun device => Kn.seq (plain_call rfl) fun bs =>
    Kn.seq (Kn.filterAll fun ns _ => Kn.seq (plain_call rfl) fun _ => Kn.pure fun _ _ => trivial) fun ws => Kn.seq (plain_call rfl) fun bs' =>
    Kn.fold (fun _ _ => trivial) fun un ns _ => ?_
  split
  · refine Kn.tryElse (kn_replaceSession _ _ ns) (fun e => ?_) fun _ => Kn.pure fun _ _ => trivial
    split
    · exact Kn.pure fun _ _ => trivial
    · exact Kn.raise
  · exact Kn.pure fun _ _ => trivial

theorem kn_afterHistorySync : Kn (Rule own dev In) K (afterHistorySync M) (fun _ _ => True) := by
  unfold afterHistorySync sendQueuedBackend sendQueuedJid sendQueued
  refine Kn.seq (plain_call rfl) fun _ => Kn.seq (plain_call rfl) fun bs => Kn.seq (Kn.forEach fun ns _ => (plain_call rfl).post fun _ _ _ => trivial) fun _ =>
    Kn.seq (plain_call rfl) fun bs' => Kn.forEach fun ns _ => Kn.seq (quiet (allOps_loadStrs rfl)) fun jids => Kn.seq (plain_call rfl) fun _ =>
    Kn.forEach fun jid _ => Kn.seq (quiet (allOps_loadInts rfl)) fun ids => Kn.seq (plain_call rfl) fun _ => Kn.forEach fun d _ =>
    Kn.bind (plain_call rfl) fun s => ?_
  split
  · exact Kn.pure fun _ _ => trivial
  · exact kn_sendEmptyMessage ns jid d _ fun h hk => .load hk.2

/-! ### Encryption -/

/-- What is known in the loop over devices. -/
abbrev Enc (ns : Ns) (km : PlainKM) (sessions : List (Ns × Session)) (keys : List (EncKM × Option KeyExchange)) (h : List Ev) : Prop :=
  (∀ x, x ∈ sessions → ∃ j d, Made h x.1 j d x.2) ∧
    ∀ x, x ∈ keys → ∃ j d s, Locked h ns j d km x.1 s ∧ Attached h ns j d s x.2

theorem Enc.lasting {ns km ss ks} : Lasting (fun h => Enc ns km ss ks h) := by
  refine ⟨fun h e hk => ⟨fun x hx => ?_, fun x hx => ?_⟩⟩
  · obtain ⟨j, d, h1⟩ := hk.1 x hx
    exact ⟨j, d, Lasting.step (K := fun h => Made h x.1 j d x.2) _ _ h1⟩
  · obtain ⟨j, d, s, h1, h2⟩ := hk.2 x hx
    exact ⟨j, d, s, Lasting.step (K := fun h => Locked h ns j d km x.1 s) _ _ h1, Attached.mono (fun _ h => List.mem_append_left _ h) h2⟩

theorem kn_encryptForDevice (ns : Ns) (x : DeviceInfo) (so : Option Session) (bo : Option Bundle) (c : Content) (km : PlainKM)
    (hf : ∀ h, K h → Fresh h ns c km) (hs : ∀ h, K h → ∀ s, so = some s → Made h ns x.bareJid x.deviceId s)
    (hb : ∀ h, K h → ∀ b, bo = some b → Fetched h ns x.bareJid x.deviceId b) :
    Kn (Rule own dev In) K (encryptForDevice ns x so bo km) (fun r h => Locked h ns x.bareJid x.deviceId km r.2 r.1) := by
  unfold encryptForDevice
  cases so with
  | none =>
    refine Kn.bind (R := fun b h => Fetched h ns x.bareJid x.deviceId b) ?_ fun b => (Kn.call fun h hk => ⟨hk.2, c, hf h hk.1⟩).post fun r h hr => .inr ⟨b, hr⟩
    unfold bundleFor
    cases bo with
    | none => exact (plain_call rfl).post fun b h hb => .inl hb
    | some b => exact Kn.pure fun h hk => hb h hk b rfl
  | some s =>
    refine Kn.bind (Kn.call fun h hk => ⟨⟨_, _, hs h hk s rfl⟩, c, hf h hk⟩) fun r => ?_
    obtain ⟨k, s'⟩ := r
    exact Kn.pure fun h hk => .inl ⟨s, hs h hk.1 s rfl, hk.2⟩

theorem kn_encryptDevice (ns : Ns) (cache : List Bundle) (c : Content) (km : PlainKM) (st : EncState) (x : DeviceInfo)
    (hf : ∀ h, K h → Fresh h ns c km) (hc : ∀ h, K h → ∀ b ∈ cache, Down h b) (he : ∀ h, K h → Enc ns km st.sessions st.keys h) :
    Kn (Rule own dev In) K (encryptDevice M ns cache km st x) (fun st' h => Enc ns km st'.sessions st'.keys h) := by
  unfold encryptDevice
  refine Kn.bind (plain_call rfl) fun so => ?_
  dsimp only
  refine Kn.tryElse (kn_encryptForDevice ns x so _ c km (fun h hk => hf h hk.1) (fun h hk s hs => .load (hs ▸ hk.2)) fun h hk b hb => ?_) (fun e => ?_) fun r => ?_
  · have h1 := List.find?_some hb
    have h2 := SetOrder.mem_iter.1 (List.mem_of_find?_eq_some hb)
    exact .inr ⟨by simpa using h1, hc h hk.1 b h2⟩
  · split
    · exact Kn.pure fun h hk => he h hk.1
    · exact Kn.raise
  · obtain ⟨session, ekm⟩ := r
    refine Kn.pure fun h hk => ⟨fun y hy => ?_, fun y hy => ?_⟩
    · rcases List.mem_append.1 hy with hy | hy
      · exact (he h hk.1.1).1 y hy
      · cases List.mem_singleton.1 hy
        exact ⟨_, _, Locked.made hk.2⟩
    · rcases mem_setAdd.1 hy with hy | hy
      · exact (he h hk.1.1).2 y hy
      · subst hy
        exact ⟨_, _, session, hk.2, attached_kexFor⟩

/-- What is known in the loop over backends. -/
abbrev EncB (sessions : List (Ns × Session)) (messages : Dict Message PlainKM) (h : List Ev) : Prop :=
  (∀ x, x ∈ sessions → ∃ j d, Made h x.1 j d x.2) ∧ ∀ x, x ∈ messages → Composed h x.1 ∧ Fresh h x.1.ns x.1.content x.2

theorem EncB.lasting {ss ms} : Lasting (fun h => EncB ss ms h) := by
  refine ⟨fun h e hk => ⟨fun x hx => ?_, fun x hx => ?_⟩⟩
  · obtain ⟨j, d, h1⟩ := hk.1 x hx
    exact ⟨j, d, Lasting.step (K := fun h => Made h x.1 j d x.2) _ _ h1⟩
  · exact ⟨Lasting.step (K := fun h => Composed h x.1) _ _ (hk.2 x hx).1, Lasting.step (K := fun h => Fresh h x.1.ns x.1.content x.2) _ _ (hk.2 x hx).2⟩

theorem mem_set {α β : Type} [DecidableEq α] {d : Dict α β} {k : α} {v : β} {x : α × β} (h : x ∈ Dict.set d k v) : x ∈ d ∨ x = (k, v) := by
  induction d with
  | nil => exact .inr (by simpa [Dict.set] using h)
  | cons y d ih =>
    obtain ⟨k', v'⟩ := y
    unfold Dict.set at h
    split at h
    · rcases List.mem_cons.1 h with h | h
      · exact .inr h
      · exact .inl (List.mem_cons_of_mem _ h)
    · rcases List.mem_cons.1 h with h | h
      · exact .inl (h ▸ List.mem_cons_self ..)
      · exact (ih h).imp (List.mem_cons_of_mem _) id

theorem kn_encryptBackend (cache : List Bundle) (pt : Dict Ns Bytes) (st : EncAll) (ns : Ns) (hc : ∀ h, K h → ∀ b ∈ cache, Down h b)
    (he : ∀ h, K h → EncB st.sessions st.messages h) :
    Kn (Rule own dev In) K (encryptBackend M cache pt st ns) (fun st' h => EncB st'.sessions st'.messages h) := by
  unfold encryptBackend
  dsimp only
  split
  · exact Kn.pure he
  split
  · exact Kn.raise
  rename_i p hp
  refine Kn.bind (plain_call rfl) fun x => ?_
  obtain ⟨content, km⟩ := x
  have hf : ∀ h : List Ev, (K h ∧ (⟨.encryptPlaintext ns p, .ok (content, km)⟩ : Ev) ∈ h) → Fresh h ns content km := fun h hk => .inl ⟨_, hk.2⟩
  refine Kn.bind (Kn.fold (S := fun st' h => Enc ns km st'.sessions st'.keys h) (fun h hk => ⟨(he h hk.1).1, nofun⟩) fun st' x _ => ?_) fun st' => Kn.pure fun h hk => ?_
  · haveI : Lasting (fun h => Enc ns km st'.sessions st'.keys h) := Enc.lasting
    exact kn_encryptDevice ns cache content km st' x (fun h hk => hf h hk.1) (fun h hk => hc h hk.1.1) fun h hk => hk.2
  · refine ⟨hk.2.1, fun x hx => ?_⟩
    rcases mem_set hx with hx | rfl
    · exact (he h hk.1.1).2 x hx
    · exact ⟨⟨km, hf h hk.1, fun k x hx => hk.2.2 (k, x) hx⟩, hf h hk.1⟩

theorem kn_encryptTrusted (jids : List Jid) (cache : List Bundle) (pt : Dict Ns Bytes) (devices : List DeviceInfo)
    (hc : ∀ h, K h → ∀ b ∈ cache, Down h b) :
    Kn (Rule own dev In) K (encryptTrusted M jids cache pt devices)
      (fun r h => ∀ x, x ∈ r.1 → Composed h x.1 ∧ Fresh h x.1.ns x.1.content x.2) := by
  unfold encryptTrusted
  refine Kn.seq (quiet ?_) fun devices => Kn.seq (plain_call rfl) fun bs => Kn.bind (Kn.fold (S := fun st h => EncB st.sessions st.messages h)
    (fun _ _ => ⟨nofun, nofun⟩) fun st ns _ => ?_) fun st => ?_
  · unfold devicesWithTrust; lib_ops []
  · haveI : Lasting (fun h => EncB st.sessions st.messages h) := EncB.lasting
    exact kn_encryptBackend cache pt st ns (fun h hk => hc h hk.1) fun h hk => hk.2
  · haveI : Lasting (fun h => EncB st.sessions st.messages h) := EncB.lasting
    dsimp only
    split
    · exact Kn.raise
    · refine Kn.seq (Kn.forEach fun x hx => ?_) fun _ => Kn.pure fun h hk => hk.2.2
      exact (Kn.call fun h hk => hk.2.1 x (SetOrder.mem_iter.1 hx)).post fun _ _ _ => trivial

theorem kn_recipients (order : List Ns) (jids : List Jid) :
    Kn (Rule own dev In) K (recipientDevices M order jids) (fun x h => ∀ b, b ∈ x.2 → Down h b) := by
  unfold recipientDevices
  haveI : ∀ x : List DeviceInfo × List Bundle, Lasting (fun h => ∀ b, b ∈ x.2 → Down h b) :=
    fun x => ⟨fun h e hk b hb => Lasting.step (K := fun h => Down h b) _ _ (hk b hb)⟩
  refine Kn.bind (Kn.mapAll (S := fun x h => ∀ b, b ∈ x.2 → Down h b) fun jid _ => (kn_info' jid).post fun x h hx => hx.2) fun tmp => ?_
  haveI : Lasting (fun h => ∀ y, y ∈ tmp → ∀ b, b ∈ y.2 → Down h b) :=
    ⟨fun h e hk y hy b hb => Lasting.step (K := fun h => Down h b) _ _ (hk y hy b hb)⟩
  dsimp only
  refine Kn.seq (R := fun _ _ => True) (quiet (by lib_ops [])) fun devices => Kn.seq (R := fun _ _ => True) (quiet (by lib_ops [])) fun devices' => Kn.pure fun h hk b hb => ?_
  obtain ⟨l, hl, hb⟩ := List.mem_flatten.1 (mem_dedup.1 hb)
  obtain ⟨y, hy, rfl⟩ := List.mem_map.1 hl
  exact hk.2 y hy b hb

theorem kn_encrypt (jids : List Jid) (pt : Dict Ns Bytes) (prio : Option (List Ns)) (i : Option String)
    (hd : ∀ ds i h, Grd (Rule own dev In) (fun _ _ => True) (M.decide ds i) h) :
    Kn (Rule own dev In) K (encrypt M jids pt prio i) (fun r h => ∀ x, x ∈ r.1 → Composed h x.1 ∧ Fresh h x.1.ns x.1.content x.2) := by
  unfold encrypt
  refine Kn.seq (plain_call rfl) fun bs => Kn.seq (quiet (allOps_liftE _)) fun order => ?_
  dsimp only
  refine Kn.bind (kn_recipients order _) fun x => ?_
  obtain ⟨devices, cache⟩ := x
  haveI : Lasting (fun h => ∀ b, b ∈ cache → Down h b) := ⟨fun h e hk b hb => Lasting.step (K := fun h => Down h b) _ _ (hk b hb)⟩
  refine Kn.seq (R := fun _ _ => True) ?_ fun devices => kn_encryptTrusted _ cache pt devices fun h hk => hk.2
  unfold decideTrust
  refine Kn.seq (quiet (by unfold devicesWithTrust; lib_ops [])) fun un => Kn.seq (R := fun _ _ => True) ?_ fun ds =>
    Kn.seq (quiet (by unfold devicesWithTrust; lib_ops [])) fun su => ?_
  · unfold askTrust
    split
    · exact Kn.seq (fun h _ => hd _ _ h) fun _ => quiet (by unfold reloadTrust; lib_ops [])
    · exact Kn.pure fun _ _ => trivial
  · split
    · exact Kn.raise
    · exact Kn.pure fun _ _ => trivial

/-! ### Decryption -/

theorem kn_update (ns : Ns) (jid : Jid) (dl : DevList) : Kn (Rule own dev In) K (updateDeviceList M ns jid dl) (fun _ _ => True) := by
  refine quiet ?_
  unfold updateDeviceList ensureOwnListed addNewDevice updateKnownDevice updateListed updateUnlisted
  lib_ops []

theorem kn_refresh (ns : Ns) (jid : Jid) : Kn (Rule own dev In) K (refreshDeviceList M ns jid) (fun _ _ => True) := by
  unfold refreshDeviceList
  exact Kn.seq (plain_call rfl) fun dl => kn_update ns jid dl

theorem pick {d : DevId} {devices : List DeviceInfo} {x : DeviceInfo} (h : pickDevice M d devices = some x) : x ∈ devices ∧ x.deviceId = d :=
  ⟨SetOrder.mem_iter.1 (List.mem_of_find?_eq_some h), by simpa using List.find?_some h⟩

theorem kn_findSender (msg : Message) :
    Kn (Rule own dev In) K (findSender M msg) (fun x _ => x.bareJid = msg.bareJid ∧ x.deviceId = msg.deviceId) := by
  unfold findSender
  refine Kn.bind (kn_info _) fun ds => ?_
  split
  · rename_i x hx
    exact Kn.pure fun h hk => ⟨hk.2 x (pick hx).1, (pick hx).2⟩
  · refine Kn.seq (kn_refresh _ _) fun _ => Kn.bind (kn_info _) fun ds => ?_
    split
    · rename_i x hx
      exact Kn.pure fun h hk => ⟨hk.2 x (pick hx).1, (pick hx).2⟩
    · exact Kn.raise

theorem kn_keyMaterial (msg : Message) (x : DeviceInfo) (k : EncKM) (kex : Option KeyExchange) (hi : In msg) (hc : Carries own dev msg k kex)
    (hx : x.bareJid = msg.bareJid ∧ x.deviceId = msg.deviceId) :
    Kn (Rule own dev In) K (keyMaterial M msg x k kex) (fun r h => Made h msg.ns msg.bareJid msg.deviceId r.1 ∧ Recovered h msg.ns k r.2) := by
  have hdec : ∀ {L : List Ev → Prop} [Lasting L] (s : Session), (∀ h, L h → Made h msg.ns msg.bareJid msg.deviceId s) →
      Kn (Rule own dev In) L (do let (km, session) ← call (.decryptKM msg.ns s k); pure (session, km) : P (Session × PlainKM))
        (fun r h => Made h msg.ns msg.bareJid msg.deviceId r.1 ∧ Recovered h msg.ns k r.2) := by
    intro L _ s hs
    refine Kn.bind (Kn.call fun h hk => ⟨msg, kex, hi, rfl, hc, hs h hk⟩) fun r => ?_
    obtain ⟨km, s'⟩ := r
    exact Kn.pure fun h hk => ⟨.decrypt (hs h hk.1) hk.2, .inl ⟨s, s', hk.2⟩⟩
  unfold keyMaterial
  cases kex with
  | none =>
    dsimp only
    unfold decryptKeyMaterial
    refine Kn.bind (plain_call rfl) fun so => ?_
    cases so with
    | none => exact Kn.raise
    | some s => exact hdec s fun h hk => .load (by rw [← hx.1, ← hx.2]; exact hk.2)
  | some kex =>
    dsimp only
    unfold handleKeyExchange
    split
    · exact Kn.raise
    refine Kn.bind (plain_call rfl) fun so => ?_
    split
    · refine (Kn.call fun h _ => ⟨msg, hi, rfl, hc, hx.1, hx.2⟩).post fun r h hr => ?_
      obtain ⟨s, km⟩ := r
      rw [hx.1, hx.2] at hr
      exact ⟨.passive hr, .inr ⟨_, _, _, _, hr⟩⟩
    · rename_i s hs
      have hs := (Option.filter_eq_some_iff.1 hs).1
      exact hdec s fun h hk => .load (by rw [← hx.1, ← hx.2, ← hs]; exact hk.2)

theorem kn_decryptContent (msg : Message) (x : DeviceInfo) (k : EncKM) (kex : Option KeyExchange) (hi : In msg) (hc : Carries own dev msg k kex)
    (hx : x.bareJid = msg.bareJid ∧ x.deviceId = msg.deviceId) :
    Kn (Rule own dev In) K (decryptContent M msg x k kex) (fun r h => Made h msg.ns msg.bareJid msg.deviceId r.2.1) := by
  unfold decryptContent
  refine Kn.seq (plain_call rfl) fun level => ?_
  split
  · exact Kn.raise
  refine Kn.bind (kn_keyMaterial msg x k kex hi hc hx) fun r => ?_
  obtain ⟨s, km⟩ := r
  refine Kn.seq (R := fun _ _ => True) ?_ fun pt => Kn.pure fun h hk => hk.2.1
  unfold plaintextOf
  split
  · exact Kn.pure fun _ _ => trivial
  · exact Kn.seq (Kn.call fun h hk => ⟨msg, k, kex, hi, rfl, rfl, hc, hk.2.2⟩) fun _ => Kn.pure fun _ _ => trivial

theorem kn_postDecrypt (msg : Message) (kex : Option KeyExchange) (s : Session) (hi : In msg)
    (hs : ∀ h, K h → Made h msg.ns msg.bareJid msg.deviceId s) : Kn (Rule own dev In) K (postDecrypt M msg.ns kex s) (fun _ _ => True) := by
  unfold postDecrypt consumePreKey autoReply
  refine Kn.seq (Kn.call fun h hk => ⟨_, _, hs h hk⟩) fun _ => Kn.seq (Kn.when' fun _ => Kn.seq (plain_call rfl) fun sync =>
    Kn.seq (R := fun _ _ => True) ?_ fun b => quiet ?_) fun _ => Kn.when' fun _ => Kn.seq (plain_call rfl) fun sync => ?_
  · unfold discardPreKey
    split <;> exact (Kn.call fun h hk => ⟨msg, hi, rfl, hs h hk⟩).post fun _ _ _ => trivial
  · unfold refillPreKeys
    lib_ops []
  · split
    · exact quiet (by unfold queueEmpty; lib_ops [])
    · exact kn_sendEmptyMessage msg.ns _ _ s hs

theorem kn_decrypt (msg : Message) (hi : In msg) : Kn (Rule M.ownJid M.ownDev In) K (decrypt M msg) (fun _ _ => True) := by
  unfold decrypt
  refine Kn.seq (plain_call rfl) fun bs => ?_
  split
  · exact Kn.raise
  split
  · exact Kn.raise
  rename_i k kex hk
  have hc : Carries M.ownJid M.ownDev msg k kex := by
    refine ⟨SetOrder.mem_iter.1 (List.mem_of_find?_eq_some hk), ?_⟩
    simpa using List.find?_some hk
  refine Kn.bind (kn_findSender msg) fun x h hx => ?_
  refine (Kn.bind (kn_decryptContent (K := K) msg x k kex hi hc hx.2) fun r => ?_) h hx.1
  obtain ⟨pt, s, km⟩ := r
  exact Kn.seq (kn_postDecrypt msg kex s hi fun h hk => hk.2) fun _ => Kn.pure fun _ _ => trivial

theorem refresh_plain {ns : Ns} {jid : Jid} {o : Op} (h : Refresh M ns jid o) : plain o = true := by
  cases h with
  | download => rfl
  | update h => cases h <;> rfl

theorem purge_plain {ns : Ns} {o : Op} (h : PurgeBackend M ns o) : plain o = true := by
  cases h with
  | info h => exact info_plain h
  | _ => rfl

theorem create_plain {o : Op} (h : Ikp o ∨ Create M o) : plain o = true := by
  rcases h with h | h
  · cases h <;> rfl
  · cases h with
    | refresh ns d h => exact refresh_plain h
    | info h => exact info_plain h
    | purge ns d h => exact purge_plain h
    | _ => rfl

/-- All calls. -/
theorem kn_call (c : Call) (hi : ∀ msg, c = .decrypt msg → In msg)
    (hd : ∀ ds i h, Grd (Rule M.ownJid M.ownDev In) (fun _ _ => True) (M.decide ds i) h) :
    Kn (Rule M.ownJid M.ownDev In) K (c.run M) (fun _ _ => True) := by
  cases c <;> simp only [Call.run]
  case encrypt jids pt prio i => exact Kn.seq (kn_encrypt jids pt prio i hd) fun _ => Kn.pure fun _ _ => trivial
  case decrypt msg => exact Kn.seq (kn_decrypt msg (hi msg rfl)) fun _ => Kn.pure fun _ _ => trivial
  case afterHistorySync => exact kn_afterHistorySync
  case replaceSessions jid d => exact Kn.seq (kn_replaceSessions jid d) fun _ => Kn.pure fun _ _ => trivial
  case getIdentityKeyPair => exact Kn.seq (quiet (ops_ikp.mono fun _ h => by cases h <;> rfl)) fun _ => Kn.pure fun _ _ => trivial
  case create bs label fuel => exact Kn.seq (quiet ((ops_create M bs label fuel).mono fun _ h => create_plain h)) fun _ => Kn.pure fun _ _ => trivial
  case purgeBackend ns => exact quiet ((ops_purgeBackend M ns).mono fun _ h => purge_plain h)
  case purgeBareJid jid => exact quiet ((ops_purgeBareJid M jid).mono fun _ h => by cases h <;> rfl)
  case ensureDataConsistency => exact quiet ((ops_ensureDataConsistency M).mono fun _ h => by cases h with | refresh _ h => exact refresh_plain h | _ => rfl)
  case rotation p f r => exact quiet ((ops_manageRotation M p f r).mono fun _ h => by cases h <;> rfl)
  case updateDeviceList ns jid dl => exact kn_update ns jid dl
  case refreshDeviceList ns jid => exact kn_refresh ns jid
  case refreshDeviceLists jid =>
    unfold refreshDeviceLists
    exact Kn.seq (plain_call rfl) fun bs => Kn.forEach fun ns _ => kn_refresh ns jid
  case setTrust => exact (plain_call rfl).post fun _ _ _ => trivial
  case getSendingChainLength x =>
    unfold getSendingChainLength
    exact Kn.seq (Kn.seq (plain_call rfl) fun bs => quiet (by lib_ops [])) fun _ => Kn.pure fun _ _ => trivial
  case setOwnLabel l => exact quiet ((ops_setOwnLabel M l).mono fun _ h => by cases h <;> rfl)
  case getDeviceInformation jid => exact Kn.seq (kn_info jid) fun _ => Kn.pure fun _ _ => trivial
  case getOwnDeviceInformation => exact Kn.seq (quiet ((ops_getOwnDeviceInformation M).mono fun _ h => info_plain h)) fun _ => Kn.pure fun _ _ => trivial
  case beforeHistorySync => exact (plain_call rfl).post fun _ _ _ => trivial

end Belongs
end Verif
