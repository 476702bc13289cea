import Verif.Props.Replay
import Verif.Props.Intact
import Verif.Props.Sync
/-
Sessions are with the identity key their device is known under.
-/
namespace Verif
open SM Spec Foot

namespace Spec

/-- Sessions are with the owner of an identity key (backend.py:94-215): the one in the key exchange or in the bundle they were built from. -/
structure Tied (peer : Session → Bytes) (e : Ev) : Prop where
  lasts : Lasts e
  active : ∀ ns j d b m s k, e = ⟨.buildActive ns j d b m, .ok (s, k)⟩ → peer s = b.identityKey
  passive : ∀ ns j d x k s m, e = ⟨.buildPassive ns j d x k, .ok (s, m)⟩ → peer s = x.identityKey
  encrypt : ∀ ns s m k s', e = ⟨.encryptKM ns s m, .ok (k, s')⟩ → peer s' = peer s
  decrypt : ∀ ns s k m s', e = ⟨.decryptKM ns s k, .ok (m, s')⟩ → peer s' = peer s

/-- The backends keep sessions, and know whom they are with. -/
structure Honest (peer : Session → Bytes) (h : List Ev) : Prop where
  tied : ∀ e ∈ h, Tied peer e
  shelf : ∀ ns j d, ∃ o, (Shelf ns j d).Runs none h o

/-- Everything that happened, from the very beginning. -/
structure Story (own : Jid) (x : XEdDSA) (cs : List (Mgr × Call)) (s : Use) : Prop where
  life : ∃ s0, New s0 ∧ Typed s0.world.disk ∧ s0.world.log = [] ∧ Life own x s0 cs s
  app : ∀ c ∈ cs, ViaApi c.1 ∧ MildDecisions c.1

end Spec

/-- C115 in full: the session with which a message was decrypted is with the owner of the identity key of the device that is returned as the sender. -/
def C115_Claim : Prop := ∀ own x cs s peer M msg t p dev km w' e ekm ss, Story own x cs s → M ∈ s.mgrs → Exec (decrypt M msg) t (.ok (p, dev, km)) →
  Lib.Runs s.world t w' → Honest peer w'.log → e ∈ t → GaveKM msg.ns e ekm ss km → peer ss = dev.identityKey

namespace Attribution
variable {M : Mgr} {msg : Message} {t : List Ev} {w w' : World}

theorem hasKey_of (ht : Typed w.disk) {j d ik} (h : Keyed w.disk j d ik) : HasKey w.disk j d ik := by
  obtain ⟨s, h1, h2⟩ := h
  obtain ⟨b, hb⟩ := ht _ _ h1
  cases hb
  rw [Base64.decode_encode] at h2
  cases h2
  exact h1

theorem hasKey_inj {m : Disk} {j d a b} (h1 : HasKey m j d a) (h2 : HasKey m j d b) : a = b := by
  have h := h1.symm.trans h2
  exact Base64.encode_injective (JVal.str.inj (Option.some.inj h))

theorem typed_of {α : Type} {p : P α} {r} (hp : Pres Lib Intact.TypedW p) (he : Exec p t r) (hr : Lib.Runs w t w') (ht : Typed w.disk) : Typed w'.disk :=
  wp_sound (hp _ ht) he hr

theorem typed_writing {α : Type} {p : P α} {φ : Op → Prop} (h : AllOps φ p) (hw : ∀ o, φ o → Writes o) : Pres Lib Intact.TypedW p :=
  Intact.typed_writes.pres (h.mono hw)

/-- The device found as the sender is known under its identity key. -/
theorem sender_key {dev : DeviceInfo} (h : Exec (findSender M msg) t (.ok dev)) (hr : Lib.Runs w t w') (ht : Typed w.disk) :
    HasKey w'.disk dev.bareJid dev.deviceId dev.identityKey := by
  have info : ∀ {t w w' x}, Exec (getDeviceInformation M msg.bareJid) t (.ok x) → Lib.Runs w t w' → Typed w.disk → pickDevice M msg.deviceId x = some dev →
      HasKey w'.disk dev.bareJid dev.deviceId dev.identityKey := by
    intro t w w' x h1 hr ht hp
    have hd := describes_info h1 hr dev (SetOrder.mem_iter.1 (List.mem_of_find?_eq_some hp))
    rw [hd.bareJid]
    exact hasKey_of (typed_of (typed_writing (ops_getDeviceInformation M _) fun _ => info_writes) h1 hr ht) hd.key
  unfold findSender at h
  replace h := exec_seq_ok.1 h; obtain ⟨t1, x, t2, rfl, h1, h2⟩ := h
  obtain ⟨w1, r1, r2⟩ := Sem.runs_append.1 hr
  cases hp : pickDevice M msg.deviceId x with
  | some d =>
    simp only [hp] at h2
    replace h2 := exec_pure.1 h2; obtain ⟨rfl, h2⟩ := h2
    cases h2
    cases r2
    exact info h1 r1 ht hp
  | none =>
    simp only [hp] at h2
    replace h2 := exec_seq_ok.1 h2; obtain ⟨t3, _, t4, rfl, h3, h4⟩ := h2
    replace h4 := exec_seq_ok.1 h4; obtain ⟨t5, y, t6, rfl, h5, h6⟩ := h4
    obtain ⟨w2, r3, r4⟩ := Sem.runs_append.1 r2
    obtain ⟨w3, r5, r6⟩ := Sem.runs_append.1 r4
    have ht1 := typed_of (typed_writing (ops_getDeviceInformation M _) fun _ => info_writes) h1 r1 ht
    have ht2 := typed_of (typed_writing (ops_refreshDeviceList M _ _) fun _ => refresh_writes) h3 r3 ht1
    cases hp' : pickDevice M msg.deviceId y with
    | some d =>
      simp only [hp'] at h6
      replace h6 := exec_pure.1 h6; obtain ⟨rfl, h6⟩ := h6
      cases h6
      cases r6
      exact info h5 r5 ht2 hp'
    | none =>
      simp only [hp'] at h6
      replace h6 := exec_throw.1 h6; obtain ⟨_, h6⟩ := h6
      cases h6

/-- What `decrypt` does after the sender was found: sessions are built for the sender, with key exchanges of its identity key. -/
def Fits (dev : DeviceInfo) (o : Op) : Prop := ∀ ns j d x k, o = .buildPassive ns j d x k → j = dev.bareJid ∧ d = dev.deviceId ∧ x.identityKey = dev.identityKey

theorem fits_of {dev : DeviceInfo} {o : Op} (h : ∀ ns j d x k, o ≠ .buildPassive ns j d x k) : Fits dev o := fun ns j d x k e => (h ns j d x k e).elim

/-- The rest of `decrypt`. -/
def after (M : Mgr) (msg : Message) (dev : DeviceInfo) (ekm : EncKM) (kex : Option KeyExchange) : P (Option Bytes × DeviceInfo × PlainKM) := do
  let (plaintext, session, km) ← decryptContent M msg dev ekm kex
  postDecrypt M msg.ns kex session
  pure (plaintext, dev, km)

theorem ops_after (M : Mgr) (msg : Message) (dev : DeviceInfo) (ekm : EncKM) (kex : Option KeyExchange) :
    AllOps (fun o => Quiet o ∧ Fits dev o) (after M msg dev ekm kex) := by
  have hse : ∀ s, AllOps (fun o => Quiet o ∧ Fits dev o) (sendEmptyMessage M msg.ns s) := fun s => by
    unfold sendEmptyMessage
    lib_ops []
    all_goals exact ⟨trivial, fits_of fun _ _ _ _ _ h => by cases h⟩
  unfold after decryptContent keyMaterial plaintextOf decryptKeyMaterial handleKeyExchange postDecrypt consumePreKey discardPreKey refillPreKeys autoReply queueEmpty
  lib_ops [hse]
  all_goals first
    | (refine ⟨trivial, fits_of fun _ _ _ _ _ h => ?_⟩; cases h; done)
    | exact ⟨.inl ⟨_, rfl⟩, fits_of fun _ _ _ _ _ h => by cases h⟩
    | exact ⟨.inr ⟨_, _, rfl⟩, fits_of fun _ _ _ _ _ h => by cases h⟩
    | (refine ⟨trivial, ?_⟩
       rintro _ _ _ _ _ ⟨⟩
       exact ⟨rfl, rfl, Classical.not_not.1 ‹_›⟩)

/-- `decrypt` builds sessions for devices known under the identity key of the key exchange, and returns a device known under its identity key. -/
theorem decrypt_key {r} (h : Exec (decrypt M msg) t r) (hr : Lib.Runs w t w') (ht : Typed w.disk) :
    (∀ ns j d x k y, (⟨.buildPassive ns j d x k, y⟩ : Ev) ∈ t → HasKey w'.disk j d x.identityKey) ∧
      ∀ p dev km, r = .ok (p, dev, km) → HasKey w'.disk dev.bareJid dev.deviceId dev.identityKey := by
  have none : ∀ {u : List Ev}, (∀ e ∈ u, Op.looks e.1 = true) → ∀ ns j d x k y, (⟨.buildPassive ns j d x k, y⟩ : Ev) ∉ u := by
    intro u hu ns j d x k y hm
    cases hu _ hm
  have some' : ∀ {u : List Ev} {b}, (∀ e ∈ u, Op.looks e.1 = true) → ∀ ns j d x k y, (⟨.buildPassive ns j d x k, y⟩ : Ev) ∉ (⟨.getBackends, b⟩ : Ev) :: u := by
    intro u b hu ns j d x k y hm
    rcases List.mem_cons.1 hm with hm | hm
    · cases hm
    · exact none hu _ _ _ _ _ _ hm
  unfold decrypt at h
  replace h := exec_call_bind.1 h; rcases h with ⟨rfl, rfl⟩ | ⟨e, rfl, rfl⟩ | ⟨bs, t', rfl, h⟩
  · exact ⟨fun _ _ _ _ _ _ hm => (none (u := []) (fun _ h => by cases h) _ _ _ _ _ _ hm).elim, fun _ _ _ h => by cases h⟩
  · exact ⟨fun _ _ _ _ _ _ hm => (some' (u := []) (fun _ h => by cases h) _ _ _ _ _ _ hm).elim, fun _ _ _ h => by cases h⟩
  split at h
  · replace h := exec_throw.1 h; obtain ⟨rfl, rfl⟩ := h
    exact ⟨fun _ _ _ _ _ _ hm => (some' (u := []) (fun _ h => by cases h) _ _ _ _ _ _ hm).elim, fun _ _ _ h => by cases h⟩
  split at h
  · replace h := exec_throw.1 h; obtain ⟨rfl, rfl⟩ := h
    exact ⟨fun _ _ _ _ _ _ hm => (some' (u := []) (fun _ h => by cases h) _ _ _ _ _ _ hm).elim, fun _ _ _ h => by cases h⟩
  rename_i ekm kex hk
  replace h := exec_seq.1 h; rcases h with ⟨t1, dev, t2, rfl, hf, h⟩ | ⟨e, hf, rfl⟩ | ⟨hf, rfl⟩
  · change Exec (after M msg dev ekm kex) t2 r at h
    obtain ⟨_, hr⟩ := hr
    obtain ⟨w1, r1, r2⟩ := Sem.runs_append.1 hr
    have hops := ops_after M msg dev ekm kex
    have hkey : HasKey w'.disk dev.bareJid dev.deviceId dev.identityKey :=
      wp_sound (((Pinned.parts (M := M)).quiet.pres (hops.mono fun _ h => h.1)) w1 (sender_key hf r1 ht)) h r2
    refine ⟨fun ns j d x k y hm => ?_, ?_⟩
    · rw [← List.cons_append] at hm
      rcases List.mem_append.1 hm with hm | hm
      · exact (some' (ops_findSender.exec hf) _ _ _ _ _ _ hm).elim
      · obtain ⟨rfl, rfl, h3⟩ := (hops.exec h _ hm).2 _ _ _ _ _ rfl
        rw [h3]
        exact hkey
    · rintro p dev' km rfl
      unfold after at h
      replace h := exec_seq_ok.1 h; obtain ⟨_, ⟨a, b, c⟩, _, _, _, h⟩ := h
      replace h := exec_seq_ok.1 h; obtain ⟨_, _, _, _, _, h⟩ := h
      replace h := exec_pure.1 h; obtain ⟨_, h⟩ := h
      cases h
      exact hkey
  · exact ⟨fun _ _ _ _ _ _ hm => (some' (ops_findSender.exec hf) _ _ _ _ _ _ hm).elim, fun _ _ _ h => by cases h⟩
  · exact ⟨fun _ _ _ _ _ _ hm => (some' (ops_findSender.exec hf) _ _ _ _ _ _ hm).elim, fun _ _ _ h => by cases h⟩

/-! ### Lives -/

theorem step_exec {own : Jid} {x : XEdDSA} {s s' : Use} {c : Mgr × Call} (h : Step own x s c s') : ∃ t r, Exec (c.2.run c.1) t r ∧ Lib.Runs s.world t s'.world := by
  cases h with
  | ikp M he hr => exact ⟨_, _, he, hr⟩
  | @create w' t r M bs label fuel _ _ he hr =>
    cases r with
    | ok d => exact ⟨_, .ok (), exec_seq_ok.2 ⟨_, _, [], by simp, he, .ret _⟩, hr⟩
    | raised e => exact ⟨_, .raised e, exec_seq.2 (.inr (.inl ⟨e, he, rfl⟩)), hr⟩
    | crashed => exact ⟨_, .crashed, exec_seq.2 (.inr (.inr ⟨he, rfl⟩)), hr⟩
  | call M c _ _ he hr => exact ⟨_, _, he, hr⟩

/-- Sessions are used and stored after they were made. -/
def Sourced (h : List Ev) (e : Ev) : Prop := ∀ ns s, Uses [e] ns s → ∃ j d, Made h ns j d s

theorem sourced_call {c : Call} {r} (hd : MildDecisions M) (he : Exec (c.run M) t r) : Guarded Sourced t := by
  have hg : Guarded (Belongs M.ownJid M.ownDev (fun _ => True)) t :=
    Kn.exec (Belongs.kn_call (K := fun _ => True) c (fun _ _ => trivial) (Crossing.grd_plain (OneTime.MildDecisions.plain hd))) he
  intro h1 e h2 ht ns s hu
  cases hu with
  | encrypt hm => obtain rfl := List.mem_singleton.1 hm; exact (hg h1 _ h2 ht).1
  | decrypt hm => obtain rfl := List.mem_singleton.1 hm; obtain ⟨_, _, _, _, _, hm⟩ := hg h1 _ h2 ht; exact ⟨_, _, hm⟩
  | store hm => obtain rfl := List.mem_singleton.1 hm; exact hg h1 _ h2 ht

theorem made_external {h : List Ev} {ns j d s} (hm : Made h ns j d s) : Made (h.filter fun e => e.1.isExternal) ns j d s := by
  induction hm with
  | load h => exact .load (List.mem_filter.2 ⟨h, rfl⟩)
  | active h => exact .active (List.mem_filter.2 ⟨h, rfl⟩)
  | passive h => exact .passive (List.mem_filter.2 ⟨h, rfl⟩)
  | encrypt _ h ih => exact .encrypt ih (List.mem_filter.2 ⟨h, rfl⟩)
  | decrypt _ h ih => exact .decrypt ih (List.mem_filter.2 ⟨h, rfl⟩)

theorem filter_split {p : Ev → Bool} {t h1 h2 : List Ev} {e : Ev} (h : t.filter p = h1 ++ e :: h2) : ∃ t1 t2, t = t1 ++ e :: t2 ∧ t1.filter p = h1 := by
  induction t generalizing h1 with
  | nil => simp at h
  | cons x t ih =>
    by_cases hx : p x = true
    · rw [List.filter_cons_of_pos hx] at h
      cases h1 with
      | nil => cases h; exact ⟨[], t, rfl, rfl⟩
      | cons y h1 =>
        simp only [List.cons_append, List.cons.injEq] at h
        obtain ⟨rfl, h⟩ := h
        obtain ⟨t1, t2, rfl, rfl⟩ := ih h
        exact ⟨x :: t1, t2, rfl, by rw [List.filter_cons_of_pos hx]⟩
    · rw [List.filter_cons_of_neg hx] at h
      obtain ⟨t1, t2, rfl, rfl⟩ := ih h
      exact ⟨x :: t1, t2, rfl, by rw [List.filter_cons_of_neg hx]⟩

theorem sourced_filter (h : Guarded Sourced t) : Guarded Sourced (t.filter fun e => e.1.isExternal) := by
  intro h1 e h2 ht ns s hu
  obtain ⟨t1, t2, rfl, rfl⟩ := filter_split ht
  obtain ⟨j, d, hm⟩ := h t1 e t2 rfl ns s hu
  exact ⟨j, d, made_external hm⟩

theorem sourced_append {a b : List Ev} (ha : Guarded Sourced a) (hb : Guarded Sourced b) : Guarded Sourced (a ++ b) :=
  Crossing.guarded_append (fun _ _ _ hs h ns s hh => let ⟨j, d, hm⟩ := h ns s hh; ⟨j, d, Belongs.Made.mono hs hm⟩) ha hb

/-- What holds in the course of a life, about the devices of `j`. -/
structure Kept (own : Jid) (x : XEdDSA) (j : Jid) (s : Use) : Prop where
  use : InUse own x s
  typed : Typed s.world.disk
  sourced : Guarded Sourced s.world.log
  passive : ∀ ns d y k z, (⟨.buildPassive ns j d y k, z⟩ : Ev) ∈ s.world.log → HasKey s.world.disk j d y.identityKey

theorem call_passive {c : Call} {r} (hd : MildDecisions M) (he : Exec (c.run M) t r) (hr : Lib.Runs w t w') (ht : Typed w.disk) :
    ∀ ns j d y k z, (⟨.buildPassive ns j d y k, z⟩ : Ev) ∈ t → HasKey w'.disk j d y.identityKey := by
  intro ns j d y k z hm
  have hg : Guarded (Belongs M.ownJid M.ownDev (fun m => c = .decrypt m)) t :=
    Kn.exec (Belongs.kn_call (K := fun _ => True) _ (fun _ h => h) (Crossing.grd_plain (OneTime.MildDecisions.plain hd))) he
  obtain ⟨a, b, hab⟩ := List.append_of_mem hm
  obtain ⟨msg, rfl, -⟩ := hg a _ b hab
  have he' : ∃ r', Exec (decrypt M msg) t r' := by
    change Exec (decrypt M msg >>= fun _ => pure ()) t r at he
    rcases exec_seq.1 he with ⟨t1, a, t2, rfl, h1, h2⟩ | ⟨e, h1, -⟩ | ⟨h1, -⟩
    · replace h2 := exec_pure.1 h2; obtain ⟨rfl, -⟩ := h2
      exact ⟨_, by simpa using h1⟩
    · exact ⟨_, h1⟩
    · exact ⟨_, h1⟩
  obtain ⟨r', he'⟩ := he'
  exact (decrypt_key he' hr ht).1 _ _ _ _ _ _ hm

theorem kept_step {own : Jid} {x : XEdDSA} {j : Jid} {s s' : Use} {c : Mgr × Call} (h : Step own x s c s') (happ : ViaApi c.1) (hd : MildDecisions c.1)
    (hp : c.2 ≠ .purgeBareJid j) (hk : Kept own x j s) : Kept own x j s' := by
  obtain ⟨t, r, he, hr⟩ := step_exec h
  have hlog := Lib.log_external hr
  refine ⟨inUse_step h happ hk.use, typed_of (Intact.typed_call happ c.2) he hr hk.typed, ?_, fun ns d y k z hm => ?_⟩
  · rw [hlog]
    exact sourced_append hk.sourced (sourced_filter (sourced_call hd he))
  · rw [hlog] at hm
    rcases List.mem_append.1 hm with hm | hm
    · exact pinned_step h happ hk.use hp (hk.passive ns d y k z hm)
    · exact call_passive hd he hr hk.typed ns j d y k z (List.mem_filter.1 hm).1

theorem kept_life {own : Jid} {x : XEdDSA} {j : Jid} {s s' : Use} {cs : List (Mgr × Call)} (h : Life own x s cs s') (happ : ∀ c ∈ cs, ViaApi c.1 ∧ MildDecisions c.1)
    (hp : ∀ c ∈ cs, c.2 ≠ .purgeBareJid j) (hk : Kept own x j s) : Kept own x j s' := by
  induction h with
  | nil => exact hk
  | cons hst _ ih =>
    exact ih (fun c hc => happ c (.tail _ hc)) (fun c hc => hp c (.tail _ hc)) (kept_step hst (happ _ (.head _)).1 (happ _ (.head _)).2 (hp _ (.head _)) hk)

theorem kept_story {own : Jid} {x : XEdDSA} {j : Jid} {s : Use} {cs : List (Mgr × Call)} (h : Story own x cs s) (hp : ∀ c ∈ cs, c.2 ≠ .purgeBareJid j) : Kept own x j s := by
  obtain ⟨s0, h1, h2, h3, h4⟩ := h.life
  refine kept_life h4 h.app hp ⟨inUse_new h1, h2, ?_, ?_⟩
  · rw [h3]; exact fun _ _ _ h => by simp at h
  · rw [h3]; exact fun _ _ _ _ _ h => by cases h

/-- Sessions that were made are with the owner of the identity key, if those that were built are. -/
theorem made_tied {peer : Session → Bytes} {h : List Ev} {m : Disk} {j : Jid} (hs : Guarded Sourced h) (hh : Honest peer h)
    (ha : ∀ ns d b k z, (⟨.buildActive ns j d b k, .ok z⟩ : Ev) ∈ h → HasKey m j d b.identityKey)
    (hp : ∀ ns d y k z, (⟨.buildPassive ns j d y k, z⟩ : Ev) ∈ h → HasKey m j d y.identityKey) {ns d s} (hm : Made h ns j d s) : HasKey m j d (peer s) := by
  have hst : Guarded Replay.Stems h := fun h1 e h2 ht ns s he => hs h1 e h2 ht ns s (.store (r := he ▸ e.2) (by obtain ⟨o, r⟩ := e; cases he; exact List.mem_singleton.2 rfl))
  obtain ⟨o, ho⟩ := hh.shelf ns j d
  have h1 : ∀ b m' s k, (⟨.buildActive ns j d b m', .ok (s, k)⟩ : Ev) ∈ h → HasKey m j d (peer s) := fun b m' s k hx => by
    rw [(hh.tied _ hx).active _ _ _ _ _ _ _ rfl]; exact ha _ _ _ _ _ hx
  have h2 : ∀ y k s m', (⟨.buildPassive ns j d y k, .ok (s, m')⟩ : Ev) ∈ h → HasKey m j d (peer s) := fun y k s m' hx => by
    rw [(hh.tied _ hx).passive _ _ _ _ _ _ _ rfl]; exact hp _ _ _ _ _ hx
  have h3 : ∀ s m' k s', (⟨.encryptKM ns s m', .ok (k, s')⟩ : Ev) ∈ h → HasKey m j d (peer s) → HasKey m j d (peer s') := fun s m' k s' hx hk => by
    rw [(hh.tied _ hx).encrypt _ _ _ _ _ rfl]; exact hk
  have h4 : ∀ s m' k s', (⟨.decryptKM ns s k, .ok (m', s')⟩ : Ev) ∈ h → HasKey m j d (peer s) → HasKey m j d (peer s') := fun s m' k s' hx hk => by
    rw [(hh.tied _ hx).decrypt _ _ _ _ _ rfl]; exact hk
  exact Replay.made_all (Replay.shelf_all (φ := fun s => HasKey m j d (peer s)) hst (fun e he => (hh.tied e he).lasts) h1 h2 h3 h4 ho nofun) h1 h2 h3 h4 hm

end Attribution

/-- C115 for all uses of sessions, in encryption and decryption, if bundles from which sessions are built contain the identity key the device is known under, and the JID is not purged.
Missing: the code does not compare the identity key of bundles, and purging a JID deletes its identity keys before its sessions, and the latter of loaded backends only. -/
theorem C115_uses_partial (own : Jid) (x : XEdDSA) (cs : List (Mgr × Call)) (s : Use) (peer : Session → Bytes) (j : Jid) (h : Story own x cs s)
    (hp : ∀ c ∈ cs, c.2 ≠ .purgeBareJid j) (hh : Honest peer s.world.log)
    (ha : ∀ ns d b k z, (⟨.buildActive ns j d b k, .ok z⟩ : Ev) ∈ s.world.log → HasKey s.world.disk j d b.identityKey) (ns : Ns) (ss : Session)
    (hu : Uses s.world.log ns ss) (hj : ss.bareJid = j) : HasKey s.world.disk j ss.deviceId (peer ss) := by
  have hk := Attribution.kept_story h hp
  have key : ∀ {e : Ev}, e ∈ s.world.log → Uses [e] ns ss → HasKey s.world.disk j ss.deviceId (peer ss) := by
    intro e he hu
    obtain ⟨u, v, hl⟩ := List.append_of_mem he
    obtain ⟨j', d', hm⟩ := hk.sourced u e v hl ns ss hu
    have hm := Belongs.Made.mono (h' := s.world.log) (fun e he => by rw [hl]; simp [he]) hm
    obtain ⟨rfl, rfl⟩ := Crossing.made_with (fun e he => (hh.tied e he).lasts) hm
    subst hj
    exact Attribution.made_tied hk.sourced hh ha hk.passive hm
  cases hu with
  | encrypt hm => exact key hm (.encrypt (List.mem_singleton.2 rfl))
  | decrypt hm => exact key hm (.decrypt (List.mem_singleton.2 rfl))
  | store hm => exact key hm (.store (List.mem_singleton.2 rfl))

/-- C115 under the same conditions. -/
theorem C115_partial (own : Jid) (x : XEdDSA) (cs : List (Mgr × Call)) (s : Use) (peer : Session → Bytes) (M : Mgr) (msg : Message) (t : List Ev) (p : Option Bytes)
    (dev : DeviceInfo) (km : PlainKM) (w' : World) (h : Story own x cs s) (hM : M ∈ s.mgrs) (hd : ViaApi M ∧ MildDecisions M) (he : Exec (decrypt M msg) t (.ok (p, dev, km)))
    (hr : Lib.Runs s.world t w') (hh : Honest peer w'.log) (hp : ∀ c ∈ cs, c.2 ≠ .purgeBareJid msg.bareJid)
    (ha : ∀ ns d b k z, (⟨.buildActive ns msg.bareJid d b k, .ok z⟩ : Ev) ∈ w'.log → HasKey w'.disk msg.bareJid d b.identityKey) (e : Ev) (hm : e ∈ t) (ekm : EncKM)
    (ss : Session) (hg : GaveKM msg.ns e ekm ss km) : peer ss = dev.identityKey := by
  have hk := Attribution.kept_story h hp
  have hlog := Lib.log_external hr
  have hrun : ∃ r, Exec (Call.run M (.decrypt msg)) t r := ⟨.ok (), exec_seq_ok.2 ⟨_, _, [], by simp, he, .ret _⟩⟩
  obtain ⟨r, hrun⟩ := hrun
  have hst : Step own x s (M, .decrypt msg) ⟨w', s.mgrs⟩ := .call M (.decrypt msg) hM (fun _ _ _ h => by cases h) hrun hr
  have hk' := Attribution.kept_step hst hd.1 hd.2 (by intro h; cases h) hk
  have hkey := (Attribution.decrypt_key he hr hk.typed).2 _ _ _ rfl
  obtain ⟨-, rest, bs, t1, l, -, -, hsend, -⟩ := C38_result M msg t p dev km he
  rw [hsend.bareJid, hsend.deviceId] at hkey
  refine Attribution.hasKey_inj (Attribution.made_tied hk'.sourced hh ha (fun ns d y k z hm => hk'.passive ns d y k z hm) (ns := msg.ns) ?_) hkey
  have hb : Guarded (Belongs M.ownJid M.ownDev (fun m => m = msg)) t :=
    Kn.exec (Belongs.kn_call (K := fun _ => True) (.decrypt msg) (fun _ h => by cases h; rfl) (Crossing.grd_plain (OneTime.MildDecisions.plain hd.2))) hrun
  obtain ⟨u, v, huv⟩ := List.append_of_mem hm
  have sub : ∀ e ∈ t.filter fun e => e.1.isExternal, e ∈ w'.log := fun e he => by rw [hlog]; exact List.mem_append_right _ he
  rcases hg with ⟨s0, rfl⟩ | ⟨j, d, y, rfl⟩
  · obtain ⟨_, _, rfl, -, -, hmade⟩ := hb u _ v huv
    exact .decrypt (Belongs.Made.mono sub (Attribution.made_external (Belongs.Made.mono (fun e he => by rw [huv]; simp [he]) hmade))) (sub _ (List.mem_filter.2 ⟨hm, rfl⟩))
  · obtain ⟨_, rfl, -, -, rfl, rfl⟩ := hb u _ v huv
    exact .passive (sub _ (List.mem_filter.2 ⟨hm, rfl⟩))

/-! ### Examples -/

namespace Attribution

/-- The session that is kept after what happened. -/
def kept (h : List Ev) (ns : Ns) (j : Jid) (d : DevId) : Option Session := h.foldl (Shelf ns j d).next none

/-- Backends keep the sessions and note the identity key of the other side; bundles have the identity key `ik`. -/
def noting (ik : UInt8) : World → (o : Op) → Except Exn o.Ret
  | w, .loadSession ns j d => .ok (kept w.log ns j d)
  | _, .downloadBundle ns j d => .ok ⟨ns, j, d, [ik], 0⟩
  | _, .buildActive ns j d b _ => .ok (⟨ns, j, d, .active, false, ⟨[1], 0⟩, none, 1, (b.identityKey.headD 0).toNat⟩, ⟨j, d, 0⟩)
  | _, .buildPassive ns j d x _ => .ok (⟨ns, j, d, .passive, true, x, some 1, 0, (x.identityKey.headD 0).toNat⟩, ⟨1⟩)
  | _, .decryptKM _ s _ => .ok (⟨1⟩, { s with confirmed := true })
  | _, .decryptPlaintext _ _ _ => .ok [5]
  | _, .evalTrust _ => .ok .trusted
  | _, .hidePreKey _ _ => .ok true
  | w, o => genuine w o

theorem noting_ok (ik : UInt8) (w : World) (o : Op) (e : Exn) (h : noting ik w o = .error e) : e.isInternal = false := by
  cases o <;> simp only [noting] at h <;> first
    | exact genuine_ok w _ e h
    | (cases h; done)

def world (ik : UInt8) : Friendly := ⟨noting ik, noting_ok ik⟩

def peer (s : Session) : Bytes := [UInt8.ofNat s.blob]

def tiedB (e : Ev) : Bool := Run.keepsB e && match e with
  | ⟨.buildActive _ _ _ b _, .ok (s, _)⟩ => decide (peer s = b.identityKey)
  | ⟨.buildPassive _ _ _ x _, .ok (s, _)⟩ => decide (peer s = x.identityKey)
  | ⟨.encryptKM _ s _, .ok (_, s')⟩ => decide (peer s' = peer s)
  | ⟨.decryptKM _ s _, .ok (_, s')⟩ => decide (peer s' = peer s)
  | _ => true

theorem tied_of {e : Ev} (h : tiedB e = true) : Tied peer e := by
  unfold tiedB at h
  simp only [Bool.and_eq_true] at h
  obtain ⟨h1, h2⟩ := h
  refine ⟨Run.keeps_of (h := [e]) (by simp [h1]) e (List.mem_singleton.2 rfl), ?_, ?_, ?_, ?_⟩ <;> intros <;> subst_vars <;> exact of_decide_eq_true h2

def keepsB (h : List Ev) : List Ev → Bool
  | [] => true
  | e :: t => (match e with
    | ⟨.loadSession ns j d, .ok o⟩ => decide (o = kept h ns j d)
    | _ => true) && keepsB (h ++ [e]) t

theorem shelf_of {t h : List Ev} (hb : keepsB h t = true) (ns : Ns) (j : Jid) (d : DevId) : (Shelf ns j d).Runs (kept h ns j d) t (kept (h ++ t) ns j d) := by
  induction t generalizing h with
  | nil => simp [Sem.Runs]
  | cons e t ih =>
    unfold keepsB at hb
    simp only [Bool.and_eq_true] at hb
    have hn : (Shelf ns j d).next (kept h ns j d) e = kept (h ++ [e]) ns j d := by simp [kept]
    refine ⟨?_, by rw [hn]; simpa using ih hb.2⟩
    have h1 := hb.1
    unfold Shelf
    dsimp only
    split
    · rintro ⟨rfl, rfl, rfl⟩
      exact of_decide_eq_true h1
    · trivial

theorem honest_of {h : List Ev} (h1 : h.all tiedB = true) (h2 : keepsB [] h = true) : Honest peer h :=
  ⟨fun e he => tied_of (List.all_eq_true.1 h1 e he), fun ns j d => ⟨_, by simpa [kept] using shelf_of h2 ns j d⟩⟩

/-- A message with a key exchange, and one without. -/
def hello : Message := ⟨"n", "a", 7, ⟨false, 1⟩, [(⟨"me", 1, 7⟩, some ⟨[7], 1⟩)]⟩
def more : Message := ⟨"n", "a", 7, ⟨false, 2⟩, [(⟨"me", 1, 8⟩, none)]⟩

/-- A first message was received. -/
def greeted : Use := (world 7).use Mgr.ex (.decrypt hello) ((world 7).use Mgr.ex (.updateDeviceList "n" "a" [(7, none)]) Use.started)

/-- The session was replaced by one with a bundle of another identity key. -/
def swapped : Use := (world 99).use Mgr.ex (.replaceSessions "a" 7) greeted

def last (s : Use) := (world 99).run (decrypt Mgr.ex more) s.world

/-- Purging the JID was interrupted before the backends were asked to purge it, and the device became known again. -/
def halfway : Use := (world 99).use Mgr.ex (.updateDeviceList "n" "a" [(7, none)]) ((world 99).useCut 9 Mgr.ex (.purgeBareJid "a") greeted)

/-- The JID was purged while the backend was not loaded. -/
def unloaded : Use := (world 99).use Mgr.ex (.updateDeviceList "n" "a" [(7, none)]) ((world 99).again Mgr.ex ["n", "o"] none
  ((world 99).use Mgr.ex (.purgeBareJid "a") ((world 99).again Mgr.ex ["o"] none greeted)))

theorem hasEx : Mgr.ex ∈ Use.started.mgrs := List.mem_singleton.2 rfl

theorem story {cs : List (Mgr × Call)} {s : Use} (h : Life "me" Mgr.ex.x Use.fresh cs s) (hc : ∀ c ∈ cs, c.1 = Mgr.ex) : Story "me" Mgr.ex.x cs s :=
  ⟨⟨Use.fresh, fresh_new, (fun _ _ h => by cases h), rfl, h⟩, fun c h => by rw [hc c h]; exact ⟨viaApi_ex, OneTime.mild_ex⟩⟩

theorem greeted_life : Life "me" Mgr.ex.x Use.fresh
    [(Mgr.ex, .create ["n", "o"] (some "pc") 5), (Mgr.ex, .updateDeviceList "n" "a" [(7, none)]), (Mgr.ex, .decrypt hello)] greeted :=
  (world 7).life ((world 7).life started_life (M := Mgr.ex) (c := .updateDeviceList "n" "a" [(7, none)]) hasEx (fun _ _ _ h => by cases h)) hasEx (fun _ _ _ h => by cases h)

theorem swapped_story : ∃ cs, Story "me" Mgr.ex.x cs swapped := ⟨_, story ((world 99).life greeted_life hasEx (fun _ _ _ h => by cases h)) (by simp)⟩

theorem halfway_story : ∃ cs, Story "me" Mgr.ex.x cs halfway :=
  ⟨_, story ((world 99).life ((world 99).lifeCut 9 greeted_life hasEx (fun _ _ _ h => by cases h)) hasEx (fun _ _ _ h => by cases h)) (by simp)⟩

theorem hasEx' {s : Use} {M : Mgr} {bs l} {F : Friendly} (h : Mgr.ex ∈ s.mgrs) : Mgr.ex ∈ (F.again M bs l s).mgrs := List.mem_append_left _ h

theorem unloaded_story : ∃ cs, Story "me" Mgr.ex.x cs unloaded :=
  ⟨_, story ((world 99).life ((world 99).lifeAgain ((world 99).life ((world 99).lifeAgain greeted_life (M := Mgr.ex) rfl rfl ["o"] none)
    (M := Mgr.ex) (c := .purgeBareJid "a") (hasEx' (s := greeted) hasEx) (fun _ _ _ h => by cases h)) (M := Mgr.ex) rfl rfl ["n", "o"] none)
    (M := Mgr.ex) (c := .updateDeviceList "n" "a" [(7, none)]) (hasEx' (hasEx' (s := greeted) hasEx)) (fun _ _ _ h => by cases h)) (by simp)⟩

/-- The sender was found with another identity key than that of the session. -/
def wrongB (s : Use) : Bool := match (last s).2.1 with
  | .ok (_, dev, km) => (last s).1.any fun e => match e with
    | ⟨.decryptKM "n" _ _, .ok (km', ss)⟩ => decide (km' = km) && decide (peer ss ≠ dev.identityKey)
    | _ => false
  | _ => false

def plainB (e : Ev) : Bool := match e with
  | ⟨.buildActive .., _⟩ => false
  | _ => true

theorem wrong {s : Use} (h : wrongB s = true) : ∃ p dev km e ekm ss, Exec (decrypt Mgr.ex more) (last s).1 (.ok (p, dev, km)) ∧ e ∈ (last s).1 ∧ GaveKM "n" e ekm ss km ∧
    peer ss ≠ dev.identityKey := by
  have he := (world 99).exec (decrypt Mgr.ex more) s.world
  change Exec _ (last s).1 (last s).2.1 at he
  unfold wrongB at h
  split at h
  · rename_i p dev km hr
    rw [hr] at he
    obtain ⟨e, hm, hx⟩ := List.any_eq_true.1 h
    split at hx
    · rename_i s0 k km' ss
      simp only [Bool.and_eq_true, decide_eq_true_eq] at hx
      obtain ⟨rfl, hx⟩ := hx
      exact ⟨p, dev, km', _, k, ss, he, hm, .inl ⟨s0, rfl⟩, hx⟩
    · cases hx
  · cases h

end Attribution

/-- C115 is false of the code: a session is replaced with the bundle of someone else, whose messages are then attributed to the device. -/
theorem C115_refuted : ¬ C115_Claim := by
  intro h
  obtain ⟨p, dev, km, e, ekm, ss, h1, h2, h3, h4⟩ := Attribution.wrong (s := Attribution.swapped) (by decide +kernel)
  obtain ⟨cs, hs⟩ := Attribution.swapped_story
  exact h4 (h _ _ _ _ _ _ _ _ _ _ _ _ _ _ _ hs Attribution.hasEx h1 ((Attribution.world 99).runs _ _)
    (Attribution.honest_of (by decide +kernel) (by decide +kernel)) h2 h3)

/-- The other ways in which it is violated, in which no session is ever built with a bundle: after purging a JID was interrupted, and after it was purged, completely, while the
backend was not loaded, old sessions are used for the device, which has become known with another identity key. -/
theorem C115_purge_refuted : ∀ s ∈ [Attribution.halfway, Attribution.unloaded], ∃ cs t p dev km w' e ekm ss, Story "me" Mgr.ex.x cs s ∧ Mgr.ex ∈ s.mgrs ∧
    Exec (decrypt Mgr.ex Attribution.more) t (.ok (p, dev, km)) ∧ Lib.Runs s.world t w' ∧ Honest Attribution.peer w'.log ∧ e ∈ t ∧ GaveKM "n" e ekm ss km ∧
    Attribution.peer ss ≠ dev.identityKey ∧ ∀ ns j d b k z, (⟨.buildActive ns j d b k, z⟩ : Ev) ∉ w'.log := by
  have none : ∀ {h : List Ev}, h.all Attribution.plainB = true → ∀ ns j d b k z, (⟨.buildActive ns j d b k, z⟩ : Ev) ∉ h := by
    intro h hh ns j d b k z hm
    cases List.all_eq_true.1 hh _ hm
  intro s hs
  simp only [List.mem_cons, List.not_mem_nil, or_false] at hs
  rcases hs with rfl | rfl
  · obtain ⟨p, dev, km, e, ekm, ss, h1, h2, h3, h4⟩ := Attribution.wrong (s := Attribution.halfway) (by decide +kernel)
    obtain ⟨cs, hs⟩ := Attribution.halfway_story
    exact ⟨_, _, p, dev, km, _, e, ekm, ss, hs, Attribution.hasEx, h1, (Attribution.world 99).runs _ _,
      Attribution.honest_of (by decide +kernel) (by decide +kernel), h2, h3, h4, none (by decide +kernel)⟩
  · obtain ⟨p, dev, km, e, ekm, ss, h1, h2, h3, h4⟩ := Attribution.wrong (s := Attribution.unloaded) (by decide +kernel)
    obtain ⟨cs, hs⟩ := Attribution.unloaded_story
    exact ⟨_, _, p, dev, km, _, e, ekm, ss, hs, Attribution.hasEx' (Attribution.hasEx' (s := Attribution.greeted) Attribution.hasEx), h1,
      (Attribution.world 99).runs _ _, Attribution.honest_of (by decide +kernel) (by decide +kernel), h2, h3, h4, none (by decide +kernel)⟩

namespace Attribution

/-- The session was replaced by one with a bundle of the device. -/
def renewed : Use := (world 7).use Mgr.ex (.replaceSessions "a" 7) greeted
def next := (world 7).run (decrypt Mgr.ex more) renewed.world

def activeB (e : Ev) : Bool := match e with
  | ⟨.buildActive _ j d b _, _⟩ => decide (j = "a" ∧ d = 7 ∧ b.identityKey = [7])
  | _ => true

def usesActiveB (e : Ev) : Bool := match e with
  | ⟨.decryptKM "n" s _, .ok (m, _)⟩ => decide (s.initiation = .active ∧ m = ⟨1⟩)
  | _ => false

def resultB : Bool := match next.2.1 with
  | .ok (_, dev, km) => decide (dev.identityKey = [7] ∧ km = ⟨1⟩)
  | _ => false

end Attribution

/-- The hypotheses of `C115_partial` are met: a session was built passively and replaced by one built actively, with which a message is decrypted. -/
theorem C115_example : ∃ cs s t p dev km w' e ekm ss, Story "me" Mgr.ex.x cs s ∧ Exec (decrypt Mgr.ex Attribution.more) t (.ok (p, dev, km)) ∧ Lib.Runs s.world t w' ∧
    Honest Attribution.peer w'.log ∧ (∀ c ∈ cs, c.2 ≠ .purgeBareJid "a") ∧
    (∀ ns d b k z, (⟨.buildActive ns "a" d b k, .ok z⟩ : Ev) ∈ w'.log → HasKey w'.disk "a" d b.identityKey) ∧
    (e ∈ t ∧ GaveKM "n" e ekm ss km ∧ ∃ ns b k z, (⟨.buildActive ns "a" 7 b k, .ok z⟩ : Ev) ∈ w'.log) ∧ Attribution.peer ss = dev.identityKey ∧ dev.identityKey = [7] := by
  open Attribution in
  have he : Exec (decrypt Mgr.ex more) next.1 next.2.1 := (world 7).exec _ _
  have hr : Lib.Runs renewed.world next.1 next.2.2 := (world 7).runs _ _
  have hh : Honest peer next.2.2.log := honest_of (by decide +kernel) (by decide +kernel)
  have hlife := (world 7).life greeted_life (M := Mgr.ex) (c := .replaceSessions "a" 7) hasEx (fun _ _ _ h => by cases h)
  have hs := story hlife (by simp)
  have hp : ∀ c ∈ [(Mgr.ex, Call.create ["n", "o"] (some "pc") 5), (Mgr.ex, .updateDeviceList "n" "a" [(7, none)]), (Mgr.ex, .decrypt hello)] ++ [(Mgr.ex, .replaceSessions "a" 7)],
      c.2 ≠ .purgeBareJid "a" := by simp
  have ha : ∀ ns d b k z, (⟨.buildActive ns "a" d b k, .ok z⟩ : Ev) ∈ next.2.2.log → HasKey next.2.2.disk "a" d b.identityKey := by
    intro ns d b k z hm
    have := List.all_eq_true.1 (show next.2.2.log.all activeB = true by decide +kernel) _ hm
    obtain ⟨-, rfl, h3⟩ := of_decide_eq_true this
    rw [h3]
    with_unfolding_all rfl
  obtain ⟨e, hm, hx⟩ := List.any_eq_true.1 (show next.1.any usesActiveB = true by decide +kernel)
  obtain ⟨e', hm', hx'⟩ := List.any_eq_true.1 (show (next.2.2.log.any fun e => match e with | ⟨.buildActive _ j d _ _, .ok _⟩ => decide (j = "a" ∧ d = 7) | _ => false) = true by decide +kernel)
  have hres : resultB = true := by decide +kernel
  unfold resultB at hres
  split at hres
  · rename_i p dev km hr'
    rw [hr'] at he
    obtain ⟨hd, rfl⟩ := of_decide_eq_true hres
    unfold usesActiveB at hx
    split at hx
    · rename_i s k m ss
      obtain ⟨-, rfl⟩ := of_decide_eq_true hx
      split at hx'
      · rename_i b k' z
        obtain ⟨rfl, rfl⟩ := of_decide_eq_true hx'
        refine ⟨_, _, _, p, dev, _, _, _, k, ss, hs, he, hr, hh, hp, ha, ⟨hm, .inl ⟨s, rfl⟩, _, b, k', z, hm'⟩, ?_, hd⟩
        exact C115_partial "me" Mgr.ex.x _ _ peer Mgr.ex more _ p dev _ _ hs hasEx ⟨viaApi_ex, OneTime.mild_ex⟩ he hr hh hp ha _ hm k ss (.inl ⟨s, rfl⟩)
      · cases hx'
    · cases hx
  · cases hres

end Verif
