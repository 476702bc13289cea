import Verif.Props.Attribution
import Verif.Props.Current
import Verif.Props.TrustKept
/-
C121: a trust level that was set takes effect in all encryptions and decryptions afterwards.
-/
namespace Verif
open SM Spec

namespace Spec

/-- In `t`, the application does not answer `a` when asked about device `d` of `j` with this trust level. -/
def NeverAnswers (j : Jid) (d : DevId) (level : String) (bad : TrustLevel → Prop) (t : List Ev) : Prop :=
  ∀ dev a, dev.bareJid = j → dev.deviceId = d → dev.trustLevelName = level → (⟨.evalTrust dev, .ok a⟩ : Ev) ∈ t → ¬ bad a

end Spec

namespace Distrust
variable {M : Mgr} {j : Jid} {d : DevId} {ik : Bytes} {level : String}

/-- If it is this device, it has this identity key. -/
def P (j : Jid) (d : DevId) (ik : Bytes) (dev : DeviceInfo) : Prop := dev.bareJid = j → dev.deviceId = d → dev.identityKey = ik

/-- Only devices with the identity key are evaluated. -/
def Asks (j : Jid) (d : DevId) (ik : Bytes) (o : Op) : Prop := ∀ dev, o = .evalTrust dev → P j d ik dev

theorem asks_quiet {o : Op} (h : Curr.quiet o = true) : Asks j d ik o := by rintro dev rfl; cases h

/-- Sequential composition. -/
theorem bind {α β : Type} {p : Prog LibSig Exn α} {f : α → Prog LibSig Exn β} {φ : Op → Prop} {t r} (he : Exec (p >>= f) t r) (h1 : ∀ t1 r1, Exec p t1 r1 → ∀ e ∈ t1, φ e.1)
    (h2 : ∀ t1 a t2, Exec p t1 (.ok a) → Exec (f a) t2 r → ∀ e ∈ t2, φ e.1) : ∀ e ∈ t, φ e.1 := by
  rcases exec_seq.1 he with ⟨t1, a, t2, rfl, e1, e2⟩ | ⟨e, e1, _⟩ | ⟨e1, _⟩
  · intro e hm
    rcases List.mem_append.1 hm with hm | hm
    · exact h1 _ _ e1 e hm
    · exact h2 _ _ _ e1 e2 e hm
  · exact h1 _ _ e1
  · exact h1 _ _ e1

/-- The same with the states passed through. -/
theorem bindW {α β : Type} {p : Prog LibSig Exn α} {f : α → Prog LibSig Exn β} {φ : Op → Prop} {w w' : World} {t r} (he : Exec (p >>= f) t r) (hr : Lib.Runs w t w')
    (h1 : ∀ t1 r1 w1, Exec p t1 r1 → Lib.Runs w t1 w1 → ∀ e ∈ t1, φ e.1)
    (h2 : ∀ t1 a w1 t2, Exec p t1 (.ok a) → Lib.Runs w t1 w1 → Exec (f a) t2 r → Lib.Runs w1 t2 w' → ∀ e ∈ t2, φ e.1) : ∀ e ∈ t, φ e.1 := by
  rcases exec_seq.1 he with ⟨t1, a, t2, rfl, e1, e2⟩ | ⟨e, e1, _⟩ | ⟨e1, _⟩
  · obtain ⟨w1, hr1, hr2⟩ := Sem.runs_append.1 hr
    intro e hm
    rcases List.mem_append.1 hm with hm | hm
    · exact h1 _ _ _ e1 hr1 e hm
    · exact h2 _ _ _ _ e1 hr1 e2 hr2 e hm
  · exact h1 _ _ _ e1 hr
  · exact h1 _ _ _ e1 hr

theorem backends_disk {t : List Ev} {r} (he : Exec (call .getBackends) t r) {w w' : World} (hr : Lib.Runs w t w') : w'.disk = w.disk := by
  rcases exec_call.1 he with ⟨rfl, _⟩ | ⟨e, rfl, _⟩ | ⟨a, rfl, _⟩
  · cases hr; rfl
  · obtain ⟨_, h⟩ := hr; cases h; rfl
  · obtain ⟨_, h⟩ := hr; cases h; rfl

theorem infos {jids : List Jid} {t : List Ev} {tmp} (he : Exec (Prog.mapAll jids (getDeviceInformation' M)) t (.ok tmp)) {w w' : World} (hr : Lib.Runs w t w')
    (ht : Typed w.disk) (hk : HasKey w.disk j d ik) : ∀ y ∈ tmp, ∀ dev ∈ y.1, P j d ik dev := by
  induction jids generalizing t w tmp with
  | nil => obtain ⟨rfl, h⟩ := exec_mapAll_nil.1 he; cases h; simp
  | cons jid jids ih =>
    obtain ⟨t1, x, t2, xs, rfl, rfl, h1, h2⟩ := exec_mapAll_cons_ok.1 he
    obtain ⟨w1, hr1, hr2⟩ := Sem.runs_append.1 hr
    have ht1 : Typed w1.disk := Attribution.typed_of (Attribution.typed_writing (ops_getDeviceInformation' M jid) fun _ => info_writes) h1 hr1 ht
    have hk1 : Pinned.KeyAt j d ik w1 := (Pinned.parts.info jid).run h1 hr1 hk
    intro y hy dev hd
    rcases List.mem_cons.1 hy with rfl | hy
    · have h5 := describes_info' h1 hr1 dev hd
      rintro rfl rfl
      have h6 := Attribution.hasKey_of ht1 h5.key
      rw [← h5.bareJid] at h6
      exact Attribution.hasKey_inj h6 hk1
    · exact ih h2 hr2 ht1 hk1 y hy dev hd

theorem recipients {order : List Ns} {jids : List Jid} {t : List Ev} {x : List DeviceInfo × List Bundle}
    (he : Exec (recipientDevices M order jids) t (.ok x)) {w w' : World} (hr : Lib.Runs w t w') (ht : Typed w.disk) (hk : HasKey w.disk j d ik) :
    ∀ dev ∈ x.1, P j d ik dev := by
  unfold recipientDevices at he
  obtain ⟨t1, tmp, t', rfl, h1, he⟩ := exec_seq_ok.1 he
  obtain ⟨w1, hr1, hr'⟩ := Sem.runs_append.1 hr
  have hlev := infos h1 hr1 ht hk
  obtain ⟨t2, ds, t'', rfl, h2, he2⟩ := exec_seq_ok.1 he
  obtain ⟨t3, ys, t4, rfl, h3, he3⟩ := exec_seq_ok.1 he2
  obtain ⟨rfl, he4⟩ := exec_pure.1 he3
  cases he4
  intro dev hd
  dsimp only at hd
  rw [List.mem_filter, mem_dedup] at hd
  obtain ⟨src, hs, t5, h5⟩ := exec_mapAll_mem h3 dev hd.1
  have hs' := exec_filterAll_mem h2 src (by simpa using hs)
  simp only [SetOrder.mem_iter, mem_dedup, List.mem_flatten, List.mem_map] at hs'
  obtain ⟨_, ⟨y, hy, rfl⟩, hsy⟩ := hs'
  have hl := hlev y hy src hsy
  have : ∃ nss, dev = { src with namespaces := nss } := by
    unfold applyPriority at h5
    cases ha : activeNamespaces src with
    | error e => rw [ha] at h5; cases h5
    | ok a => rw [ha] at h5; cases h5; exact ⟨_, rfl⟩
  obtain ⟨nss, rfl⟩ := this
  exact hl

theorem ops_evals {l : TrustLevel} {ds : List DeviceInfo} (h : ∀ dev ∈ ds, P j d ik dev) : AllOps (Asks j d ik) (devicesWithTrust l ds) :=
  .filterAll fun dev hd => .bind (.perform fun dev' he => by cases he; exact h dev hd) fun _ => trivial

theorem reloaded {ds ys : List DeviceInfo} {t : List Ev} (he : Exec (Prog.mapAll ds (reloadTrust M)) t (.ok ys)) (h : ∀ dev ∈ ds, P j d ik dev) :
    ∀ y ∈ ys, P j d ik y := by
  intro y hy
  obtain ⟨x, hx, t', hx'⟩ := exec_mapAll_mem he y hy
  unfold reloadTrust at hx'
  obtain ⟨t1, v, t2, rfl, _, h2⟩ := exec_seq_ok.1 hx'
  cases h2
  exact h x hx

theorem ops_ask (hd : CallbackQuiet M.decide) {devices und : List DeviceInfo} {i : Option String} {t : List Ev} {r}
    (he : Exec (askTrust M devices und i) t r) (h : ∀ dev ∈ devices, P j d ik dev) :
    (∀ e ∈ t, Asks j d ik e.1) ∧ ∀ out, r = .ok out → ∀ dev ∈ out, P j d ik dev := by
  unfold askTrust at he
  split at he
  · refine ⟨?_, ?_⟩
    · refine bind he (fun t r e1 e hm dev hdev => ((hd _ _ _ _ e1 e hm).2 dev hdev).elim) fun _ _ t2 _ e2 => ?_
      exact bind e2 (fun t r e3 => ((Curr.ops_reload _).mono fun _ => asks_quiet).exec e3) fun _ _ t4 _ e4 => by
        obtain ⟨rfl, _⟩ := exec_pure.1 e4
        simp
    · rintro out rfl dev hdev
      obtain ⟨t2, _, t3, rfl, e2, e3⟩ := exec_seq_ok.1 he
      obtain ⟨t4, ys, t5, rfl, e4, e5⟩ := exec_seq_ok.1 e3
      obtain ⟨rfl, h'⟩ := exec_pure.1 e5
      cases h'
      exact reloaded e4 (fun x hx => h x (by simpa using hx)) dev (by simpa using hdev)
  · obtain ⟨rfl, h'⟩ := exec_pure.1 he
    cases h'
    refine ⟨by simp, fun out ho => ?_⟩
    cases ho
    exact h

theorem ops_decide (hd : CallbackQuiet M.decide) {devices : List DeviceInfo} {i : Option String} {t : List Ev} {r}
    (he : Exec (decideTrust M devices i) t r) (h : ∀ dev ∈ devices, P j d ik dev) :
    (∀ e ∈ t, Asks j d ik e.1) ∧ ∀ out, r = .ok out → ∀ dev ∈ out, P j d ik dev := by
  have hi : ∀ {ds : List DeviceInfo}, (∀ dev ∈ ds, P j d ik dev) → ∀ dev ∈ M.O.iter ds, P j d ik dev := fun h dev hd => h dev (by simpa using hd)
  unfold decideTrust at he
  refine ⟨bind he (fun _ _ e1 => (ops_evals (hi h)).exec e1) fun _ und t2 _ e2 => bind e2 (fun _ _ e3 => (ops_ask hd e3 h).1) fun _ out t4 e3 e4 =>
    bind e4 (fun _ _ e5 => (ops_evals (hi ((ops_ask hd e3 h).2 out rfl))).exec e5) fun _ _ t6 _ e6 => ?_, ?_⟩
  · split at e6
    · cases e6; simp
    · obtain ⟨rfl, _⟩ := exec_pure.1 e6; simp
  · rintro out rfl
    obtain ⟨t1, und, t', rfl, e1, e2⟩ := exec_seq_ok.1 he
    obtain ⟨t2, out', t3, rfl, e3, e4⟩ := exec_seq_ok.1 e2
    obtain ⟨t4, st, t5, rfl, e5, e6⟩ := exec_seq_ok.1 e4
    split at e6
    · cases e6
    · obtain ⟨rfl, h'⟩ := exec_pure.1 e6
      cases h'
      exact (ops_ask hd e3 h).2 _ rfl

/-- `encrypt` evaluates the trust in the device with its identity key only. -/
theorem asks_encrypt (hd : CallbackQuiet M.decide) {jids : List Jid} {pt : Dict Ns Bytes} {prio : Option (List Ns)} {i : Option String} {t : List Ev} {r}
    (he : Exec (encrypt M jids pt prio i) t r) {w w' : World} (hr : Lib.Runs w t w') (ht : Typed w.disk) (hk : HasKey w.disk j d ik) :
    ∀ e ∈ t, Asks j d ik e.1 := by
  unfold encrypt at he
  refine bindW he hr (fun t1 r1 _ e1 _ => AllOps.exec (.perform (asks_quiet rfl)) e1) fun t1 bs w1 t2 e1 hr1 e2 hr2 => ?_
  have hw1 := backends_disk e1 hr1
  refine bindW e2 hr2 (fun t3 r3 _ e3 _ => AllOps.exec (by unfold liftE; split <;> trivial) e3) fun t3 order w3 t4 e3 hr3 e4 hr4 => ?_
  have h3 : t3 = [] := Decide.runs_pure (by unfold liftE; split <;> trivial) e3
  subst h3
  cases hr3
  rw [← hw1] at ht hk
  refine bindW e4 hr4 (fun _ _ _ e _ => ((Curr.ops_recipients _ _).mono fun _ => asks_quiet).exec e) fun t5 x w5 t6 e5 hr5 e6 hr6 => ?_
  have hx := recipients e5 hr5 ht hk
  refine bind e6 (fun _ _ e => (ops_decide hd e hx).1) fun t7 ds t8 e7 e8 => ?_
  have hx' := (ops_decide hd e7 hx).2 ds rfl
  unfold encryptTrusted at e8
  refine bind e8 (fun _ _ e => (ops_evals fun d hd => hx' d (by simpa using hd)).exec e) fun _ _ _ _ e9 => ?_
  refine AllOps.exec (φ := Asks j d ik) ?_ e9
  refine AllOps.mono (φ := fun o : Op => Curr.quiet o = true) ?_ fun _ => asks_quiet
  have := Curr.ops_backend (M := M) x.2 pt
  lib_ops [this]

theorem sender_keeps {msg : Message} : Pres Lib (Pinned.KeyAt j d ik) (findSender M msg) := by
  have h : Parts (Pinned.KeyAt j d ik) M := Pinned.parts
  unfold findSender
  parts_tac h [h.getDeviceInformation, h.refreshDeviceList]

/-- The same for `decrypt`. -/
theorem asks_decrypt {msg : Message} {t : List Ev} {r}
    (he : Exec (decrypt M msg) t r) {w w' : World} (hr : Lib.Runs w t w') (ht : Typed w.disk) (hk : HasKey w.disk j d ik) :
    ∀ e ∈ t, Asks j d ik e.1 := by
  unfold decrypt at he
  refine bindW he hr (fun t1 r1 _ e1 _ => AllOps.exec (.perform (asks_quiet rfl)) e1) fun t1 bs w1 t2 e1 hr1 e2 hr2 => ?_
  have hw1 := backends_disk e1 hr1
  rw [← hw1] at ht hk
  split at e2
  · cases e2; simp
  · split at e2
    · cases e2; simp
    · rename_i ekm kex _
      refine bindW e2 hr2 (fun _ _ _ e _ => AllOps.exec (φ := Asks j d ik) (ops_findSender.mono fun o h => by rintro dev rfl; cases h) e)
        fun t3 dev w3 t4 e3 hr3 e4 hr4 => ?_
      have hl : P j d ik dev := by
        rintro rfl rfl
        exact Attribution.hasKey_inj (Attribution.sender_key e3 hr3 ht) (sender_keeps.run e3 hr3 hk)
      refine bind e4 (fun t5 r5 e5 => ?_) fun _ _ _ _ e6 => AllOps.exec ?_ e6
      · unfold decryptContent at e5
        refine bind e5 (fun t6 r6 e6 => AllOps.exec (.perform fun dev' h => by cases h; exact hl) e6) fun _ _ _ _ e7 => AllOps.exec ?_ e7
        refine AllOps.mono (φ := fun o : Op => Curr.quiet o = true) ?_ fun _ => asks_quiet
        unfold keyMaterial decryptKeyMaterial handleKeyExchange plaintextOf
        lib_ops []
      · exact .bind (ops_postDecrypt.mono fun o h => asks_quiet (by cases o <;> first | rfl | (cases kex <;> cases h))) fun _ => trivial

/-- Whoever is asked about is asked about with the level that is stored. -/
theorem level_at {α : Type} {p : Prog LibSig Exn α} {t : List Ev} {r} {w w' : World} (he : Exec p t r) (hr : Lib.Runs w t w')
    (hk : Pres Lib (TrustKept.At j ik fun v => v = some (.str level)) p) (hl : w.disk (.trust j ik) = some (.str level)) (hc : EvalsCurrent M.undecided w t)
    {dev : DeviceInfo} {a} (hm : (⟨.evalTrust dev, a⟩ : Ev) ∈ t) (hj : dev.bareJid = j) (hi : dev.identityKey = ik) : dev.trustLevelName = level := by
  obtain ⟨h1, h2, rfl⟩ := List.append_of_mem hm
  obtain ⟨w1, hr1, _⟩ := Lib.runs_split hr
  have h3 : w1.disk (.trust j ik) = some (.str level) := hk.run (exec_prefix he (by simp)) hr1 hl
  have h4 := hc h1 dev a h2 rfl w1 hr1
  subst hj hi
  unfold UpToDate at h4
  rw [h3] at h4
  rcases h4 with h4 | ⟨h4, _⟩
  · cases h4; rfl
  · cases h4

theorem typed_life {own : Jid} {x : XEdDSA} {s s' : Use} {cs : List (Mgr × Call)} (h : Life own x s cs s') (happ : ∀ c ∈ cs, ViaApi c.1)
    (ht : Typed s.world.disk) : Typed s'.world.disk := by
  induction h with
  | nil => exact ht
  | cons hst _ ih =>
    refine ih (fun c hc => happ c (.tail _ hc)) ?_
    have ha := happ _ (.head _)
    cases hst with
    | ikp M he hr => exact (Intact.typed_call ha .getIdentityKeyPair).run he hr ht
    | @create w' t r M bs label fuel _ _ he hr =>
      have h : ∃ r', Exec ((Call.create bs label fuel).run M) t r' := by
        cases r with
        | ok d => exact ⟨_, exec_bind_iff.2 (.inl ⟨t, d, [], by simp, he, .ret ()⟩)⟩
        | raised e => exact ⟨_, exec_bind_iff.2 (.inr (.inl ⟨e, he, rfl⟩))⟩
        | crashed => exact ⟨_, exec_bind_iff.2 (.inr (.inr ⟨he, rfl⟩))⟩
      obtain ⟨r', h⟩ := h
      exact (Intact.typed_call ha _).run h hr ht
    | call M c hM hc he hr => exact (Intact.typed_call ha c).run he hr ht

end Distrust

/-! ### C121 -/

/-- C121, one encryption: if `level` is stored for the identity key of a device, and the application does not evaluate this level of the device as trusted,
the device is given no key. -/
theorem C121_encrypt (M : Mgr) (jids : List Jid) (pt : Dict Ns Bytes) (prio : Option (List Ns)) (i : Option String) (t : List Ev) (w w' : World)
    (r : Res Exn (Dict Message PlainKM × List EncError)) (hdec : CallbackQuiet M.decide) (he : Exec (encrypt M jids pt prio i) t r) (hr : Lib.Runs w t w')
    (hb : BackendsOnce t) (j : Jid) (d : DevId) (ik : Bytes) (level : String) (ht : Typed w.disk) (hk : HasKey w.disk j d ik)
    (hl : w.disk (.trust j ik) = some (.str level)) (hkeep : LeavesTrust M j ik) (hn : NeverAnswers j d level (· = .trusted) t) :
    Guarded (fun h e => ∀ ns m, ¬ HandsOut h e ns j d m) t := by
  intro h1 e h2 htt ns m hm
  have hh : Op.handsOut e.1 = true := by rcases hm with ⟨b, h⟩ | ⟨s, h, _⟩ <;> rw [h] <;> rfl
  obtain ⟨dev, ns', m', hd, u, v, hlast, _⟩ := C27_only_trusted M jids pt prio i t r hdec he hb h1 e h2 htt hh
  obtain ⟨_, rfl, rfl, _⟩ := HandsOut.unique hm hd
  have hmem : (⟨.evalTrust dev, .ok .trusted⟩ : Ev) ∈ t := by rw [htt, hlast]; simp
  have hi := Distrust.asks_encrypt hdec he hr ht hk _ hmem dev rfl rfl rfl
  have hlev := Distrust.level_at he hr (TrustKept.parts.encrypt (fun ds i => (TrustKept.keep
    (φ := fun o => o ≠ .delete (.trust dev.bareJid ik) ∧ ∀ v, o ≠ .store (.trust dev.bareJid ik) v) (fun v h => h.2 v rfl) fun h => h.1 rfl).pres (hkeep ds i)) jids pt prio i)
    hl (C98_encrypt M hdec jids pt prio i t r w w' he hr) hmem rfl hi
  exact hn dev .trusted rfl rfl hlev hmem rfl

/-- C121, one decryption: if `level` is stored for the identity key of the sending device, and the application evaluates this level of the device as distrusted,
no session is loaded, built or used, nothing is changed, and nothing is returned. -/
theorem C121_decrypt (M : Mgr) (msg : Message) (t : List Ev) (w w' : World) (r : Res Exn (Option Bytes × DeviceInfo × PlainKM))
    (he : Exec (decrypt M msg) t r) (hr : Lib.Runs w t w') (ik : Bytes) (level : String) (ht : Typed w.disk) (hk : HasKey w.disk msg.bareJid msg.deviceId ik)
    (hl : w.disk (.trust msg.bareJid ik) = some (.str level)) (hn : NeverAnswers msg.bareJid msg.deviceId level (· ≠ .distrusted) t) :
    (∀ e ∈ t, Op.recovers e.1 = false ∧ Op.lasting e.1 = false) ∧ ∀ x, r ≠ .ok x := by
  have no : ∀ {dev rest}, ¬ Gated M msg t dev rest := by
    rintro dev rest ⟨bs, t1, l, htt, _, hks, hld, _⟩
    have hmem : (⟨.evalTrust dev, .ok l⟩ : Ev) ∈ t := by rw [htt]; simp
    have hj := hks.bareJid
    have hd := hks.deviceId
    have hi := Distrust.asks_decrypt he hr ht hk _ hmem dev rfl hj hd
    exact hn dev l hj hd (Distrust.level_at he hr (TrustKept.parts.decrypt msg) hl (C98_decrypt M msg t r w w' he hr) hmem hj hi) hmem hld
  refine ⟨fun e hm => ?_, fun x hx => ?_⟩
  · cases h1 : Op.recovers e.1 with
    | true => obtain ⟨_, dev, rest, hg, _⟩ := C38_gated M msg t r he e hm (.inl h1); exact (no hg).elim
    | false =>
      cases h2 : Op.lasting e.1 with
      | true => obtain ⟨_, dev, rest, hg, _⟩ := C38_gated M msg t r he e hm (.inr h2); exact (no hg).elim
      | false => exact ⟨rfl, rfl⟩
  · subst hx
    obtain ⟨p, dev, km⟩ := x
    obtain ⟨_, rest, hg⟩ := C38_result M msg t p dev km he
    exact no hg

/-- C121: after `set_trust` for the identity key under which a device is known, and until trust is set again for this key or the JID is purged, a level that the
application never evaluates as trusted keeps the device from being given keys, and one that it always evaluates as distrusted keeps its messages from being
decrypted, whatever happened in between. -/
theorem C121 (own : Jid) (x : XEdDSA) (s0 s s' : Use) (cs cs' : List (Mgr × Call)) (j : Jid) (d : DevId) (ik : Bytes) (level : String) (hnew : New s0)
    (ht : Typed s0.world.disk) (h : Life own x s0 cs s) (M : Mgr) (hM : M ∈ s.mgrs) (t : List Ev) (w1 : World)
    (he : Exec ((Call.setTrust j ik level).run M) t (.ok ())) (hr : Lib.Runs s.world t w1)
    (h' : Life own x ⟨w1, s.mgrs⟩ cs' s') (happ : ∀ c ∈ cs ++ (M, .setTrust j ik level) :: cs', ViaApi c.1)
    (hl : ∀ c ∈ cs', LeavesTrust c.1 j ik) (hp : ∀ c ∈ cs', c.2 ≠ .purgeBareJid j) (hs : ∀ c ∈ cs', ∀ l, c.2 ≠ .setTrust j ik l)
    (hk : HasKey s.world.disk j d ik) :
    (∀ (M' : Mgr) (jids : List Jid) (pt : Dict Ns Bytes) (prio : Option (List Ns)) (i : Option String) (t' : List Ev) (w' : World) r,
      CallbackQuiet M'.decide → LeavesTrust M' j ik → Exec (encrypt M' jids pt prio i) t' r → Lib.Runs s'.world t' w' → BackendsOnce t' →
      NeverAnswers j d level (· = .trusted) t' → Guarded (fun h e => ∀ ns m, ¬ HandsOut h e ns j d m) t') ∧
    (∀ (M' : Mgr) (msg : Message) (t' : List Ev) (w' : World) r, msg.bareJid = j → msg.deviceId = d → Exec (decrypt M' msg) t' r → Lib.Runs s'.world t' w' →
      NeverAnswers j d level (· ≠ .distrusted) t' → (∀ e ∈ t', Op.recovers e.1 = false ∧ Op.lasting e.1 = false) ∧ ∀ x, r ≠ .ok x) := by
  have hst : Step own x s (M, .setTrust j ik level) ⟨w1, s.mgrs⟩ := .call M _ hM nofun he hr
  have hlife : Life own x s0 (cs ++ [(M, .setTrust j ik level)]) ⟨w1, s.mgrs⟩ := h.snoc hst
  have h1 := C25_kept own x s0 ⟨w1, s.mgrs⟩ s' _ cs' j ik hnew hlife (by rintro hn; rw [show s.mgrs = [] from hn] at hM; cases hM) h'
    (by simpa using happ) hl hp hs
  rw [show (Use.world ⟨w1, s.mgrs⟩).disk (.trust j ik) = _ from (C25_frame M j ik level t _ _ _ he hr).2.2 rfl] at h1
  have hk' : HasKey s'.world.disk j d ik := C19 own x s0 s s' cs _ j d ik hnew h (.cons hst h') happ
    (fun c hc => (List.mem_cons.1 hc).elim (fun h => by subst h; nofun) (hp c)) hk
  have ht' : Typed s'.world.disk := Distrust.typed_life h' (fun c hc => happ c (by simp [hc])) (Distrust.typed_life hlife (fun c hc => happ c (by
    simp only [List.mem_append, List.mem_cons, List.not_mem_nil, or_false] at hc ⊢
    rcases hc with hc | hc
    · exact .inl hc
    · exact .inr (.inl hc))) ht)
  refine ⟨?_, ?_⟩
  · intro M' jids pt prio i t' w' r hq hlt he' hr' hb hn
    exact C121_encrypt M' jids pt prio i t' _ _ r hq he' hr' hb j d ik level ht' hk' h1 hlt hn
  · rintro M' msg t' w' r rfl rfl he' hr' hn
    exact C121_decrypt M' msg t' _ _ r he' hr' ik level ht' hk' h1 hn

/-! ### Example -/

/-- The level "distrusted" is evaluated as distrusted, all others as trusted. -/
def leveled (w : World) (o : Op) : Except Exn o.Ret := match o with
  | .evalTrust dev => .ok (if dev.trustLevelName = "distrusted" then .distrusted else .trusted)
  | o => trustful w o

theorem leveled_ok (w : World) (o : Op) (e : Exn) (h : leveled w o = .error e) : e.isInternal = false := by
  cases o <;> simp only [leveled] at h <;> first | exact trustful_ok w _ e h | (cases h; done)

def Friendly.leveled : Friendly := ⟨Verif.leveled, leveled_ok⟩

/-- Device 7 of "a" is distrusted; then device 8 appears, and both are found to support "o". -/
def Use.shunned : Use := Friendly.leveled.use Mgr.ex (.setTrust "a" [7] "distrusted") Use.met
def Use.shunned2 : Use := Friendly.leveled.use Mgr.ex (.updateDeviceList "o" "a" [(7, none), (8, none)]) Use.shunned

def shunnedRun := Friendly.leveled.run (encrypt Mgr.ex ["a"] [("n", [1]), ("o", [1])] none none) Use.shunned2.world
def shunnedMsg : Message := ⟨"n", "a", 7, ⟨false, 1⟩, [(⟨"me", 1, 0⟩, none)]⟩
def shunnedRun2 := Friendly.leveled.run (decrypt Mgr.ex shunnedMsg) Use.shunned2.world

/-- The hypotheses of `C121` are met: device 8 is given a key, device 7 is not, and a message from device 7 is rejected as it is distrusted. -/
theorem C121_example : Guarded (fun h e => ∀ ns m, ¬ HandsOut h e ns "a" 7 m) shunnedRun.1 ∧
    shunnedRun.1.any (fun e => match e.1 with | .encryptKM _ s _ => decide (s.deviceId = 8) | _ => false) = true ∧
    ((∀ e ∈ shunnedRun2.1, Op.recovers e.1 = false ∧ Op.lasting e.1 = false) ∧ ∀ x, shunnedRun2.2.1 ≠ .ok x) ∧
    shunnedRun2.2.1 = .raised .senderDistrusted := by
  have hr1 : (Friendly.leveled.run ((Call.setTrust "a" [7] "distrusted").run Mgr.ex) Use.met.world).2.1 = .ok () := by decide +kernel
  have he1 := hr1 ▸ Friendly.leveled.exec ((Call.setTrust "a" [7] "distrusted").run Mgr.ex) Use.met.world
  have h := Friendly.leveled.life (.nil Use.shunned) (own := "me") (x := Mgr.ex.x) (M := Mgr.ex) (c := .updateDeviceList "o" "a" [(7, none), (8, none)])
    (by simp [Use.shunned, Use.met, Friendly.use, Use.started]) nofun
  have hset : shunnedRun.1.all (fun e => match e.1 with | .setBackends _ => false | _ => true) = true := by decide +kernel
  have hev : ((shunnedRun.1 ++ shunnedRun2.1).all fun e => match e with
    | ⟨.evalTrust dev, .ok a⟩ => decide (dev.trustLevelName = "distrusted" → a = .distrusted) | _ => true) = true := by decide +kernel
  have hev' : ∀ dev a, dev.trustLevelName = "distrusted" → (⟨.evalTrust dev, .ok a⟩ : Ev) ∈ shunnedRun.1 ++ shunnedRun2.1 → a = .distrusted := by
    intro dev a hl hm
    have := List.all_eq_true.1 hev _ hm
    simpa using (of_decide_eq_true this) hl
  have hb : Use.shunned2.world.backends = ["n", "o"] := by decide +kernel
  have hk : HasKey Use.met.world.disk "a" 7 [7] := rfl
  obtain ⟨h1, h2⟩ := C121 "me" Mgr.ex.x _ _ Use.shunned2 _ _ "a" 7 [7] "distrusted" fresh_new nofun met_life Mgr.ex
    (by simp [Use.met, Friendly.use, Use.started]) _ _ he1 (Friendly.leveled.runs _ _) h (by simp [ViaApi] <;> exact fun _ _ => .ret ()) (by simp [leaves_ex])
    (by simp) (by simp) hk
  refine ⟨?_, by decide +kernel, ?_, by decide +kernel⟩
  · refine h1 Mgr.ex _ _ _ _ _ _ _ Mgr.ex_quiet (leaves_ex _ _) (Friendly.leveled.exec _ _) (Friendly.leveled.runs _ _) ?_ ?_
    · intro bs hbs
      rw [lib_backends (Friendly.leveled.runs _ _) ?_ bs hbs, hb]
      · decide
      · intro e he bs hbs
        have := List.all_eq_true.1 hset e he
        rw [hbs] at this
        cases this
    · intro dev a _ _ hl hm ha
      have := hev' dev a hl (List.mem_append_left _ hm)
      rw [ha] at this
      cases this
  · exact h2 Mgr.ex shunnedMsg _ _ _ rfl rfl (Friendly.leveled.exec _ _) (Friendly.leveled.runs _ _)
      fun dev a _ _ hl hm ha => ha (hev' dev a hl (List.mem_append_right _ hm))

end Verif
