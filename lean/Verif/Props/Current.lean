import Verif.Props.Reference
import Verif.Proofs.DecryptTrace
/-
Trust is evaluated on current trust levels (C98).
-/
namespace Verif
open SM Spec

/-- The custom trust level in `dev` is the one stored in `m` for its identity key, or the initial one if none is stored. -/
def Spec.UpToDate (u : String) (m : Disk) (dev : DeviceInfo) : Prop :=
  m (.trust dev.bareJid dev.identityKey) = some (.str dev.trustLevelName) ∨
    (m (.trust dev.bareJid dev.identityKey) = none ∧ dev.trustLevelName = u)

/-- At every trust evaluation in `t`, the level evaluated is the one stored at that moment. -/
def Spec.EvalsCurrent (u : String) (w : World) (t : List Ev) : Prop :=
  ∀ h dev a h', t = h ++ ⟨.evalTrust dev, a⟩ :: h' → ∀ w1, Lib.Runs w h w1 → UpToDate u w1.disk dev

namespace Curr
variable {M : Mgr} {u : String}

/-- Stores or deletes something. -/
def touches : Op → Bool
  | .store .. | .delete .. => true
  | _ => false

/-- Anything but a trust evaluation. -/
def quiet : Op → Bool
  | .evalTrust _ => false
  | _ => true

theorem nil {w : World} : EvalsCurrent u w [] := fun h dev a h' he => by cases h <;> cases he

theorem cons {w : World} {e : Ev} {t : List Ev} (h1 : ∀ dev, e.1 = .evalTrust dev → UpToDate u w.disk dev)
    (h2 : EvalsCurrent u (Lib.next w e) t) : EvalsCurrent u w (e :: t) := by
  intro h dev a h' he w1 hr
  cases h with
  | nil => cases he; cases hr; exact h1 dev rfl
  | cons x h => cases he; exact h2 h dev a h' rfl w1 hr.2

theorem append {w w1 : World} {t1 t2 : List Ev} (h1 : EvalsCurrent u w t1) (hr : Lib.Runs w t1 w1) (h2 : EvalsCurrent u w1 t2) :
    EvalsCurrent u w (t1 ++ t2) := by
  induction t1 generalizing w with
  | nil => cases hr; exact h2
  | cons e t1 ih =>
    refine cons (fun dev he => ?_) (ih (fun h dev a h' he w2 hr2 => ?_) hr.2)
    · obtain ⟨o, a⟩ := e
      cases he
      exact h1 [] dev a t1 rfl w rfl
    · exact h1 (e :: h) dev a h' (by rw [he]; rfl) w2 ⟨hr.1, hr2⟩

theorem silent {w : World} {t : List Ev} (h : ∀ e ∈ t, ∀ dev, e.1 ≠ .evalTrust dev) : EvalsCurrent u w t := by
  rintro h1 dev a h2 rfl
  exact absurd rfl (h ⟨.evalTrust dev, a⟩ (by simp) dev)

theorem silent_of {α : Type} {p : P α} (hp : AllOps (fun o : Op => quiet o = true) p) {t r} (he : Exec p t r) {w : World} :
    EvalsCurrent u w t := silent fun e hm dev h => by
  have := hp.exec he e hm
  rw [h] at this
  cases this

/-- Sequential composition. -/
theorem bind {α β : Type} {p : P α} {f : α → P β} {w w' : World} {t r} (he : Exec (p >>= f) t r) (hr : Lib.Runs w t w')
    (h1 : ∀ t1 r1 w1, Exec p t1 r1 → Lib.Runs w t1 w1 → EvalsCurrent u w t1)
    (h2 : ∀ t1 a w1 t2, Exec p t1 (.ok a) → Lib.Runs w t1 w1 → Exec (f a) t2 r → Lib.Runs w1 t2 w' → EvalsCurrent u w1 t2) : EvalsCurrent u w t := by
  rcases exec_seq.1 he with ⟨t1, a, t2, rfl, e1, e2⟩ | ⟨e, e1, _⟩ | ⟨e1, _⟩
  · obtain ⟨w1, hr1, hr2⟩ := Sem.runs_append.1 hr
    exact append (h1 _ _ _ e1 hr1) hr1 (h2 _ _ _ _ e1 hr1 e2 hr2)
  · exact h1 _ _ _ e1 hr
  · exact h1 _ _ _ e1 hr

theorem disk_eval {w : World} {dev : DeviceInfo} {a} : (Lib.next w ⟨.evalTrust dev, a⟩).disk = w.disk := rfl

/-- Evaluating devices whose levels are current. -/
theorem evaluations {level : TrustLevel} {ds : List DeviceInfo} {w w' : World} {t r} (he : Exec (devicesWithTrust level ds) t r) (hr : Lib.Runs w t w')
    (hl : ∀ d ∈ ds, UpToDate u w.disk d) : EvalsCurrent u w t ∧ w'.disk = w.disk := by
  have h1 : ∀ e ∈ t, ∃ dev ∈ ds, e.1 = .evalTrust dev := by
    have : AllOps (fun o : Op => ∃ dev ∈ ds, o = .evalTrust dev) (devicesWithTrust level ds) :=
      .filterAll fun d hd => .bind (.perform ⟨d, hd, rfl⟩) fun _ => trivial
    exact this.exec he
  clear he
  induction t generalizing w with
  | nil => cases hr; exact ⟨nil, rfl⟩
  | cons e t ih =>
    obtain ⟨o, a⟩ := e
    obtain ⟨d, hd, rfl⟩ : ∃ dev ∈ ds, o = .evalTrust dev := h1 _ (List.mem_cons_self ..)
    obtain ⟨h3, h4⟩ := ih hr.2 hl fun x hx => h1 x (List.mem_cons_of_mem _ hx)
    exact ⟨cons (fun dev h => by cases h; exact hl d hd) h3, h4⟩

/-- Loading the levels again. -/
theorem reloaded {ds ys : List DeviceInfo} {t : List Ev} (he : Exec (Prog.mapAll ds (reloadTrust M)) t (.ok ys)) {w w' : World} (hr : Lib.Runs w t w') :
    w'.disk = w.disk ∧ ∀ y ∈ ys, UpToDate M.undecided w.disk y := by
  induction ds generalizing t w ys with
  | nil => obtain ⟨rfl, h⟩ := exec_mapAll_nil.1 he; cases h; cases hr; simp
  | cons d ds ih =>
    obtain ⟨t1, y, t2, ys', rfl, rfl, h1, h2⟩ := exec_mapAll_cons_ok.1 he
    obtain ⟨w1, hr1, hr2⟩ := Sem.runs_append.1 hr
    have : wp Lib (reloadTrust M d) (ends (fun y w' => w'.disk = w.disk ∧ UpToDate M.undecided w.disk y) fun _ _ => True) w := by
      unfold reloadTrust Sto.loadStr
      rw [ends_bind, ends_bind]
      refine Lib.load (fun _ _ => trivial) ?_
      rw [wp_fmap]
      cases hd : w.disk (.trust d.bareJid d.identityKey) with
      | none => exact ⟨rfl, .inr ⟨hd, rfl⟩⟩
      | some v =>
        cases v with
        | str s => exact ⟨rfl, .inl hd⟩
        | _ => trivial
    obtain ⟨h3, h4⟩ := wp_sound this h1 hr1
    obtain ⟨h5, h6⟩ := ih h2 hr2
    refine ⟨h5.trans h3, fun z hz => ?_⟩
    rcases List.mem_cons.1 hz with rfl | hz
    · exact h4
    · rw [← h3]; exact h6 z hz

theorem ops_reload (ds : List DeviceInfo) : AllOps (fun o : Op => quiet o = true) (Prog.mapAll ds (reloadTrust M)) := by
  refine .mapAll fun d _ => ?_
  unfold reloadTrust
  lib_ops []

/-- The trust decisions: levels are current in both rounds, and afterwards. -/
theorem decideTrust (hd : CallbackQuiet M.decide) {devices : List DeviceInfo} {i : Option String} {t r} {w w' : World}
    (he : Exec (SM.decideTrust M devices i) t r) (hr : Lib.Runs w t w') (hl : ∀ dev ∈ devices, UpToDate M.undecided w.disk dev) :
    EvalsCurrent M.undecided w t ∧ ∀ out, r = .ok out → ∀ dev ∈ out, UpToDate M.undecided w'.disk dev := by
  have hi : ∀ {ds : List DeviceInfo} {m : Disk}, (∀ dev ∈ ds, UpToDate M.undecided m dev) → ∀ dev ∈ M.O.iter ds, UpToDate M.undecided m dev :=
    fun h dev hd => h dev (by simpa using hd)
  have ask : ∀ {und t1 r1 w1 w2}, Exec (askTrust M devices und i) t1 r1 → Lib.Runs w1 t1 w2 → w1.disk = w.disk →
      EvalsCurrent M.undecided w1 t1 ∧ ∀ out, r1 = .ok out → ∀ dev ∈ out, UpToDate M.undecided w2.disk dev := by
    intro und t1 r1 w1 w2 e1 hr1 hw
    unfold askTrust at e1
    split at e1
    · refine ⟨bind e1 hr1 (fun t2 r2 w3 e2 _ => silent fun e hm => (hd _ _ _ _ e2 e hm).2) fun t2 _ w3 t3 _ _ e3 hr3 =>
        bind e3 hr3 (fun _ _ _ e4 _ => silent_of (ops_reload _) e4) fun _ _ _ _ _ _ e5 _ => ?_, ?_⟩
      · cases e5; exact nil
      · rintro out rfl dev hdev
        obtain ⟨t2, _, t3, rfl, e2, e3⟩ := exec_seq_ok.1 e1
        obtain ⟨w3, hr2, hr3⟩ := Sem.runs_append.1 hr1
        obtain ⟨t4, ys, t5, rfl, e4, e5⟩ := exec_seq_ok.1 e3
        obtain ⟨rfl, h⟩ := exec_pure.1 e5
        cases h
        rw [List.append_nil] at hr3
        obtain ⟨h1, h2⟩ := reloaded e4 hr3
        rw [h1]
        exact h2 dev (by simpa using hdev)
    · obtain ⟨rfl, h⟩ := exec_pure.1 e1
      cases h
      cases hr1
      refine ⟨nil, ?_⟩
      rintro _ h dev hdev
      cases h
      rw [hw]
      exact hl dev hdev
  unfold SM.decideTrust at he
  refine ⟨bind he hr (fun t1 r1 w1 e1 hr1 => (evaluations e1 hr1 (hi hl)).1) fun t1 und w1 t2 e1 hr1 e2 hr2 => ?_, ?_⟩
  · have hw := (evaluations e1 hr1 (hi hl)).2
    refine bind e2 hr2 (fun t3 r3 w3 e3 hr3 => (ask e3 hr3 hw).1) fun t3 out w3 t4 e3 hr3 e4 hr4 => ?_
    have hout := (ask e3 hr3 hw).2 out rfl
    refine bind e4 hr4 (fun _ _ _ e5 hr5 => (evaluations e5 hr5 (hi hout)).1) fun _ _ _ _ _ _ e6 _ => ?_
    split at e6
    · cases e6; exact nil
    · cases e6; exact nil
  · rintro out rfl
    obtain ⟨t1, und, t', rfl, e1, e2⟩ := exec_seq_ok.1 he
    obtain ⟨w1, hr1, hr2⟩ := Sem.runs_append.1 hr
    have hw := (evaluations e1 hr1 (hi hl)).2
    obtain ⟨t2, out', t3, rfl, e3, e4⟩ := exec_seq_ok.1 e2
    obtain ⟨w2, hr3, hr4⟩ := Sem.runs_append.1 hr2
    have hout := (ask e3 hr3 hw).2 out' rfl
    obtain ⟨t4, st, t5, rfl, e5, e6⟩ := exec_seq_ok.1 e4
    obtain ⟨w3, hr5, hr6⟩ := Sem.runs_append.1 hr4
    have hw3 := (evaluations e5 hr5 (hi hout)).2
    split at e6
    · cases e6
    · obtain ⟨rfl, h⟩ := exec_pure.1 e6
      cases h
      cases hr6
      rw [hw3]
      exact hout

theorem ops_backend (cache : List Bundle) (pt : Dict Ns Bytes) (st ns) :
    AllOps (fun o : Op => quiet o = true) (encryptBackend M cache pt st ns) := by
  unfold encryptBackend encryptDevice encryptForDevice bundleFor
  lib_ops []

theorem ops_recipients (order : List Ns) (jids : List Jid) : AllOps (fun o : Op => quiet o = true) (recipientDevices M order jids) := by
  have : ∀ jid, AllOps (fun o : Op => quiet o = true) (getDeviceInformation' M jid) := fun jid =>
    (ops_getDeviceInformation' M jid).mono fun o h => by cases h <;> rfl
  unfold recipientDevices
  lib_ops [this]

theorem sender {msg : Message} {t dev} {w w' : World} (he : Exec (findSender M msg) t (.ok dev)) (hr : Lib.Runs w t w') :
    UpToDate M.undecided w'.disk dev := by
  have info : ∀ {t x w w'}, Exec (getDeviceInformation M msg.bareJid) t (.ok x) → Lib.Runs w t w' → ∀ dev ∈ x, UpToDate M.undecided w'.disk dev := by
    intro t x w w' he hr dev hdev
    obtain ⟨t1, ⟨x', c⟩, t2, rfl, h1, h2⟩ := exec_seq_ok.1 he
    cases h2
    rw [List.append_nil] at hr
    have h5 := describes_info' h1 hr dev hdev
    have h6 := (wp_sound (looked_info' msg.bareJid w) h1 hr).disk.frame (.trust dev.bareJid dev.identityKey) fun _ => ⟨nofun, nofun⟩
    unfold UpToDate
    rw [h6, h5.bareJid]
    exact h5.level
  have pick : ∀ {x d}, pickDevice M msg.deviceId x = some d → d ∈ x := fun h => by simpa using List.mem_of_find?_eq_some h
  unfold findSender at he
  obtain ⟨t1, x, t2, rfl, h1, h2⟩ := exec_seq_ok.1 he
  obtain ⟨w1, hr1, hr2⟩ := Sem.runs_append.1 hr
  split at h2
  · rename_i hp
    obtain ⟨rfl, h⟩ := exec_pure.1 h2
    cases h
    cases hr2
    exact info h1 hr1 _ (pick hp)
  · obtain ⟨t3, _, t4, rfl, _, h4⟩ := exec_seq_ok.1 h2
    obtain ⟨w2, _, hr4⟩ := Sem.runs_append.1 hr2
    obtain ⟨t5, x, t6, rfl, h5, h6⟩ := exec_seq_ok.1 h4
    obtain ⟨w3, hr5, hr6⟩ := Sem.runs_append.1 hr4
    split at h6
    · rename_i hp
      obtain ⟨rfl, h⟩ := exec_pure.1 h6
      cases h
      cases hr6
      exact info h5 hr5 _ (pick hp)
    · cases h6

end Curr

/-! ### C98 -/

/-- C98 (encrypt).  Every trust evaluation in an encryption is of the trust level stored at that moment - also after the application has decided about
some of the devices, however the encryption ends. -/
theorem C98_encrypt (M : Mgr) (hd : CallbackQuiet M.decide) (jids : List Jid) (pt : Dict Ns Bytes) (prio : Option (List Ns)) (i : Option String)
    (t : List Ev) (r : Res Exn (Dict Message PlainKM × List EncError)) (w w' : World) (he : Exec (encrypt M jids pt prio i) t r)
    (hr : Lib.Runs w t w') : EvalsCurrent M.undecided w t := by
  unfold encrypt at he
  refine Curr.bind he hr (fun _ _ _ e _ => Curr.silent_of (.perform rfl) e) fun t1 bs w1 t2 _ _ e2 hr2 => ?_
  refine Curr.bind e2 hr2 (fun _ _ _ e _ => Curr.silent_of (by unfold liftE; split <;> trivial) e) fun t3 order w3 t4 _ _ e4 hr4 => ?_
  refine Curr.bind e4 hr4 (fun _ _ _ e _ => Curr.silent_of (Curr.ops_recipients _ _) e) fun t5 x w5 t6 e5 hr5 e6 hr6 => ?_
  have hl : ∀ dev ∈ x.1, UpToDate M.undecided w5.disk dev := Decide.level_recipients e5 hr5
  refine Curr.bind e6 hr6 (fun _ _ _ e h => (Curr.decideTrust hd e h hl).1) fun t7 ds w7 t8 e7 hr7 e8 hr8 => ?_
  have hl' := (Curr.decideTrust hd e7 hr7 hl).2 ds rfl
  unfold encryptTrusted at e8
  refine Curr.bind e8 hr8 (fun _ _ _ e h => (Curr.evaluations e h fun d hd => hl' d (by simpa using hd)).1) fun _ _ _ _ _ _ e9 _ => ?_
  refine Curr.silent_of ?_ e9
  have := Curr.ops_backend (M := M) x.2 pt
  lib_ops [this]

/-- At the last evaluation of the device that is served by `e` after `h`, starting in `w`, the level stored for its identity key passed the test. -/
def Spec.StoredLevel (w : World) (ok : String → Prop) (h : List Ev) (e : Ev) : Prop :=
  Op.handsOut e.1 = true → ∃ (dev : DeviceInfo) (ns : Ns) (m : PlainKM) (u v : List Ev), HandsOut h e ns dev.bareJid dev.deviceId m ∧
    h = u ++ ⟨.evalTrust dev, .ok .trusted⟩ :: v ∧
    (∀ x ∈ v, ∀ dev' : DeviceInfo, dev'.bareJid = dev.bareJid → dev'.deviceId = dev.deviceId → x.1 ≠ .evalTrust dev') ∧
    ∀ w1, Lib.Runs w u w1 → ∃ s, w1.disk (.trust dev.bareJid dev.identityKey) = some (.str s) ∧ ok s

theorem Curr.stored {M : Mgr} {w : World} {t : List Ev} {ok : String → Prop} (hc : EvalsCurrent M.undecided w t) (hu : ¬ ok M.undecided)
    (hg : Guarded (fun h e => Op.handsOut e.1 = true → ∃ (dev : DeviceInfo) (ns : Ns) (m : PlainKM), HandsOut h e ns dev.bareJid dev.deviceId m ∧
      LastEval h dev .trusted ∧ ok dev.trustLevelName) t) : Guarded (StoredLevel w ok) t := by
  intro h1 e h2 ht hh
  obtain ⟨dev, ns, m, h3, ⟨u, v, rfl, h4⟩, h5⟩ := hg h1 e h2 ht hh
  refine ⟨dev, ns, m, u, v, h3, rfl, h4, fun w1 hw => ?_⟩
  rcases hc u dev (.ok .trusted) (v ++ e :: h2) (by rw [ht]; simp) w1 hw with h6 | ⟨-, h6⟩
  · exact ⟨_, h6, h5⟩
  · rw [h6] at h5
    exact absurd h5 hu

/-- C78, storage: with the BTBV manager, when key material is handed to a backend for a device, the trust level stored for the identity key of this device was
"trusted" or "blindly trusted" at the moment in which the device was evaluated for the last time. -/
theorem C78_stored (M : Mgr) (hu : M.undecided = "UNDECIDED") (A : BTBV.App) (hn : CallbackQuiet A.notify) (hp : CallbackQuiet A.prompt) (jids : List Jid)
    (pt : Dict Ns Bytes) (prio : Option (List Ns)) (i : Option String) (t : List Ev) (r : Res Exn (Dict Message PlainKM × List EncError)) (w w' : World)
    (he : Exec (encrypt (BTBV.mgr M A) jids pt prio i) t r) (hr : Lib.Runs w t w') (hb : BackendsOnce t)
    (hv : ∀ dev x, (⟨.evalTrust dev, x⟩ : Ev) ∈ t → x = BTBV.evaluate dev) :
    Guarded (StoredLevel w fun s => s = "TRUSTED" ∨ s = "BLINDLY_TRUSTED") t :=
  Curr.stored (M := BTBV.mgr M A) (C98_encrypt _ (Blindly.quiet hn hp) jids pt prio i t r w w' he hr) (by change ¬ (M.undecided = _ ∨ M.undecided = _); rw [hu]; decide)
    (C78_keys M A hn hp jids pt prio i t r he hb hv)

/-- C94, storage: with the reference implementation, when key material is handed to a backend for a device, the trust level stored for the identity key of this
device was "trusted" at the moment in which the device was evaluated for the last time. -/
theorem C94_stored (M : Mgr) (hu : M.undecided = "UNDECIDED") (jids : List Jid) (pt : Dict Ns Bytes) (prio : Option (List Ns)) (i : Option String)
    (t : List Ev) (r : Res Exn (Dict Message PlainKM × List EncError)) (w w' : World) (he : Exec (encrypt (Ref.mgr M) jids pt prio i) t r)
    (hr : Lib.Runs w t w') (hb : w.backends.Nodup) (hv : ∀ dev x, (⟨.evalTrust dev, x⟩ : Ev) ∈ t → x = Ref.evaluate dev) :
    Guarded (StoredLevel w (· = "TRUSTED")) t :=
  Curr.stored (M := Ref.mgr M) (C98_encrypt _ (C94 M hu).quiet jids pt prio i t r w w' he hr) (by change ¬ M.undecided = _; rw [hu]; decide)
    (C94_encrypt M hu jids pt prio i t r w w' he hr hb hv).2.1

/-- C98 (decrypt).  The trust evaluation in a decryption is of the trust level stored at that moment. -/
theorem C98_decrypt (M : Mgr) (msg : Message) (t : List Ev) (r : Res Exn (Option Bytes × DeviceInfo × PlainKM)) (w w' : World)
    (he : Exec (decrypt M msg) t r) (hr : Lib.Runs w t w') : EvalsCurrent M.undecided w t := by
  unfold decrypt at he
  refine Curr.bind he hr (fun _ _ _ e _ => Curr.silent_of (.perform rfl) e) fun t1 bs w1 t2 _ _ e2 hr2 => ?_
  split at e2
  · cases e2; exact Curr.nil
  · split at e2
    · cases e2; exact Curr.nil
    · rename_i ekm kex _
      refine Curr.bind e2 hr2 (fun _ _ _ e _ => Curr.silent_of (ops_findSender.mono fun o h => by cases o <;> first | rfl | cases h) e)
        fun t3 dev w3 t4 e3 hr3 e4 hr4 => ?_
      have hl := Curr.sender e3 hr3
      refine Curr.bind e4 hr4 (fun t5 r5 w5 e5 hr5 => ?_) fun _ _ _ _ _ _ e6 _ => Curr.silent_of ?_ e6
      · unfold decryptContent at e5
        refine Curr.bind e5 hr5 (fun t6 r6 w6 e6 hr6 => ?_) fun _ _ _ _ _ _ e7 _ => Curr.silent_of ?_ e7
        · rcases exec_call.1 e6 with ⟨rfl, _⟩ | ⟨e, rfl, _⟩ | ⟨a, rfl, _⟩
          · exact Curr.nil
          · exact Curr.cons (fun d h => by cases h; exact hl) Curr.nil
          · exact Curr.cons (fun d h => by cases h; exact hl) Curr.nil
        · unfold keyMaterial decryptKeyMaterial handleKeyExchange plaintextOf
          lib_ops []
      · exact .bind (ops_postDecrypt.mono fun o h => by cases o <;> first | rfl | (cases kex <;> cases h)) fun _ => trivial

/-- C98, decrypt: the device information that is returned has the trust level that is stored afterwards. -/
theorem C98_returned (M : Mgr) (msg : Message) (t : List Ev) (pt : Option Bytes) (dev : DeviceInfo) (km : PlainKM) (w w' : World)
    (he : Exec (decrypt M msg) t (.ok (pt, dev, km))) (hr : Lib.Runs w t w') : UpToDate M.undecided w'.disk dev := by
  have keep : ∀ {α : Type} {p : P α} {φ : Op → Prop}, AllOps φ p → (∀ j ik v, ¬ φ (.store (.trust j ik) v)) → (∀ j ik, ¬ φ (.delete (.trust j ik))) →
      ∀ {t r w w'}, Exec p t r → Lib.Runs w t w' → UpToDate M.undecided w.disk dev → UpToDate M.undecided w'.disk dev := by
    intro α p φ hp h1 h2 t r w w' he hr hw
    exact ((place_keep (.trust dev.bareJid dev.identityKey) (fun o => o = some (.str dev.trustLevelName) ∨ (o = none ∧ dev.trustLevelName = M.undecided))
      (h1 _ _) (h2 _ _)).pres hp).run he hr hw
  unfold decrypt at he
  obtain ⟨t1, bs, t2, rfl, _, e2⟩ := exec_seq_ok.1 he
  obtain ⟨w1, _, hr2⟩ := Sem.runs_append.1 hr
  split at e2
  · cases e2
  · split at e2
    · cases e2
    · rename_i ekm kex _
      obtain ⟨t3, dev', t4, rfl, e3, e4⟩ := exec_seq_ok.1 e2
      obtain ⟨w3, hr3, hr4⟩ := Sem.runs_append.1 hr2
      have hl := Curr.sender e3 hr3
      obtain ⟨t5, ⟨x, s, k⟩, t6, rfl, e5, e6⟩ := exec_seq_ok.1 e4
      obtain ⟨w5, hr5, hr6⟩ := Sem.runs_append.1 hr4
      obtain ⟨t7, _, t8, rfl, e7, e8⟩ := exec_seq_ok.1 e6
      obtain ⟨w7, hr7, hr8⟩ := Sem.runs_append.1 hr6
      obtain ⟨rfl, h⟩ := exec_pure.1 e8
      cases h
      cases hr8
      refine keep ops_postDecrypt (fun j ik v h => ?_) (fun j ik h => ?_) e7 hr7
        (keep (φ := fun o => Curr.touches o = false) (by
          unfold decryptContent keyMaterial decryptKeyMaterial handleKeyExchange plaintextOf
          lib_ops []) nofun nofun e5 hr5 hl)
      · cases kex <;> cases h
      · cases kex <;> cases h

/-- The example of `C94`: the level is evaluated twice, and after the decision it is the one decided on. -/
theorem C98_example :
    Exec (encrypt (Ref.mgr Mgr.btbv) ["a"] [("n", [1])] none none) Ref.greeted.1 Ref.greeted.2.1 ∧
    Lib.Runs Ref.refreshed.2.2.1 Ref.greeted.1 Ref.greeted.2.2.1 ∧ CallbackQuiet (Ref.mgr Mgr.btbv).decide ∧
    (Ref.greeted.1.filterMap fun e => match e.1 with | .evalTrust dev => some (dev.bareJid, dev.trustLevelName) | _ => none) =
      [("a", "UNDECIDED"), ("a", "TRUSTED"), ("a", "TRUSTED")] :=
  ⟨Ref.run_exec .., (Ref.run_runs ..).1, (C94 Mgr.btbv rfl).quiet, by decide +kernel⟩

/-- The hypotheses of `C78_stored` are met, and keys are handed out. -/
theorem C78_stored_example : Guarded (StoredLevel World.two fun s => s = "TRUSTED" ∨ s = "BLINDLY_TRUSTED") blindRun.1 ∧
    (blindRun.1.filter fun e => Op.handsOut e.1).length = 2 := by
  obtain ⟨h1, h2, -, h3, -, -⟩ := C78_example
  have hset : blindRun.1.all (fun e => match e.1 with | .setBackends _ => false | _ => true) = true := by decide +kernel
  have hn : World.two.backends.Nodup := by decide +kernel
  refine ⟨C78_stored Mgr.btbv rfl appYes (fun _ _ _ _ he e hm => by cases he; cases hm) (fun ds i t r he => ?_) _ _ none none _ _ _ _ h1 h2 (fun bs hm => ?_) h3, by decide +kernel⟩
  · refine AllOps.exec (S := LibSig) (φ := fun o => Op.encrypts o = false ∧ ∀ dev, o ≠ .evalTrust dev) ?_ he
    show AllOps (S := LibSig) _ (Prog.forEach ds fun dev => SM.setTrust dev.bareJid dev.identityKey "TRUSTED")
    unfold SM.setTrust
    lib_ops []
    exact ⟨rfl, nofun⟩
  · rw [lib_backends h2 (fun e he bs hbs => by
      have := List.all_eq_true.1 hset e he
      rw [hbs] at this
      cases this) bs hm]
    exact hn

end Verif
