import Verif.Props.Current
/-
Two accounts can talk to each other (C99).
-/
namespace Verif
open Spec SM

namespace Spec

/-- No stored trust level of `j` means that a device is distrusted. -/
def Unrefused (lvl : String → TrustLevel) (m : Disk) (j : Jid) : Prop := ∀ ik s, m (.trust j ik) = some (.str s) → lvl s ≠ .distrusted

/-- The trust decision decides, raises nothing by itself, and distrusts nobody. -/
structure Welcoming (lvl : String → TrustLevel) (M : Mgr) : Prop where
  decisive : Decisive lvl M
  quiet : CallbackQuiet M.decide
  callback : ∀ ds i t e, Exec (M.decide ds i) t (.raised e) → ErrIn t e
  welcomes : ∀ ds i t r w w', Exec (M.decide ds i) t r → Lib.Runs w t w' → ∀ j, Unrefused lvl w.disk j → Unrefused lvl w'.disk j

/-- Nothing stands in the way of encrypting, up to trust: nothing the library calls fails, no backend is unloaded meanwhile, every loaded backend gets a
plaintext, the priorities name loaded backends only, and each recipient has a device that can be addressed and no trust level that refuses it. -/
structure Open (lvl : String → TrustLevel) (M : Mgr) (w : World) (jids : List Jid) (pt : Dict Ns Bytes) (prio : Option (List Ns)) (t : List Ev) : Prop where
  smooth : ∀ e, ¬ ErrIn t e
  once : w.backends.Nodup
  stay : ∀ e ∈ t, ∀ bs, e.1 ≠ .setBackends bs
  plaintext : ∀ ns ∈ w.backends, pt.get ns ≠ none
  order : ∀ l, prio = some l → ∀ ns ∈ l, ns ∈ w.backends
  evaluates : EvaluatesBy lvl t
  recipients : ∀ j ∈ jids, j ≠ M.ownJid → (∃ d, Reachable w.disk (prio.getD w.backends) j d) ∧ Unrefused lvl w.disk j

end Spec

namespace Talk
variable {M : Mgr} {lvl : String → TrustLevel} {jids : List Jid} {pt : Dict Ns Bytes} {prio : Option (List Ns)} {i : Option String}

theorem keep_ops {α : Type} {p : P α} {φ : Op → Prop} (j : Jid) (hp : AllOps φ p) (h1 : ∀ ik v, ¬ φ (.store (.trust j ik) v))
    (h2 : ∀ ik, ¬ φ (.delete (.trust j ik))) : Pres Lib (fun w => Unrefused lvl w.disk j) p := by
  refine OpsKeep.pres (φ := φ) ?_ hp
  intro o ho w r hok hw ik
  exact place_keep (φ := φ) (.trust j ik) (fun v => ∀ s, v = some (.str s) → lvl s ≠ .distrusted) (h1 ik) (h2 ik) o ho w r hok (hw ik)

theorem not_encrypt {o : Op} {j : Jid} {ik : Bytes} (h : Foot.Encrypt o) : (∀ v, o ≠ .store (.trust j ik) v) ∧ o ≠ .delete (.trust j ik) := by
  cases h with
  | info _ h => cases h <;> exact ⟨nofun, nofun⟩
  | _ => exact ⟨nofun, nofun⟩

theorem pres_encrypt (hM : Welcoming lvl M) (j : Jid) : Pres Lib (fun w => Unrefused lvl w.disk j) (encrypt M jids pt prio i) := by
  have enc : ∀ {α : Type} {p : P α}, AllOps Foot.Encrypt p → Pres Lib (fun w => Unrefused lvl w.disk j) p := fun hp =>
    keep_ops j hp (fun ik v h => (not_encrypt h).1 v rfl) fun ik h => (not_encrypt h).2 rfl
  have evs : ∀ l ds, Pres Lib (fun w => Unrefused lvl w.disk j) (devicesWithTrust l ds) := fun l ds =>
    enc (.filterAll fun d _ => .bind (.perform (.evalTrust d)) fun _ => trivial)
  refine .bind (enc (.perform .getBackends)) fun bs => .bind (enc (allOps_liftE _)) fun order => .bind (enc (ops_recipientDevices M _ _)) fun x =>
    .bind ?_ fun ds => enc (ops_encryptTrusted M _ _ _ _)
  unfold decideTrust
  refine .bind (evs _ _) fun und => .bind ?_ fun out => .bind (evs _ _) fun st => ?_
  · unfold askTrust
    split
    · refine .bind (fun w hw => wp_iff.2 fun t r w' he hr => hM.welcomes _ _ _ _ _ _ he hr j hw) fun _ => .bind (.mapAll fun d _ => ?_) fun _ => .pure _
      unfold reloadTrust
      refine keep_ops (φ := fun o => Curr.touches o = false) j ?_ nofun nofun
      lib_ops []
    · exact .pure _
  · split
    · exact fun _ h => h
    · exact .pure _

/-- The levels that are evaluated for such recipients do not refuse them. -/
theorem not_distrusted (hM : Welcoming lvl M) {t r} {w w' : World} (he : Exec (encrypt M jids pt prio i) t r) (hr : Lib.Runs w t w') (hv : EvaluatesBy lvl t)
    {dev : DeviceInfo} (hu : Unrefused lvl w.disk dev.bareJid) : (⟨.evalTrust dev, .ok .distrusted⟩ : Ev) ∉ t := by
  intro hm
  obtain ⟨h, h', rfl⟩ := List.append_of_mem hm
  obtain ⟨w1, hr1, _⟩ := Lib.runs_split hr
  have hlev := hv dev .distrusted hm
  have hI := (pres_encrypt (i := i) (jids := jids) (pt := pt) (prio := prio) hM dev.bareJid).run (exec_prefix he (by simp)) hr1 hu
  rcases C98_encrypt M hM.quiet jids pt prio i _ r w w' he hr h dev _ h' rfl w1 hr1 with h1 | ⟨_, h1⟩
  · exact hI _ _ h1 hlev.symm
  · rw [h1, hM.decisive.undecided] at hlev
    cases hlev

/-- A device that can be addressed is evaluated. -/
theorem evaluated {t : List Ev} {w w' : World} {msgs errs} (hdec : CallbackQuiet M.decide)
    (he : Exec (encrypt M jids pt prio i) t (.ok (msgs, errs))) (hr : Lib.Runs w t w') (hb : w.backends.Nodup)
    (hs : ∀ e ∈ t, ∀ bs, e.1 ≠ .setBackends bs) (hno : ∀ e, ¬ ErrIn t e) {j : Jid} {d : DevId} (hj : j ∈ jids ∨ j = M.ownJid)
    (hown : ¬ (j = M.ownJid ∧ d = M.ownDev)) (hd : Reachable w.disk (prio.getD w.backends) j d) :
    ∃ dev l, dev.bareJid = j ∧ dev.deviceId = d ∧ LastEval t dev l := by
  have hbs := lib_backends hr hs
  have hb1 : BackendsOnce t := fun bs h => by rw [hbs bs h]; exact hb
  obtain ⟨t1, t2, t4, order, devices, cache, infos, out, v1, v2, v3, tm, bs, st, os, rfl, _, _, hp, ha, hts, ho, _⟩ :=
    (encrypt_run hdec jids pt prio i he hb1).succeeded rfl
  have hord : order = prio.getD w.backends := by
    obtain ⟨bs0, t0, rfl, hord⟩ := hp.chosen
    rw [(effectiveOrder_ok hord).1, hbs bs0 (by simp)]
  rw [← hord] at hd
  obtain ⟨w1, hr1, _⟩ := Lib.runs_split (t1 := t1) (by simpa only [List.append_assoc] using hr)
  obtain ⟨dev, hdev, haddr⟩ := Delivery.considered hp hr1 (fun e h => hno e (Delivery.errIn_mono h fun x hx => by simp [hx])) hj hown hd
  have : addr dev ∈ out.map addr := (ha.addrs _).2 (List.mem_map_of_mem hdev)
  obtain ⟨d', hd', he'⟩ := List.mem_map.1 this
  rw [haddr] at he'
  simp only [addr, Prod.mk.injEq] at he'
  refine ⟨d', v3 d', he'.1, he'.2, ?_⟩
  rw [List.append_assoc]
  refine (lastEval_iff hdec hp ha ?_).2 ⟨hd', rfl⟩
  intro e he
  simp only [List.cons_append, List.mem_cons, List.mem_append, List.mem_map] at he
  rcases he with rfl | he | ⟨p, _, rfl⟩
  · nofun
  · exact sends_not_eval (hts e he)
  · nofun

end Talk

/-- C99, sending: if the trust decision decides and distrusts nobody, then `encrypt` succeeds, without errors, as soon as each recipient has a device that
can be addressed, unless something it calls fails or the process dies.  Every device of the recipients that can be addressed, and each other own
one, gets exactly one key, in exactly one message - whether or not it was known before. -/
theorem C99_encrypt (lvl : String → TrustLevel) (own : Jid) (x : XEdDSA) (s0 s : Use) (M : Mgr) (jids : List Jid) (pt : Dict Ns Bytes)
    (prio : Option (List Ns)) (i : Option String) (t : List Ev) (r : Res Exn (Dict Message PlainKM × List EncError)) (w' : World)
    (hnew : New s0) (ht : Typed s0.world.disk) (h : Course own x s0 s []) (hM : M ∈ s.mgrs) (hcare : Careful M) (hw : Welcoming lvl M)
    (he : Exec (encrypt M jids pt prio i) t r) (hr : Lib.Runs s.world t w') (hA : Addressed t) (hc : Open lvl M s.world jids pt prio t) :
    r = .crashed ∨ ∃ msgs, r = .ok (msgs, []) ∧ ∀ j d, j ∈ jids ∨ j = M.ownJid → ¬ (j = M.ownJid ∧ d = M.ownDev) →
      Reachable s.world.disk (prio.getD s.world.backends) j d → Unrefused lvl s.world.disk j →
      (∃ dev, dev.bareJid = j ∧ dev.deviceId = d ∧ LastEval t dev .trusted) ∧
      ∃ y ∈ msgs, (∃ k, keysFor y.1 j d = [k]) ∧ ∀ y' ∈ msgs, y' ≠ y → keysFor y'.1 j d = [] := by
  have hbs := lib_backends hr hc.stay
  have hb1 : BackendsOnce t := fun bs h => by rw [hbs bs h]; exact hc.once
  have hfun : ∀ dev l l', (⟨.evalTrust dev, .ok l⟩ : Ev) ∈ t → (⟨.evalTrust dev, .ok l'⟩ : Ev) ∈ t → l = l' := fun dev l l' h1 h2 =>
    (hc.evaluates dev l h1).trans (hc.evaluates dev l' h2).symm
  have und : (∀ dev, ¬ LastEval t dev .undecided) ∨ r = .crashed ∨ ∃ y, r = .raised y ∧ ¬ ∃ js, y = .noEligibleDevices js := by
    by_cases hu : ∃ dev, LastEval t dev .undecided
    · right
      obtain ⟨dev, hu⟩ := hu
      rcases (C28_undecided_blocks M jids pt prio i t r hw.quiet he hb1 hfun dev hu).2 with h1 | h1 | ⟨y, rfl, h1⟩
      · exact .inl h1
      · exact .inr ⟨_, h1, nofun⟩
      · refine .inr ⟨y, rfl, ?_⟩
        rintro ⟨js, rfl⟩
        rcases h1 with ⟨d, h1⟩ | ⟨ds, u, td, v, rfl, h1⟩ | ⟨j, ik, h1 | ⟨h1, _⟩⟩
        · exact hc.smooth _ ⟨_, h1, rfl⟩
        · exact hc.smooth _ (Delivery.errIn_mono (hw.callback _ _ _ _ h1) fun x hx => by simp [hx])
        · exact hc.smooth _ ⟨_, h1, rfl⟩
        · cases h1
    · exact .inl fun dev h => hu ⟨dev, h⟩
  have trusted : (∀ dev, ¬ LastEval t dev .undecided) → ∀ dev l, Unrefused lvl s.world.disk dev.bareJid → LastEval t dev l → l = .trusted := by
    intro hu dev l hun hl
    cases l with
    | trusted => rfl
    | undecided => exact absurd hl (hu dev)
    | distrusted =>
      obtain ⟨u, v, h1, _⟩ := hl
      exact absurd (by rw [h1]; simp) (Talk.not_distrusted hw he hr hc.evaluates hun)
  have clear : (∀ dev, ¬ LastEval t dev .undecided) → Clear M s.world jids pt prio t := fun hu =>
    ⟨hw.callback, hc.smooth, hc.once, hc.stay, hc.plaintext, hc.order, hu, fun j hj hne => by
      obtain ⟨⟨d, h1⟩, h2⟩ := hc.recipients j hj hne
      exact ⟨d, h1, fun dev l h3 _ h5 => trusted hu dev l (h3 ▸ h2) h5⟩⟩
  rcases und with hu | h1 | ⟨y, rfl, hy⟩
  · rcases C83_encrypt own x s0 s M jids pt prio i t r w' hnew ht h hM hcare hw.quiet he hr hA (clear hu) with h1 | ⟨msgs, rfl, h2, _⟩
    · exact .inl h1
    · refine .inr ⟨msgs, rfl, fun j d hj hown hd hun => ?_⟩
      obtain ⟨dev, l, rfl, rfl, h3⟩ := Talk.evaluated hw.quiet he hr hc.once hc.stay hc.smooth hj hown hd
      cases trusted hu dev l hun h3
      exact ⟨⟨dev, rfl, rfl, h3⟩, h2 dev h3⟩
  · exact .inl h1
  · exfalso
    rcases Delivery.causes own x s0 s M jids pt prio i t y w' hnew ht h hM hcare he hr hw.callback hc.smooth hc.stay hc.plaintext hc.order with h1 | h1
    · subst h1
      exact C93 lvl M hw.decisive jids pt prio i t _ s.world w' he hr hc.evaluates (hc.smooth _) rfl
    · exact hy h1

/-! ### Receiving -/

namespace Spec

/-- The receiving device is ready for a message of backend `ns` from device `d` of `j`, which has the identity key `ik`: nothing the library calls fails,
the backend is and stays loaded; the sending device is known with its identity key, or is in its device list if that is downloaded; what is stored
or downloaded as its identity key is `ik`; and no trust level refuses the sender. -/
structure Hearing (lvl : String → TrustLevel) (M : Mgr) (w : World) (ns : Ns) (j : Jid) (d : DevId) (ik : Bytes) (t : List Ev) : Prop where
  smooth : ∀ e, ¬ ErrIn t e
  stay : ∀ e ∈ t, ∀ bs, e.1 ≠ .setBackends bs
  loaded : ns ∈ w.backends
  known : (Known w.disk j d ∧ ∃ ik, HasKey w.disk j d ik) ∨ ∀ l, (⟨.downloadList ns j, .ok l⟩ : Ev) ∈ t → ∃ x, l.get d = some x
  stored : ∀ v, w.disk (.devIdentityKey j d) = some v → v = .str (Base64.encode ik)
  published : ∀ n b, Downloaded t n j d b → b.identityKey = ik
  evaluates : EvaluatesBy lvl t
  undecided : lvl M.undecided ≠ .distrusted
  welcome : Unrefused lvl w.disk j

end Spec

namespace Talk
variable {M : Mgr} {lvl : String → TrustLevel} {msg : Message} {j : Jid} {d : DevId} {ik : Bytes}

/-- The contract of the library, for interactions that meet `φ`. -/
def Under (φ : Ev → Prop) : Sem LibSig Exn World := ⟨fun w e => Lib.ok w e ∧ φ e, Lib.next⟩

theorem runs_under {φ : Ev → Prop} {t : List Ev} {w w' : World} (hr : Lib.Runs w t w') (h : ∀ e ∈ t, φ e) : (Under φ).Runs w t w' := by
  induction t generalizing w with
  | nil => exact hr
  | cons e t ih => exact ⟨⟨hr.1, h e (.head _)⟩, ih hr.2 fun x hx => h x (.tail _ hx)⟩

/-- Bundles of the device have the identity key `ik`. -/
def Publishes (j : Jid) (d : DevId) (ik : Bytes) (e : Ev) : Prop := ∀ ns b, e = ⟨.downloadBundle ns j d, .ok b⟩ → b.identityKey = ik

/-- If an identity key of the device is stored, it is `ik`. -/
def Pins (j : Jid) (d : DevId) (ik : Bytes) (w : World) : Prop := ∀ v, w.disk (.devIdentityKey j d) = some v → v = .str (Base64.encode ik)

theorem pins_ops {α : Type} {p : P α} {φ : Op → Prop} (hp : AllOps φ p) (h1 : ∀ v, ¬ φ (.store (.devIdentityKey j d) v))
    (h2 : ¬ φ (.delete (.devIdentityKey j d))) : Pres (Under (Publishes j d ik)) (Pins j d ik) p :=
  .ofOps hp fun o ho w r hok hw => place_keep (φ := φ) (.devIdentityKey j d) (fun x => ∀ v, x = some v → v = .str (Base64.encode ik)) h1 h2 o ho w r hok.1 hw

theorem pins_fetch (j' : Jid) (d' : DevId) (nss : List Ns) : Pres (Under (Publishes j d ik)) (Pins j d ik) (fetchIdentityKey j' d' nss) := by
  induction nss with
  | nil => exact .pure _
  | cons ns nss ih =>
    unfold fetchIdentityKey
    intro w hw
    rw [wp_tryElse, wp_perform]
    refine ⟨hw, fun b hb => ?_, fun e _ => ?_⟩
    · refine (Pres.bind (.perform fun w1 r hok hw1 => ?_) fun _ => .pure _ : Pres (Under (Publishes j d ik)) (Pins j d ik) _) _ hw
      cases r with
      | error e => exact hw1
      | ok a =>
        intro v hv
        simp only [Under, Lib, Disk.upd] at hv
        split at hv
        · rename_i hk
          cases hk
          cases hv
          rw [hb.2 ns b rfl]
        · exact hw1 v hv
    · show wp _ (if _ then _ else _) _ _
      split
      · exact ih _ hw
      · exact hw

/-- Loading, and storing namespaces. -/
def plain : Op → Bool
  | .load _ | .store (.devNamespaces ..) _ => true
  | _ => false

theorem pins_info' (j' : Jid) : Pres (Under (Publishes j d ik)) (Pins j d ik) (getDeviceInformation' M j') := by
  have other : ∀ {α : Type} {p : P α}, AllOps (S := LibSig) (fun o => plain o = true) p →
      Pres (Under (Publishes j d ik)) (Pins j d ik) p := fun hp => pins_ops hp nofun nofun
  unfold getDeviceInformation'
  refine .bind (other (by lib_ops [])) fun _ => .fold fun x d' _ => .bind ?_ fun y => ?_
  · unfold deviceInformation
    refine .bind (other (by lib_ops [])) fun _ => .bind (other (by lib_ops [])) fun _ => .bind ?_ fun y => ?_
    · unfold identityKeyOf onNothing
      refine .tryCatch (other (by lib_ops [])) fun e => ?_
      split
      · refine .bind (pins_fetch _ _ _) fun z => ?_
        cases z <;> exact .pure _
      · exact .raise _
    · cases y with
      | none => exact .pure _
      | some y => exact other (by unfold repairNamespaces; lib_ops [])
  · split <;> exact .pure _

theorem pins_sender : Pres (Under (Publishes j d ik)) (Pins j d ik) (findSender M msg) := by
  have info : ∀ j', Pres (Under (Publishes j d ik)) (Pins j d ik) (getDeviceInformation M j') := fun j' => .bind (pins_info' j') fun _ => .pure _
  unfold findSender
  refine .bind (info _) fun devs => ?_
  split
  · exact .pure _
  · refine .bind (pins_ops (ops_refreshDeviceList M _ _) ?_ ?_) fun _ => .bind (info _) fun devs => ?_
    · intro v h; cases h with | update h => cases h
    · intro h; cases h with | update h => cases h
    · split
      · exact .pure _
      · exact .raise _

/-- The sending device is found with its identity key. -/
theorem sender_key {t : List Ev} {dev : DeviceInfo} {w w' : World} (he : Exec (findSender M msg) t (.ok dev)) (hr : Lib.Runs w t w')
    (hs : Pins msg.bareJid msg.deviceId ik w) (hp : ∀ ns b, Downloaded t ns msg.bareJid msg.deviceId b → b.identityKey = ik) : dev.identityKey = ik := by
  have hk := exec_findSender he
  obtain ⟨l, _, _, h1 | ⟨ns, b, _, h1, h2⟩⟩ := hk.seen.namespaces
  · obtain ⟨s, h1, h2⟩ := h1
    rw [hk.bareJid, hk.deviceId] at h1
    obtain ⟨t1, t2, rfl⟩ := List.append_of_mem h1
    obtain ⟨w1, hr1, hr2⟩ := Lib.runs_split hr
    have hu : ∀ e ∈ t1, Publishes msg.bareJid msg.deviceId ik e := fun e hm ns b h => hp ns b (by subst h; exact List.mem_append_left _ hm)
    have := pins_sender.run (exec_prefix he (by simp)) (runs_under hr1 hu) hs _ (show some _ = _ from hr2.1).symm
    cases this
    rw [Base64.decode_encode] at h2
    exact (Option.some.inj h2).symm
  · rw [hk.bareJid, hk.deviceId] at h1
    exact h2.symm.trans (hp ns b h1)

def evalless : Op → Bool
  | .evalTrust _ => false
  | _ => true

def evalOnly (dev : DeviceInfo) : Op → Bool
  | .evalTrust dev' => decide (dev = dev')
  | _ => true

theorem ops_content {dev : DeviceInfo} {ekm kex} : AllOps (fun o => evalOnly dev o = true) (decryptContent M msg dev ekm kex) := by
  unfold decryptContent
  refine .bind (.perform (decide_eq_true rfl)) fun l => ?_
  split
  · trivial
  · unfold keyMaterial plaintextOf decryptKeyMaterial handleKeyExchange
    lib_ops []

theorem ops_post {ns : Ns} {kex : Option KeyExchange} {s : Session} : AllOps (fun o => evalless o = true) (postDecrypt M ns kex s) :=
  ops_postDecrypt.mono fun o h => by cases o <;> first | rfl | (cases kex <;> cases h)

/-- Trust is evaluated for the device that was found. -/
theorem eval_sender {t : List Ev} {r} {dev : DeviceInfo} {x : Except Exn TrustLevel} (he : Exec (decrypt M msg) t r) (hm : (⟨.evalTrust dev, x⟩ : Ev) ∈ t) :
    ∃ e t1 t2, t = e :: (t1 ++ t2) ∧ (∀ w, Lib.ok w e → Lib.next w e = w) ∧ Exec (findSender M msg) t1 (.ok dev) ∧ (⟨.evalTrust dev, x⟩ : Ev) ∈ t2 := by
  have quiet : ∀ {u : List Ev}, (∀ e ∈ u, Op.looks e.1 = true) → (⟨.evalTrust dev, x⟩ : Ev) ∉ u := fun h hm => by cases h _ hm
  unfold decrypt at he
  rcases exec_call_bind.1 he with ⟨rfl, _⟩ | ⟨e', rfl, _⟩ | ⟨bs, t', rfl, h⟩
  · cases hm
  · cases List.mem_singleton.1 hm
  rcases List.mem_cons.1 hm with hm | hm
  · cases hm
  split at h
  · cases h; cases hm
  split at h
  · cases h; cases hm
  · rcases exec_seq.1 h with ⟨t1, dev', t2, rfl, h1, h2⟩ | ⟨e', h1, _⟩ | ⟨h1, _⟩
    · rcases List.mem_append.1 hm with hm | hm
      · exact absurd hm (quiet (ops_findSender.exec h1))
      · have : dev' = dev := by
          rcases exec_seq.1 h2 with ⟨t3, x3, t4, rfl, h3, h4⟩ | ⟨e', h3, _⟩ | ⟨h3, _⟩
          · rcases List.mem_append.1 hm with hm | hm
            · exact of_decide_eq_true (ops_content.exec h3 _ hm)
            · rcases exec_seq.1 h4 with ⟨t5, _, t6, rfl, h5, h6⟩ | ⟨e', h5, _⟩ | ⟨h5, _⟩
              · obtain ⟨rfl, _⟩ := exec_pure.1 h6
                cases ops_post.exec h5 _ (by simpa using hm)
              · cases ops_post.exec h5 _ hm
              · cases ops_post.exec h5 _ hm
          · exact of_decide_eq_true (ops_content.exec h3 _ hm)
          · exact of_decide_eq_true (ops_content.exec h3 _ hm)
        subst this
        exact ⟨_, t1, t2, rfl, fun w _ => rfl, h1, hm⟩
    · exact absurd hm (quiet (ops_findSender.exec h1))
    · exact absurd hm (quiet (ops_findSender.exec h1))

theorem not_decrypt {o : Op} {j : Jid} {ik : Bytes} (h : Foot.Decrypt M msg o) : (∀ v, o ≠ .store (.trust j ik) v) ∧ o ≠ .delete (.trust j ik) := by
  cases h with
  | info h => cases h <;> exact ⟨nofun, nofun⟩
  | refresh h =>
    cases h with
    | download => exact ⟨nofun, nofun⟩
    | update h => cases h <;> exact ⟨nofun, nofun⟩
  | sendEmpty h => cases h <;> exact ⟨nofun, nofun⟩
  | _ => exact ⟨nofun, nofun⟩

/-- The conditions on what is stored and published make the message readable. -/
theorem readable {t : List Ev} {r} {w w' : World} (he : Exec (decrypt M msg) t r) (hr : Lib.Runs w t w')
    (hc : Hearing lvl M w msg.ns msg.bareJid msg.deviceId ik t) (ha : ∃ k ∈ msg.keys, k.1.bareJid = M.ownJid ∧ k.1.deviceId = M.ownDev)
    (hk : ∀ k ∈ msg.keys, k.1.bareJid = M.ownJid ∧ k.1.deviceId = M.ownDev →
      (k.2 = none → (⟨.loadSession msg.ns msg.bareJid msg.deviceId, .ok none⟩ : Ev) ∉ t) ∧ ∀ x, k.2 = some x → x.identityKey = ik) :
    Readable M w msg t := by
  refine ⟨hc.smooth, hc.stay, hc.loaded, ha, hc.known, fun dev hm => ?_, fun k hm' ho => ⟨(hk k hm' ho).1, fun x hx dev l hm => ?_⟩⟩
  · obtain ⟨e, t1, t2, rfl, hq, h1, h2⟩ := eval_sender he hm
    obtain ⟨u, v, rfl⟩ := List.append_of_mem h2
    have hlev := hc.evaluates dev .distrusted hm
    have hj := (exec_findSender h1).bareJid
    have hsplit : e :: (t1 ++ (u ++ ⟨.evalTrust dev, .ok .distrusted⟩ :: v)) = (e :: (t1 ++ u)) ++ ⟨.evalTrust dev, .ok .distrusted⟩ :: v := by simp
    rw [hsplit] at he hr
    obtain ⟨w1, hr1, _⟩ := Lib.runs_split hr
    have hI : Unrefused lvl w1.disk msg.bareJid :=
      (keep_ops msg.bareJid (ops_decrypt M msg) (fun ik v h => (not_decrypt h).1 v rfl) fun ik h => (not_decrypt h).2 rfl).run (exec_prefix he (by simp)) hr1 hc.welcome
    rcases C98_decrypt M msg _ r w w' he hr _ dev _ v rfl w1 hr1 with h3 | ⟨_, h3⟩
    · rw [hj] at h3
      exact hI _ _ h3 hlev.symm
    · rw [h3] at hlev
      exact hc.undecided hlev.symm
  · obtain ⟨e, t1, t2, rfl, hq, h1, _⟩ := eval_sender he hm
    obtain ⟨w1, hr1, _⟩ := Lib.runs_split (t1 := t1) (hq w hr.1 ▸ hr.2)
    rw [(hk k hm' ho).2 x hx]
    exact (sender_key h1 hr1 hc.stored fun ns b hb => hc.published ns b (.tail _ (List.mem_append_left _ hb))).symm

end Talk

/-- C99, receiving: `decrypt` succeeds, unless something it calls fails or the process dies, if the message carries a key for this device, the identity
key of the sender is the one that is stored or published, no trust level refuses the sender, and there is a session or a key exchange made with that identity
key.  Nothing has to be known about the sending device, as long as it is in its device list. -/
theorem C99_decrypt (lvl : String → TrustLevel) (own : Jid) (x : XEdDSA) (s0 s : Use) (M : Mgr) (msg : Message) (ik : Bytes) (t : List Ev)
    (r : Res Exn (Option Bytes × DeviceInfo × PlainKM)) (w' : World) (hnew : New s0) (ht : Typed s0.world.disk) (h : Course own x s0 s [])
    (hM : M ∈ s.mgrs) (hcare : Careful M) (he : Exec (decrypt M msg) t r) (hr : Lib.Runs s.world t w')
    (hc : Hearing lvl M s.world msg.ns msg.bareJid msg.deviceId ik t) (ha : ∃ k ∈ msg.keys, k.1.bareJid = M.ownJid ∧ k.1.deviceId = M.ownDev)
    (hk : ∀ k ∈ msg.keys, k.1.bareJid = M.ownJid ∧ k.1.deviceId = M.ownDev →
      (k.2 = none → (⟨.loadSession msg.ns msg.bareJid msg.deviceId, .ok none⟩ : Ev) ∉ t) ∧ ∀ x, k.2 = some x → x.identityKey = ik) :
    r = .crashed ∨ ∃ p dev km, r = .ok (p, dev, km) ∧ (dev.bareJid = msg.bareJid ∧ dev.deviceId = msg.deviceId) ∧
      (p = none ↔ msg.content.empty = true) :=
  C83_decrypt own x s0 s M msg t r w' hnew ht h hM hcare he hr (Talk.readable he hr hc ha hk)

/-- C99: device `A` encrypts for, among others, device `B`, which it can address and has not refused.  Then, unless something that is called fails or a process dies,
`B` can decrypt the message and gets the plaintext that `A` gave - if the key exchanges of `A` are made with the identity key that is stored or published for `A`,
and if `B` has a session in case `A` takes it for granted. -/
theorem C99 (lvl lvl' : String → TrustLevel) (own : Jid) (x : XEdDSA) (s0 s : Use) (A : Mgr) (jids : List Jid) (pt : Dict Ns Bytes) (prio : Option (List Ns))
    (i : Option String) (tA : List Ev) (rA : Res Exn (Dict Message PlainKM × List EncError)) (wA : World)
    (hnew : New s0) (ht : Typed s0.world.disk) (h : Course own x s0 s []) (hM : A ∈ s.mgrs) (hcare : Careful A) (hw : Welcoming lvl A)
    (he : Exec (encrypt A jids pt prio i) tA rA) (hr : Lib.Runs s.world tA wA) (hA : Addressed tA) (hc : Open lvl A s.world jids pt prio tA)
    (own' : Jid) (x' : XEdDSA) (u0 u : Use) (B : Mgr) (hnew' : New u0) (ht' : Typed u0.world.disk) (h' : Course own' x' u0 u []) (hM' : B ∈ u.mgrs)
    (hcare' : Careful B) (hj : B.ownJid ∈ jids ∨ B.ownJid = A.ownJid) (hne : ¬ (B.ownJid = A.ownJid ∧ B.ownDev = A.ownDev))
    (hd : Reachable s.world.disk (prio.getD s.world.backends) B.ownJid B.ownDev) (hun : Unrefused lvl s.world.disk B.ownJid)
    (ik : Bytes) (hik : ∀ ns m k z, Served tA ns B.ownJid B.ownDev m k z → z.initiation = .active ∧ z.confirmed = false → z.keyExchange.identityKey = ik) :
    rA = .crashed ∨ ∃ msgs, rA = .ok (msgs, []) ∧ ∃ y ∈ msgs, (∃ k, keysFor y.1 B.ownJid B.ownDev = [k]) ∧
      ∀ tB rB wB, Exec (decrypt B y.1) tB rB → Lib.Runs u.world tB wB → Hearing lvl' B u.world y.1.ns A.ownJid A.ownDev ik tB → Fitting tA tB →
        ((∃ m k z, Served tA y.1.ns B.ownJid B.ownDev m k z ∧ ¬ (z.initiation = .active ∧ z.confirmed = false)) →
          (⟨.loadSession y.1.ns A.ownJid A.ownDev, .ok none⟩ : Ev) ∉ tB) →
        rB = .crashed ∨ ∃ b dev, rB = .ok (some b, dev, y.2) ∧ pt.get y.1.ns = some b ∧ dev.bareJid = A.ownJid ∧ dev.deviceId = A.ownDev := by
  rcases C99_encrypt lvl own x s0 s A jids pt prio i tA rA wA hnew ht h hM hcare hw he hr hA hc with h1 | ⟨msgs, rfl, h1⟩
  · exact .inl h1
  obtain ⟨_, y, hy, ⟨k, hk⟩, _⟩ := h1 _ _ hj hne hd hun
  refine .inr ⟨msgs, rfl, y, hy, ⟨k, hk⟩, fun tB rB wB heB hrB hcB hf hses => ?_⟩
  have hb1 : BackendsOnce tA := fun bs h => by rw [lib_backends hr hc.stay bs h]; exact hc.once
  obtain ⟨hmj, hmd, _⟩ := (C68_messages A jids pt prio i tA msgs [] hw.quiet he hb1).1 y hy
  have hmem : k ∈ y.1.keys ∧ k.1.bareJid = B.ownJid ∧ k.1.deviceId = B.ownDev := by
    have : k ∈ keysFor y.1 B.ownJid B.ownDev := by rw [hk]; simp
    simpa [keysFor] using this
  have hkeys : ∀ k' ∈ y.1.keys, k'.1.bareJid = B.ownJid ∧ k'.1.deviceId = B.ownDev →
      (k'.2 = none → (⟨.loadSession y.1.ns y.1.bareJid y.1.deviceId, .ok none⟩ : Ev) ∉ tB) ∧ ∀ z, k'.2 = some z → z.identityKey = ik := by
    intro k' hk' ho
    obtain ⟨j, d, z, hserved, hrule⟩ := C35_encrypt A jids pt prio i tA msgs [] hw.quiet he hb1 y hy k' hk'
    obtain ⟨rfl, rfl⟩ : j = B.ownJid ∧ d = B.ownDev := by
      obtain ⟨_, g1, g2⟩ := served_addr hA hserved
      exact ⟨g1.symm.trans ho.1, g2.symm.trans ho.2⟩
    rw [hmj, hmd]
    by_cases hz : z.initiation = .active ∧ z.confirmed = false
    · have := hrule.1 hz
      refine ⟨fun hn => by rw [hn] at this; (cases this), fun z' hz' => ?_⟩
      rw [hz'] at this
      cases this
      exact hik _ _ _ _ hserved hz
    · have := hrule.2 hz
      exact ⟨fun _ => hses ⟨_, _, _, hserved, hz⟩, fun z' hz' => by rw [this] at hz'; (cases hz')⟩
  rcases C99_decrypt lvl' own' x' u0 u B y.1 ik tB rB wB hnew' ht' h' hM' hcare' heB hrB (by rw [hmj, hmd]; exact hcB) ⟨k, hmem⟩ hkeys with
    h2 | ⟨p, dev, km, rfl, _, _⟩
  · exact .inl h2
  · obtain ⟨⟨b, rfl, h3⟩, rfl, h4, _⟩ := C79_round_trip A B jids pt prio i tA tB msgs [] hw.quiet he hb1 hA y hy p dev km heB hf
    exact .inr ⟨b, dev, rfl, h3, h4⟩

/-- C99, for strangers: as above, for a first message.  `A` has no session with `B` yet, new sessions are active and not confirmed, and their key exchanges
carry the identity key of `A`.  `B` need not have a session. -/
theorem C99_strangers (lvl lvl' : String → TrustLevel) (own : Jid) (x : XEdDSA) (s0 s : Use) (A : Mgr) (jids : List Jid) (pt : Dict Ns Bytes)
    (prio : Option (List Ns)) (i : Option String) (tA : List Ev) (rA : Res Exn (Dict Message PlainKM × List EncError)) (wA : World)
    (hnew : New s0) (ht : Typed s0.world.disk) (h : Course own x s0 s []) (hM : A ∈ s.mgrs) (hcare : Careful A) (hw : Welcoming lvl A)
    (he : Exec (encrypt A jids pt prio i) tA rA) (hr : Lib.Runs s.world tA wA) (hA : Addressed tA) (hc : Open lvl A s.world jids pt prio tA)
    (own' : Jid) (x' : XEdDSA) (u0 u : Use) (B : Mgr) (hnew' : New u0) (ht' : Typed u0.world.disk) (h' : Course own' x' u0 u []) (hM' : B ∈ u.mgrs)
    (hcare' : Careful B) (hj : B.ownJid ∈ jids ∨ B.ownJid = A.ownJid) (hne : ¬ (B.ownJid = A.ownJid ∧ B.ownDev = A.ownDev))
    (hd : Reachable s.world.disk (prio.getD s.world.backends) B.ownJid B.ownDev) (hun : Unrefused lvl s.world.disk B.ownJid)
    (ik : Bytes) (hfirst : ∀ ns z, (⟨.loadSession ns B.ownJid B.ownDev, .ok (some z)⟩ : Ev) ∉ tA)
    (hbuilt : ∀ ns b m z k, (⟨.buildActive ns B.ownJid B.ownDev b m, .ok (z, k)⟩ : Ev) ∈ tA →
      z.initiation = .active ∧ z.confirmed = false ∧ z.keyExchange.identityKey = ik) :
    rA = .crashed ∨ ∃ msgs, rA = .ok (msgs, []) ∧ ∃ y ∈ msgs, (∃ k, keysFor y.1 B.ownJid B.ownDev = [k]) ∧
      ∀ tB rB wB, Exec (decrypt B y.1) tB rB → Lib.Runs u.world tB wB → Hearing lvl' B u.world y.1.ns A.ownJid A.ownDev ik tB → Fitting tA tB →
        rB = .crashed ∨ ∃ b dev, rB = .ok (some b, dev, y.2) ∧ pt.get y.1.ns = some b ∧ dev.bareJid = A.ownJid ∧ dev.deviceId = A.ownDev := by
  have hs : ∀ ns m k z, Served tA ns B.ownJid B.ownDev m k z → z.initiation = .active ∧ z.confirmed = false ∧ z.keyExchange.identityKey = ik := by
    rintro ns m k z ⟨h1, e, h2, rfl, ⟨b, hb⟩ | ⟨z0, hz0, hl⟩, hg⟩
    · rcases hg with ⟨_, _, _, _, _, rfl⟩ | ⟨_, _, _, rfl⟩ <;> cases hb
      exact hbuilt _ _ _ _ _ (List.mem_append_right _ (.head _))
    · exact absurd (List.mem_append_left _ (List.mem_of_getLast? hl)) (hfirst ns z0)
  rcases C99 lvl lvl' own x s0 s A jids pt prio i tA rA wA hnew ht h hM hcare hw he hr hA hc own' x' u0 u B hnew' ht' h' hM' hcare' hj hne hd hun ik
    (fun ns m k z h1 _ => (hs ns m k z h1).2.2) with h1 | ⟨msgs, h1, y, hy, h2, h3⟩
  · exact .inl h1
  · refine .inr ⟨msgs, h1, y, hy, h2, fun tB rB wB h4 h5 h6 h7 => h3 tB rB wB h4 h5 h6 h7 ?_⟩
    rintro ⟨m, k, z, h8, h9⟩
    exact absurd ⟨(hs _ _ _ _ h8).1, (hs _ _ _ _ h8).2.1⟩ h9

/-! ### The reference implementation -/

/-- C99: the trust decision of the reference implementation meets the condition. -/
theorem C99_reference (M : Mgr) (hu : M.undecided = "UNDECIDED") : Welcoming Ref.level (Ref.mgr M) where
  decisive := (C94 M hu).decisive
  quiet := (C94 M hu).quiet
  callback _ _ _ _ he := Ref.raises_decide he
  welcomes ds i t r w w' he hr j hw := by
    have key : ∀ done : List DeviceInfo, (∀ k, w'.disk k = if ∃ dev ∈ done, k = .trust dev.bareJid dev.identityKey then some (.str "TRUSTED") else w.disk k) →
        Unrefused Ref.level w'.disk j := by
      intro done hd ik s hs
      rw [hd] at hs
      split at hs
      · cases hs; decide
      · exact hw ik s hs
    have := wp_sound (Ref.wp_decide ds i w) he hr
    cases r with
    | ok _ => exact key ds this
    | raised _ => obtain ⟨done, _, h⟩ := this; exact key done h
    | crashed => obtain ⟨done, _, h⟩ := this; exact key done h

/-- C99, with the servers of the reference implementation: a device of another account that is in its device list, and whose bundles have one identity key, is found
in the list, and with this identity key, by `decrypt`. -/
theorem C99_hosted (M : Mgr) (msg : Message) (t : List Ev) (r : Res Exn (Option Bytes × DeviceInfo × PlainKM)) (c c' : Ref.Cloud) (ns : Ns) (j : Jid)
    (d : DevId) (ik : Bytes) (he : Exec (decrypt (Ref.mgr M) msg) t r) (hr : (Ref.Hosted M.ownJid).Runs c t c') (hl : Ref.Labelled t) (hj : j ≠ M.ownJid)
    (hlist : ∃ l x, c.lists ns j = some l ∧ l.get d = some x) (hbundle : ∀ n b, c.bundles n j d = some b → b.identityKey = ik) :
    (∀ l, (⟨.downloadList ns j, .ok l⟩ : Ev) ∈ t → ∃ x, l.get d = some x) ∧ ∀ n b, Downloaded t n j d b → b.identityKey = ik := by
  have same : ∀ u e v, t = u ++ e :: v → ∃ c1, (Ref.Hosted M.ownJid).ok c1 e ∧ c1.lists ns j = c.lists ns j ∧ ∀ n, c1.bundles n j d = c.bundles n j d := by
    rintro u e v rfl
    obtain ⟨c1, hr1, hr2⟩ := Sem.runs_append.1 hr
    have hcall : Exec ((Call.decrypt msg).run (Ref.mgr M)) u .crashed := exec_seq.2 (.inr (.inr ⟨exec_prefix he (by simp), rfl⟩))
    obtain ⟨h1, h2, _⟩ := C95 M (.decrypt msg) u _ c c1 hcall hr1 fun ns j d b h => hl ns j d b (List.mem_append_left _ h)
    exact ⟨c1, hr2.1, h1 ns j hj, fun n => h2 n j d fun h => hj h.1⟩
  refine ⟨fun l hm => ?_, fun n b hm => ?_⟩
  · obtain ⟨u, v, h⟩ := List.append_of_mem hm
    obtain ⟨c1, hok, h1, _⟩ := same u _ v h
    obtain ⟨l', x, h2, h3⟩ := hlist
    cases (show _ = _ from hok _ rfl)
    exact ⟨x, by rw [h1, h2]; exact h3⟩
  · obtain ⟨u, v, h⟩ := List.append_of_mem hm
    obtain ⟨c1, hok, _, h1⟩ := same u _ v h
    have hr := hok _ rfl
    dsimp only at hr
    rw [h1 n] at hr
    cases hb : c.bundles n j d with
    | none => rw [hb] at hr; cases hr
    | some b' =>
      rw [hb] at hr
      cases hr
      exact hbundle n _ hb

/-! ### Example: "me" and "a" start on empty servers, with the reference implementation, and "me" writes to "a" -/

namespace Talk

/-- Everything works on a device with the identity key `ik`, whose id comes from the random number `n`.  There are no sessions. -/
def social (ik : Bytes) (n : Nat) : World → (o : Op) → Except Exn o.Ret
  | _, .randBelow _ => .ok n
  | _, .getBundle ns j d => .ok ⟨ns, j, d, ik, 0⟩
  | _, .loadSession _ _ _ => .ok none
  | _, .buildActive ns j d _ m => .ok (⟨ns, j, d, .active, false, ⟨ik, 0⟩, none, 1, 0⟩, ⟨j, d, m.blob⟩)
  | _, .buildPassive ns j d x e => .ok (⟨ns, j, d, .passive, true, x, some 1, 0, 0⟩, ⟨e.blob⟩)
  | _, .encryptPlaintext _ p => .ok (⟨false, 1⟩, ⟨p.length⟩)
  | _, .decryptPlaintext _ _ _ => .ok [1]
  | _, .deletePreKey _ _ => .ok true
  | _, .hidePreKey _ _ => .ok true
  | w, o => genuine w o

theorem social_ok (ik : Bytes) (n : Nat) (w : World) (o : Op) (e : Exn) (h : social ik n w o = .error e) : e.isInternal = false := by
  cases o <;> simp only [social] at h <;> first | exact genuine_ok w _ e h | (cases h; done)

/-- A run on such a device. -/
def run {α : Type} (own : Jid) (ik : Bytes) (n : Nat) (p : P α) (x : World × Ref.Cloud) :=
  runProg (Ref.env (social ik n) own) (Lib.prod (Ref.Hosted own)).next 600 p x

theorem run_exec {α : Type} (own : Jid) (ik : Bytes) (n : Nat) (p : P α) (x : World × Ref.Cloud) : Exec p (run own ik n p x).1 (run own ik n p x).2.1 :=
  runProg_exec ..
theorem run_runs {α : Type} (own : Jid) (ik : Bytes) (n : Nat) (p : P α) (x : World × Ref.Cloud) :
    Lib.Runs x.1 (run own ik n p x).1 (run own ik n p x).2.2.1 ∧ (Ref.Hosted own).Runs x.2 (run own ik n p x).1 (run own ik n p x).2.2.2 :=
  Sem.runs_prod.1 (runProg_runs (Lib.prod (Ref.Hosted own)) (Ref.env (social ik n) own) (Ref.env_ok _ (social_ok ik n) own) 600 p x)

/-- The managers, and what they are created from. -/
def me : Mgr := Ref.mgr Mgr.btbv
def you : Mgr := Ref.mgr { Mgr.btbv with ownJid := "a", ownDev := 7 }

/-- "me" starts, then "a". -/
def begin1 := run "me" [1] 0 (create me ["n"] none 5) (World.fresh, .empty)
def begin2 := run "a" [7] 6 (create you ["n"] none 5) (World.fresh, begin1.2.2.2)
/-- "me" gets the device list of "a", and encrypts. -/
def looked := run "me" [1] 0 ((Call.refreshDeviceList "n" "a").run me) (begin1.2.2.1, begin2.2.2.2)
def wrote := run "me" [1] 0 (encrypt me ["a"] [("n", [1])] none none) looked.2.2
/-- "a" decrypts. -/
def message : Message := ⟨"n", "me", 1, ⟨false, 1⟩, [(⟨"a", 7, 1⟩, some ⟨[1], 0⟩)]⟩
def read := run "a" [7] 6 (decrypt you message) (begin2.2.2.1, wrote.2.2.2)

/-- What is checked of the interactions: no failures, backends stay, trust is evaluated by its level, bundles of "me" have the key [1]. -/
def fine : Ev → Bool
  | ⟨_, .error _⟩ => false
  | ⟨.setBackends _, _⟩ => false
  | ⟨.evalTrust dev, .ok l⟩ => decide (l = Ref.level dev.trustLevelName)
  | ⟨.loadSession _ _ _, .ok s⟩ => s.isNone
  | ⟨.buildActive _ j d _ m, .ok (s, k)⟩ => decide (s.bareJid = j ∧ s.deviceId = d ∧ k.bareJid = j ∧ k.deviceId = d ∧ s.initiation = .active ∧
      s.confirmed = false ∧ s.keyExchange.identityKey = [1] ∧ k.blob = m.blob)
  | ⟨.downloadBundle _ "me" 1, .ok b⟩ => decide (b.identityKey = [1])
  | ⟨.downloadList "n" "me", .ok l⟩ => (l.get 1).isSome
  | ⟨.encryptPlaintext _ p, .ok (c, _)⟩ => decide (p = [1] ∧ c.empty = false)
  | ⟨.decryptPlaintext _ _ _, .ok p⟩ => decide (p = [1])
  | ⟨.buildPassive _ _ _ _ e, .ok (_, k)⟩ => decide (k.blob = e.blob)
  | ⟨.encryptKM _ s _, .ok (k, s')⟩ => decide (s'.bareJid = s.bareJid ∧ s'.deviceId = s.deviceId ∧ k.bareJid = s.bareJid ∧ k.deviceId = s.deviceId)
  | ⟨.decryptKM _ _ _, _⟩ => false
  | _ => true

theorem fine_wrote : wrote.1.all fine = true := by decide +kernel
theorem fine_read : read.1.all fine = true := by decide +kernel

theorem looked_trust (ik : Bytes) : looked.2.2.1.disk (.trust "a" ik) = none := by rfl
theorem begin2_trust (ik : Bytes) : begin2.2.2.1.disk (.trust "me" ik) = none := by rfl

theorem of_fine {t : List Ev} (h : t.all fine = true) {e : Ev} (hm : e ∈ t) : fine e = true := List.all_eq_true.1 h e hm

theorem fine_smooth {t : List Ev} (h : t.all fine = true) (e : Exn) : ¬ ErrIn t e := by
  rintro ⟨⟨o, x⟩, hm, hx⟩
  cases (show x = .error e from hx)
  have := of_fine h hm
  cases o <;> cases this

theorem fine_stay {t : List Ev} (h : t.all fine = true) : ∀ e ∈ t, ∀ bs, e.1 ≠ .setBackends bs := by
  rintro ⟨o, x⟩ hm bs hb
  cases (show o = .setBackends bs from hb)
  have := of_fine h hm
  cases x <;> cases this

theorem fine_evaluates {t : List Ev} (h : t.all fine = true) : EvaluatesBy Ref.level t := fun dev l hm =>
  of_decide_eq_true (show decide (l = Ref.level dev.trustLevelName) = true from of_fine h hm)

theorem fine_build {t : List Ev} (h : t.all fine = true) {ns j d b m s k} (hm : (⟨.buildActive ns j d b m, .ok (s, k)⟩ : Ev) ∈ t) :
    s.bareJid = j ∧ s.deviceId = d ∧ k.bareJid = j ∧ k.deviceId = d ∧ s.initiation = .active ∧
      s.confirmed = false ∧ s.keyExchange.identityKey = [1] ∧ k.blob = m.blob := of_decide_eq_true (of_fine h hm)

theorem fine_addressed {t : List Ev} (h : t.all fine = true) : Addressed t where
  load ns j d s hm := by cases of_fine h hm
  build ns j d b m s k hm := by
    obtain ⟨h1, h2, h3, h4, _⟩ := fine_build h hm
    exact ⟨⟨h1, h2⟩, h3, h4⟩
  encrypt ns s m k s' hm := by
    obtain ⟨h1, h2, h3, h4⟩ := of_decide_eq_true (show decide (s'.bareJid = s.bareJid ∧ s'.deviceId = s.deviceId ∧ k.bareJid = s.bareJid ∧ k.deviceId = s.deviceId) = true from of_fine h hm)
    exact ⟨⟨h1, h2⟩, h3, h4⟩

theorem me_careful : Careful me := fun _ _ ds i => Ref.app_decide ds i
theorem you_careful : Careful you := fun _ _ ds i => Ref.app_decide ds i

def useMe : Use := ⟨looked.2.2.1, [me]⟩
def useYou : Use := ⟨begin2.2.2.1, [you]⟩

theorem course_me : Course "me" Mgr.ex.x Use.fresh useMe [] := by
  have h1 : begin1.2.1 = .ok 1 := by decide +kernel
  have e1 : Exec (create me ["n"] none 5) begin1.1 (.ok 1) := h1 ▸ run_exec ..
  have s1 : Step "me" Mgr.ex.x Use.fresh (me, .create ["n"] none 5) ⟨begin1.2.2.1, [me]⟩ :=
    .create (s := Use.fresh) me ["n"] none 5 rfl rfl e1 (run_runs "me" [1] 0 _ (World.fresh, .empty)).1
  exact .step _ (.step _ .start (C94 _ rfl).viaApi (fun _ h => by cases h) s1) (C94 _ rfl).viaApi (fun _ h => by cases h)
    (.call (s := ⟨begin1.2.2.1, [me]⟩) me (.refreshDeviceList "n" "a") (.head _) nofun (run_exec ..) (run_runs "me" [1] 0 _ (begin1.2.2.1, begin2.2.2.2)).1)

theorem course_you : Course "a" Mgr.ex.x Use.fresh useYou [] := by
  have h1 : begin2.2.1 = .ok 7 := by decide +kernel
  have e1 : Exec (create you ["n"] none 5) begin2.1 (.ok 7) := h1 ▸ run_exec ..
  have s1 : Step "a" Mgr.ex.x Use.fresh (you, .create ["n"] none 5) useYou :=
    .create (s := Use.fresh) you ["n"] none 5 rfl rfl e1 (run_runs "a" [7] 6 _ (World.fresh, begin1.2.2.2)).1
  exact .step _ .start (C94 _ rfl).viaApi (fun _ h => by cases h) s1

theorem reachable_you : Reachable useMe.world.disk ((none : Option (List Ns)).getD useMe.world.backends) "a" 7 :=
  ⟨⟨[7], rfl, by decide⟩, "n", by decide +kernel, ⟨["n"], rfl, by decide⟩, ⟨[("n", true)], rfl, rfl⟩⟩

theorem wrote_open : Open Ref.level me useMe.world ["a"] [("n", [1])] none wrote.1 where
  smooth := fine_smooth fine_wrote
  once := by decide +kernel
  stay := fine_stay fine_wrote
  plaintext := by decide +kernel
  order := nofun
  evaluates := fine_evaluates fine_wrote
  recipients j hj _ := by
    cases List.mem_singleton.1 hj
    exact ⟨⟨7, reachable_you⟩, fun ik s h => by cases (looked_trust ik).symm.trans h⟩

theorem read_hearing : Hearing Ref.level you useYou.world "n" "me" 1 [1] read.1 where
  smooth := fine_smooth fine_read
  stay := fine_stay fine_read
  loaded := by decide +kernel
  known := .inr fun l hm => Option.isSome_iff_exists.1 (show (l.get 1).isSome = true from of_fine fine_read hm)
  stored v hv := by
    have : useYou.world.disk (.devIdentityKey "me" 1) = none := by rfl
    cases this.symm.trans hv
  published n b hm := of_decide_eq_true (show decide (b.identityKey = [1]) = true from of_fine fine_read hm)
  evaluates := fine_evaluates fine_read
  undecided := by decide
  welcome ik s h := by cases (begin2_trust ik).symm.trans h

theorem fitting : Fitting wrote.1 read.1 where
  keys ns e e' k m s m' he he' hw hg := by
    have h1 : k.blob = m.blob := by
      rcases hw with ⟨_, _, _, _, rfl⟩ | ⟨s0, _, rfl⟩
      · exact (fine_build fine_wrote he).2.2.2.2.2.2.2
      · have : wrote.1.all (fun e => match e.1 with | .encryptKM .. => false | _ => true) = true := by decide +kernel
        cases List.all_eq_true.1 this _ he
    have h2 : m'.blob = k.blob := by
      rcases hg with ⟨_, rfl⟩ | ⟨_, _, _, rfl⟩
      · cases of_fine fine_read he'
      · exact of_decide_eq_true (of_fine fine_read he')
    cases m; cases m'; simp_all
  content ns p c m p' he he' := by
    have h1 := of_decide_eq_true (show decide (p = [1] ∧ c.empty = false) = true from of_fine fine_wrote he)
    have h2 := of_decide_eq_true (show decide (p' = [1]) = true from of_fine fine_read he')
    rw [h1.1, h2]
  filled ns p c m he := (of_decide_eq_true (show decide (p = [1] ∧ c.empty = false) = true from of_fine fine_wrote he)).2

/-- Only bundles of the backend "n" are uploaded. -/
def onlyN : Ev → Bool
  | ⟨.uploadBundle b, _⟩ => decide (b.ns = "n")
  | ⟨.deleteBundle _ _, _⟩ => false
  | _ => true

theorem other_bundles {own : Jid} {c c' : Ref.Cloud} {t : List Ev} (hr : (Ref.Hosted own).Runs c t c') (h : t.all onlyN = true) {n : Ns} (hn : n ≠ "n")
    (j : Jid) (d : DevId) : c'.bundles n j d = c.bundles n j d := by
  induction t generalizing c with
  | nil => cases hr; rfl
  | cons e t ih =>
    simp only [List.all_cons, Bool.and_eq_true] at h
    rw [ih hr.2 h.2]
    obtain ⟨o, x⟩ := e
    cases o <;> first
      | rfl
      | (cases h.1; done)
      | skip
    rename_i b
    have hb : b.ns = "n" := of_decide_eq_true h.1
    show (if _ then _ else _) = _
    rw [if_neg fun g => hn (g.1.trans hb)]

theorem wrote_bundles (n : Ns) (b : Bundle) (h : wrote.2.2.2.bundles n "me" 1 = some b) : b.identityKey = [1] := by
  by_cases hn : n = "n"
  · subst hn
    have : wrote.2.2.2.bundles "n" "me" 1 = some ⟨"n", "me", 1, [1], 0⟩ := by decide +kernel
    cases this.symm.trans h
    rfl
  · rw [show wrote.2.2.2.bundles n "me" 1 = _ from other_bundles (run_runs "me" [1] 0 _ looked.2.2).2 (by decide +kernel) hn _ _,
      show looked.2.2.2.bundles n "me" 1 = _ from other_bundles (run_runs "me" [1] 0 _ (begin1.2.2.1, begin2.2.2.2)).2 (by decide +kernel) hn _ _,
      show begin2.2.2.2.bundles n "me" 1 = _ from other_bundles (run_runs "a" [7] 6 _ (World.fresh, begin1.2.2.2)).2 (by decide +kernel) hn _ _,
      show begin1.2.2.2.bundles n "me" 1 = _ from other_bundles (run_runs "me" [1] 0 _ (World.fresh, .empty)).2 (by decide +kernel) hn _ _] at h
    cases h

end Talk

/-- The hypotheses of `C99_strangers` are met: "me" and "a" start on empty servers, and "a" can read the first message of "me", from a device it did not know. -/
theorem C99_example : ∃ dev, Talk.read.2.1 = .ok (some [1], dev, ⟨1⟩) ∧ dev.bareJid = "me" ∧ dev.deviceId = 1 := by
  have hres : Talk.wrote.2.1 = .ok ([(Talk.message, ⟨1⟩)], []) := by decide +kernel
  have h := C99_strangers Ref.level Ref.level "me" Mgr.ex.x Use.fresh Talk.useMe Talk.me ["a"] [("n", [1])] none none Talk.wrote.1 Talk.wrote.2.1 Talk.wrote.2.2.1
    fresh_new nofun Talk.course_me (.head _) Talk.me_careful (C99_reference _ rfl) (Talk.run_exec ..) (Talk.run_runs "me" [1] 0 _ Talk.looked.2.2).1
    (Talk.fine_addressed Talk.fine_wrote) Talk.wrote_open "a" Mgr.ex.x Use.fresh Talk.useYou Talk.you fresh_new nofun Talk.course_you (.head _)
    Talk.you_careful (.inl (.head _)) (fun h => absurd h.1 (by decide)) Talk.reachable_you
    (fun ik s h => by cases (Talk.looked_trust ik).symm.trans h) [1] (fun ns z hm => by cases Talk.of_fine Talk.fine_wrote hm)
    (fun ns b m z k hm => by
      obtain ⟨_, _, _, _, h1, h2, h3, _⟩ := Talk.fine_build Talk.fine_wrote hm
      exact ⟨h1, h2, h3⟩)
  rcases h with h | ⟨msgs, h1, y, hy, _, h2⟩
  · rw [hres] at h; cases h
  · rw [hres] at h1
    cases h1
    cases List.mem_singleton.1 hy
    have hcr : (match Talk.read.2.1 with | .crashed => true | _ => false) = false := by decide +kernel
    rcases h2 Talk.read.1 Talk.read.2.1 _ (Talk.run_exec ..) (Talk.run_runs "a" [7] 6 _ (Talk.begin2.2.2.1, Talk.wrote.2.2.2)).1 Talk.read_hearing Talk.fitting with
      h3 | ⟨b, dev, h3, h4, h5⟩
    · rw [h3] at hcr; cases hcr
    · cases h4
      exact ⟨dev, h3, h5⟩

/-- The hypotheses of `C99_hosted` are met there: what "me" has published is on the servers when "a" decrypts. -/
theorem C99_hosted_example : (Ref.Hosted "a").Runs Talk.wrote.2.2.2 Talk.read.1 Talk.read.2.2.2 ∧ Ref.Labelled Talk.read.1 ∧
    Talk.wrote.2.2.2.lists "n" "me" = some [(1, none)] ∧ ∀ n b, Talk.wrote.2.2.2.bundles n "me" 1 = some b → b.identityKey = [1] := by
  refine ⟨(Talk.run_runs "a" [7] 6 _ (Talk.begin2.2.2.1, Talk.wrote.2.2.2)).2, ?_, by decide +kernel, Talk.wrote_bundles⟩
  · intro ns j d b h
    obtain ⟨w, hw⟩ := runProg_answers _ _ _ _ _ _ h
    cases hw
    exact ⟨rfl, rfl, rfl⟩

end Verif
