import Verif.Props.EncryptResult
import Verif.Props.Exceptions
import Verif.Props.Intact
import Verif.Props.Refresh
import Verif.Props.RoundTrip
/-
C83: messages get through.
-/
namespace Verif
open Spec SM

/-- Device `d` of `j` can be addressed with one of the given namespaces: it is stored as known, as supporting and as active for one of them. -/
def Spec.Reachable (m : Disk) (order : List Ns) (j : Jid) (d : DevId) : Prop :=
  Known m j d ∧ ∃ ns ∈ order, Advertises m j d ns ∧ Activity m j d ns true

namespace Delivery
variable {M : Mgr} {jids : List Jid} {pt : Dict Ns Bytes} {prio : Option (List Ns)} {i : Option String}

/-- `Spec.Reachable`, for one namespace. -/
def ReachableW (j : Jid) (d : DevId) (ns : Ns) (w : World) : Prop :=
  Known w.disk j d ∧ Advertises w.disk j d ns ∧ Activity w.disk j d ns true

theorem pres_info' {j : Jid} {d : DevId} {ns : Ns} (jid : Jid) : Pres Lib (ReachableW j d ns) (getDeviceInformation' M jid) := by
  rintro w ⟨⟨l, h1, h2⟩, ⟨n, h3, h4⟩, ⟨a, h5, h6⟩⟩
  refine wp_mono (looked_info' jid w) fun r w' h => ?_
  have hact : w'.disk (.devActive j d) = some (.ofBools a) := (h.disk.frame (.devActive j d) fun _ => ⟨nofun, nofun⟩).trans h5
  refine ⟨⟨l, (h.disk.frame (.devList j) fun _ => ⟨nofun, nofun⟩).trans h1, h2⟩, ?_, ⟨a, hact, h6⟩⟩
  by_cases hj : j = jid
  · subst hj
    rcases h.disk.namespaces d with h7 | ⟨l0, a0, l', h7, h8, h9, h10⟩
    · exact ⟨n, h7.trans h3, h4⟩
    · rw [h3] at h7
      rw [h5] at h8
      simp only [Option.some.injEq] at h7 h8
      obtain rfl := ofStrs_inj' h7
      obtain rfl := ofBools_inj' h8
      exact ⟨l', h9, (h10 ns).2 ⟨h4, by rw [h6]; rfl⟩⟩
  · exact ⟨n, (h.disk.frame (.devNamespaces j d) fun _ => ⟨nofun, by rintro ⟨⟩; exact hj rfl⟩).trans h3, h4⟩

theorem pres_recipients {I : World → Prop} (h : ∀ jid, Pres Lib I (getDeviceInformation' M jid)) (order : List Ns) (js : List Jid) :
    Pres Lib I (recipientDevices M order js) := by
  unfold recipientDevices
  refine .bind (.mapAll fun j _ => h j) fun _ => .bind (.filterAll fun _ _ => ?_) fun _ => .bind (.mapAll fun _ _ => ?_) fun _ => .pure _
  all_goals
    unfold liftE
    split
    · exact .pure _
    · exact fun _ hw => hw

/-- What a program preserves holds at each of its interactions. -/
theorem at_event {α : Type} {p : P α} {I : World → Prop} (hp : Pres Lib I p) {t : List Ev} {r} {w w' : World} (he : Exec p t r)
    (hr : Lib.Runs w t w') (hw : I w) : ∀ e ∈ t, ∃ w1, I w1 ∧ Lib.ok w1 e := by
  intro e hm
  obtain ⟨t1, t2, rfl⟩ := List.append_of_mem hm
  obtain ⟨w1, hr1, hr2⟩ := Lib.runs_split hr
  exact ⟨w1, hp.run (exec_prefix he (by simp)) hr1 hw, hr2.1⟩

/-- A device that can be addressed is among the devices considered, or its identity key cannot be found out. -/
theorem considered_or {t1 : List Ev} {order devices cache infos} (hp : Prep M jids prio t1 order devices cache infos) {w w' : World}
    (hr : Lib.Runs w t1 w') {j : Jid} {d : DevId} (hj : j ∈ jids ∨ j = M.ownJid)
    (hown : ¬ (j = M.ownJid ∧ d = M.ownDev)) (ho : Reachable w.disk order j d) :
    (∃ dev ∈ devices, addr dev = (j, d)) ∨ Keyless t1 j d ∧ ∃ l, Loaded t1 (.devNamespaces j d) (.ofStrs l) ∧ (∃ ns, ns ∈ l) ∧
      ∀ ns ∈ l, (⟨.downloadBundle ns j d, .error .bundleDownloadFailed⟩ : Ev) ∈ t1 ∨ (⟨.downloadBundle ns j d, .error .bundleNotFound⟩ : Ev) ∈ t1 := by
  obtain ⟨hk, ns, hns, h1, h2⟩ := ho
  obtain ⟨e, t0, rfl, hex⟩ := hp.ran
  obtain ⟨bs, _, he, _⟩ := hp.chosen
  cases he
  have hev := at_event (pres_recipients (fun jid => pres_info' (M := M) jid) _ _) hex hr.2 (show ReachableW j d ns w from ⟨hk, h1, h2⟩)
  have hld : ∀ k v, (⟨.load k, .ok v⟩ : Ev) ∈ ⟨Op.getBackends, .ok bs⟩ :: t0 → ∃ w1, ReachableW j d ns w1 ∧ w1.disk k = v := by
    intro k v hm
    rcases List.mem_cons.1 hm with hm | hm
    · cases hm
    · obtain ⟨w1, h3, h4⟩ := hev _ hm
      exact ⟨w1, h3, h4.symm⟩
  obtain ⟨x, hx, rfl⟩ := (hp.recipients.asked j).2 (by simpa [setUnion] using hj)
  have hi := hp.recipients.info x hx
  obtain ⟨ids, g1, _, g3⟩ := hi.complete
  have hd : d ∈ ids := by
    rcases g1 with ⟨l, g1, rfl⟩ | ⟨g1, rfl⟩
    · obtain ⟨w1, ⟨⟨l', h3, h4⟩, _⟩, h5⟩ := hld _ _ g1
      rw [h3] at h5
      cases h5
      simpa [JVal.asInt] using h4
    · obtain ⟨w1, ⟨⟨l', h3, h4⟩, _⟩, h5⟩ := hld _ _ g1
      rw [h3] at h5
      cases h5
  have hl : ∀ l, Loaded (⟨Op.getBackends, .ok bs⟩ :: t0) (.devNamespaces x.1 d) (.ofStrs l) → ns ∈ l := by
    intro l h
    obtain ⟨w1, ⟨_, ⟨l', h3, h4⟩, _⟩, h5⟩ := hld _ _ h
    rw [h3] at h5
    simp only [Option.some.injEq] at h5
    obtain rfl := ofStrs_inj' h5
    exact h4
  rcases g3 d hd with ⟨dev, hdev, rfl⟩ | ⟨h2', l, h3, h4⟩
  · left
    have hbj := hi.bareJid dev hdev
    have hseen := hi.seen dev hdev
    obtain ⟨l, h3, h4, _⟩ := hseen.namespaces
    have hact := hseen.active
    rw [hbj] at h3 hact
    obtain ⟨w1, ⟨_, _, a, h5, h6⟩, h7⟩ := hld _ _ hact
    rw [h5] at h7
    simp only [Option.some.injEq] at h7
    obtain rfl := ofBools_inj' h7
    have hmem : ns ∈ dev.namespaces := (h4 ns).2 ⟨hl _ h3, by rw [h6]; rfl⟩
    obtain ⟨_, _, hc⟩ := applyPriority_spec (order := order) hseen
    rcases hc with ⟨_, hc⟩ | ⟨n, _, hf⟩
    · exact absurd ⟨ns, hns, hmem, h6⟩ hc
    · exact ⟨{ dev with namespaces := [n] }, (hp.recipients.devices _).2 ⟨x, hx, dev, hdev, by rw [hbj]; exact hown, n, hf, rfl⟩, by
        simp [addr, hbj]⟩
  · exact .inr ⟨⟨h2', l, h3, h4⟩, l, h3, ⟨ns, hl _ h3⟩, h4⟩

/-- A device that can be addressed is among the devices considered, if nothing fails. -/
theorem considered {t1 : List Ev} {order devices cache infos} (hp : Prep M jids prio t1 order devices cache infos) {w w' : World}
    (hr : Lib.Runs w t1 w') (hno : ∀ e, ¬ ErrIn t1 e) {j : Jid} {d : DevId} (hj : j ∈ jids ∨ j = M.ownJid)
    (hown : ¬ (j = M.ownJid ∧ d = M.ownDev)) (ho : Reachable w.disk order j d) : ∃ dev ∈ devices, addr dev = (j, d) := by
  rcases considered_or hp hr hj hown ho with h | ⟨_, l, _, ⟨ns, h1⟩, h2⟩
  · exact h
  · rcases h2 ns h1 with h | h
    · exact absurd ⟨_, h, rfl⟩ (hno _)
    · exact absurd ⟨_, h, rfl⟩ (hno _)

end Delivery

/-- Nothing stands in the way of encrypting, in state `w`, as far as the interactions `t` tell: nothing the library calls fails and the trust decision
raises nothing by itself, no backend is unloaded meanwhile, every loaded backend gets a plaintext, the priorities name loaded backends only, nothing stays undecided, and each
recipient has a device that can be addressed and that is trusted. -/
structure Spec.Clear (M : Mgr) (w : World) (jids : List Jid) (pt : Dict Ns Bytes) (prio : Option (List Ns)) (t : List Ev) : Prop where
  callback : ∀ ds i u e, Exec (M.decide ds i) u (.raised e) → ErrIn u e
  smooth : ∀ e, ¬ ErrIn t e
  once : w.backends.Nodup
  stay : ∀ e ∈ t, ∀ bs, e.1 ≠ .setBackends bs
  plaintext : ∀ ns ∈ w.backends, pt.get ns ≠ none
  order : ∀ l, prio = some l → ∀ ns ∈ l, ns ∈ w.backends
  decided : ∀ dev, ¬ LastEval t dev .undecided
  recipients : ∀ j ∈ jids, j ≠ M.ownJid → ∃ d, Reachable w.disk (prio.getD w.backends) j d ∧
    ∀ dev l, dev.bareJid = j → dev.deviceId = d → LastEval t dev l → l = .trusted

namespace Delivery
variable {M : Mgr} {jids : List Jid} {pt : Dict Ns Bytes} {prio : Option (List Ns)} {i : Option String}

/-- Under these conditions no recipient is missing. -/
theorem none_missing {t1 t2 t4 w order devices cache infos out v1 v2 tm v3 bs st os} {wd : World} (hdec : CallbackQuiet M.decide)
    (hp : Prep M jids prio t1 order devices cache infos)
    (ha : Agreed M devices i t1 t2 out v1 v2 tm) (ht : ∀ e ∈ t4, Op.sends e.1 = true)
    (ho : Outer M pt cache (trustedOf M out v3) bs (t1 ++ t2 ++ evals (M.O.iter out) v3 ++ ⟨.getBackends, .ok bs⟩ :: t4) st os)
    (hw : ∀ e ∈ w, ∀ dev', e.1 ≠ .evalTrust dev')
    (hc : Clear M wd jids pt prio (t1 ++ t2 ++ evals (M.O.iter out) v3 ++ ⟨.getBackends, .ok bs⟩ :: t4 ++ w)) {w' : World}
    (hr : Lib.Runs wd (t1 ++ t2 ++ evals (M.O.iter out) v3 ++ ⟨.getBackends, .ok bs⟩ :: t4 ++ w) w') :
    st.errors = [] ∧ noEligible M st.devices (setUnion jids [M.ownJid]) = [] ∧ ∀ j ∈ jids, j ≠ M.ownJid → ∃ dev, dev.bareJid = j ∧
      LastEval (t1 ++ t2 ++ evals (M.O.iter out) v3 ++ ⟨.getBackends, .ok bs⟩ :: t4 ++ w) dev .trusted := by
  have hno : ∀ {h : List Ev} {e}, (∀ x ∈ h, x ∈ t1 ++ t2 ++ evals (M.O.iter out) v3 ++ ⟨.getBackends, .ok bs⟩ :: t4 ++ w) → ¬ ErrIn h e :=
    fun hh ⟨x, h1, h2⟩ => hc.smooth _ ⟨x, hh x h1, h2⟩
  have hbs := lib_backends hr hc.stay
  have hle : ∀ {dev l}, LastEval (t1 ++ t2 ++ evals (M.O.iter out) v3 ++ ⟨.getBackends, .ok bs⟩ :: t4 ++ w) dev l ↔ dev ∈ out ∧ v3 dev = l := by
    intro dev l
    rw [List.append_assoc]
    refine lastEval_iff hdec hp ha ?_
    intro e he
    simp only [List.cons_append, List.mem_cons, List.mem_append] at he
    rcases he with rfl | he | he
    · nofun
    · exact sends_not_eval (ht e he)
    · exact hw e he
  have hgood : ∀ o ∈ os, ∃ k, o.res = .ok k := by
    intro o hm
    have := (ho.out o hm).2.2.2.2
    cases hres : o.res with
    | ok k => exact ⟨k, rfl⟩
    | error e => exact absurd (this e hres).2 (hno fun x hx => List.mem_append_left _ hx)
  have hdev : ∀ j ∈ jids, j ≠ M.ownJid → ∃ dev ∈ out, dev.bareJid = j ∧ v3 dev = .trusted := by
    intro j hj1 hj3
    obtain ⟨d, hoff, htr⟩ := hc.recipients j hj1 hj3
    have hord : order = prio.getD wd.backends := by
      obtain ⟨bs0, t0, rfl, hord⟩ := hp.chosen
      rw [(effectiveOrder_ok hord).1, hbs bs0 (by simp)]
    rw [← hord] at hoff
    obtain ⟨w1, hr1, _⟩ := Lib.runs_split (t1 := t1) (t2 := t2 ++ evals (M.O.iter out) v3 ++ ⟨.getBackends, .ok bs⟩ :: t4 ++ w) (by simpa using hr)
    obtain ⟨dev, hdev, haddr⟩ := considered hp hr1 (fun e => hno fun x hx => by simp [hx]) (.inl hj1) (fun h => hj3 h.1) hoff
    have : addr dev ∈ out.map addr := (ha.addrs _).2 (List.mem_map_of_mem hdev)
    obtain ⟨d', hd', he'⟩ := List.mem_map.1 this
    rw [haddr] at he'
    simp only [addr, Prod.mk.injEq] at he'
    exact ⟨d', hd', he'.1, htr d' _ he'.1 he'.2 (hle.2 ⟨hd', rfl⟩)⟩
  refine ⟨?_, ?_, fun j h1 h2 => ?_⟩
  · rw [ho.errors, List.filterMap_eq_nil_iff]
    intro o hm
    obtain ⟨k, hk⟩ := hgood o hm
    simp [Out.err, hk]
  · refine List.eq_nil_iff_forall_not_mem.2 fun j hj => ?_
    simp only [noEligible, mem_setDiff, List.mem_filter, setUnion, mem_dedup, List.mem_append, List.mem_singleton, List.all_eq_true,
      decide_eq_true_eq] at hj
    obtain ⟨⟨hj1, hj2⟩, hj3⟩ := hj
    obtain ⟨d', hd', hbj, hv⟩ := hdev j (hj1.resolve_right hj3) hj3
    have hin : d' ∈ st.devices := (ho.devices d').2 ⟨mem_trustedOf.2 ⟨hd', hv⟩, fun o hm _ => by
      obtain ⟨k, hk⟩ := hgood o hm
      simp [Out.failed, hk]⟩
    exact hj2 d' hin hbj
  · obtain ⟨d', hd', hbj, hv⟩ := hdev j h1 h2
    exact ⟨d', hbj, hle.2 ⟨hd', hv⟩⟩

end Delivery

/-- Why `encrypt` raises if nothing it calls fails: some device is still undecided, or a recipient has no device. -/
theorem Delivery.causes (own : Jid) (x : XEdDSA) (s0 s : Use) (M : Mgr) (jids : List Jid) (pt : Dict Ns Bytes) (prio : Option (List Ns))
    (i : Option String) (t : List Ev) (y : Exn) (w' : World)
    (hnew : New s0) (ht : Typed s0.world.disk) (h : Course own x s0 s []) (hM : M ∈ s.mgrs) (hcare : Careful M)
    (he : Exec (encrypt M jids pt prio i) t (.raised y)) (hr : Lib.Runs s.world t w')
    (callback : ∀ ds i u e, Exec (M.decide ds i) u (.raised e) → ErrIn u e) (smooth : ∀ e, ¬ ErrIn t e) (stay : ∀ e ∈ t, ∀ bs, e.1 ≠ .setBackends bs)
    (plaintext : ∀ ns ∈ s.world.backends, pt.get ns ≠ none) (order : ∀ l, prio = some l → ∀ ns ∈ l, ns ∈ s.world.backends) :
    y = .stillUndecided ∨ ∃ js, y = .noEligibleDevices js := by
  have hbs := lib_backends hr stay
  have hcall : Exec ((Call.encrypt jids pt prio i).run M) t (.raised y) := exec_seq.2 (.inr (.inl ⟨y, he, rfl⟩))
  have hnext : NextCall own x s M (.encrypt jids pt prio i) := .call M _ hM nofun
  have hcause := (raisesOn_encrypt (M := M) (pt := pt) (prio := prio) (χ := fun _ => ErrIn t) (χ' := (· ∈ t))
    (ρ := fun e => BadData e ∨ e = .stillUndecided ∨ ∃ js, e = .noEligibleDevices js) ⟨.inl (.inl rfl), .inl (.inr (.inl rfl)), .inl (.inr (.inr rfl))⟩
    (fun _ e he => absurd he (smooth e)) (fun x hx e he => ⟨x, hx, he⟩)
    (fun bs h ns hns hn => absurd hn (plaintext ns (hbs bs h ▸ hns)))
    (fun bs l h hl ⟨ns, h1, h2⟩ => absurd (hbs bs h ▸ order l hl ns h1) h2) (.inr (.inl rfl)) (fun js => .inr (.inr ⟨js, rfl⟩))
    (fun ds i => .of_exec fun u e h hu => by
      obtain ⟨x, hx, hy⟩ := callback ds i u e h
      exact absurd (hu x hx e hy) (smooth e)) jids i).exec he fun x hx => hx
  rcases hcause with h1 | h1
  · exfalso
    rcases h1 with h1 | h1 | h1
    · have := (C24_partial own x s0 s M _ t _ w' hnew ht h hnext hcare.polite hcall hr (.inl h1)).1
      rw [h1] at this; cases this
    · have := (C24_partial own x s0 s M _ t _ w' hnew ht h hnext hcare.polite hcall hr (.inr (.inl h1))).1
      rw [h1] at this; cases this
    · subst h1
      obtain ⟨_, _, _, h2, _⟩ := C24_values_partial own x s0 s M _ t w' hnew ht h hnext hcare hcall hr
      cases h2
  · exact h1

/-- C83, sending: over the whole life of an account (if every purge that was begun was completed, and the own JID was never purged), if nothing stands in the way then
`encrypt` succeeds, without errors, unless the process dies; every device that was evaluated as trusted at last gets exactly one key, in exactly
one message; and each recipient has such a device. -/
theorem C83_encrypt (own : Jid) (x : XEdDSA) (s0 s : Use) (M : Mgr) (jids : List Jid) (pt : Dict Ns Bytes) (prio : Option (List Ns))
    (i : Option String) (t : List Ev) (r : Res Exn (Dict Message PlainKM × List EncError)) (w' : World)
    (hnew : New s0) (ht : Typed s0.world.disk) (h : Course own x s0 s []) (hM : M ∈ s.mgrs) (hcare : Careful M)
    (hdec : CallbackQuiet M.decide) (he : Exec (encrypt M jids pt prio i) t r) (hr : Lib.Runs s.world t w') (hA : Addressed t)
    (hc : Clear M s.world jids pt prio t) :
    r = .crashed ∨ ∃ msgs, r = .ok (msgs, []) ∧
      (∀ dev, LastEval t dev .trusted → ∃ y ∈ msgs, (∃ k, keysFor y.1 dev.bareJid dev.deviceId = [k]) ∧
        ∀ y' ∈ msgs, y' ≠ y → keysFor y'.1 dev.bareJid dev.deviceId = []) ∧
      ∀ j ∈ jids, j ≠ M.ownJid → ∃ dev, dev.bareJid = j ∧ LastEval t dev .trusted := by
  have hbs := lib_backends hr hc.stay
  have hb1 : BackendsOnce t := fun bs h => by rw [hbs bs h]; exact hc.once
  have hb2 : BackendsStay t := fun bs bs' h h' => by rw [hbs bs h, hbs bs' h']
  have hrun := encrypt_run hdec jids pt prio i he hb1
  cases r with
  | crashed => exact .inl rfl
  | ok a =>
    obtain ⟨msgs, errs⟩ := a
    have hsr := hrun.succeeded rfl
    obtain ⟨t1, t2, t4, order, devices, cache, infos, out, v1, v2, v3, tm, bs, st, os, rfl, rfl, rfl, hp, ha, hts, ho, _⟩ := hsr
    obtain ⟨h1, _, h5⟩ := Delivery.none_missing hdec hp ha hts ho (by
      intro e he
      obtain ⟨p, _, rfl⟩ := List.mem_map.1 he
      nofun) hc hr
    rw [h1] at he ⊢
    refine .inr ⟨_, rfl, fun dev hd => ?_, h5⟩
    obtain ⟨ns, _, h2⟩ := (C32_served_or_reported M jids pt prio i _ _ _ hdec he hb1 hb2 hA).1 dev hd
    rcases h2 with ⟨⟨y, h3, _, h4⟩, _⟩ | ⟨_, e, h2, _⟩
    · exact ⟨y, h3, h4⟩
    · cases h2
  | raised y =>
    exfalso
    rcases Delivery.causes own x s0 s M jids pt prio i t y w' hnew ht h hM hcare he hr hc.callback hc.smooth hc.stay hc.plaintext hc.order with h1 | ⟨js, h1⟩
    · subst h1
      obtain ⟨_, dev, h2⟩ := C28_raised M jids pt prio i t hdec he hb1 (hc.smooth _) fun ds td h => hc.callback ds i td _ h
      exact hc.decided dev h2
    · subst h1
      obtain ⟨t1, t2, t4, order, devices, cache, infos, out, v1, v2, v3, tm, bs, st, os, rfl, rfl, hm, hp, ha, hts, ho⟩ :=
        hrun.missed (hc.smooth _) fun ds td h => hc.callback ds i td _ h
      exact hm (Delivery.none_missing (w := []) hdec hp ha hts ho (by simp) (by simpa using hc) (by simpa using hr)).2.1

/-- Encrypting for "a", after the purge and the new meeting. -/
def remetRun := Friendly.trustful.run (encrypt Mgr.ex ["a"] [("n", [1]), ("o", [1])] none none) Use.remet.world

theorem remet_addressed : Addressed remetRun.1 := by
  have h := runProg_answers (Lib.env Verif.trustful) Lib.next 1000 (encrypt Mgr.ex ["a"] [("n", [1]), ("o", [1])] none none) Use.remet.world
  refine ⟨?_, ?_, ?_⟩
  · intro ns j d s hm
    obtain ⟨w, hw⟩ := h _ hm
    cases hw; exact ⟨rfl, rfl⟩
  · intro ns j d b m s k hm
    obtain ⟨w, hw⟩ := h _ hm
    cases hw; exact ⟨⟨rfl, rfl⟩, rfl, rfl⟩
  · intro ns s m k s' hm
    obtain ⟨w, hw⟩ := h _ hm
    cases hw; exact ⟨⟨rfl, rfl⟩, rfl, rfl⟩

theorem remet_clear : Clear Mgr.ex Use.remet.world ["a"] [("n", [1]), ("o", [1])] none remetRun.1 := by
  have hset : remetRun.1.all (fun e => match e.1 with | .setBackends _ => false | _ => true) = true := by decide +kernel
  have hlev : remetRun.1.all (fun e => match e with | ⟨.evalTrust _, .ok l⟩ => decide (l = .trusted) | _ => true) = true := by decide +kernel
  have hl : ∀ dev l, LastEval remetRun.1 dev l → l = .trusted := by
    rintro dev l ⟨u, v, h1, _⟩
    exact of_decide_eq_true (List.all_eq_true.1 hlev ⟨.evalTrust dev, .ok l⟩ (by rw [h1]; simp))
  have hb : Use.remet.world.backends = ["n", "o"] := by decide +kernel
  have herr : remetRun.1.all (fun e => match e.2 with | .ok _ => true | .error _ => false) = true := by decide +kernel
  refine ⟨fun _ _ _ _ h => (by cases h), no_err_of_all herr, hb ▸ (by decide), ?_, hb ▸ (by decide), nofun, ?_, ?_⟩
  · intro e he bs hbs
    have := List.all_eq_true.1 hset e he
    rw [hbs] at this
    cases this
  · intro dev h
    cases hl dev _ h
  · intro j hj _
    cases List.mem_singleton.1 hj
    exact ⟨7, ⟨⟨[7], by with_unfolding_all rfl, by decide⟩, "n", by rw [hb]; decide, ⟨["n"], by with_unfolding_all rfl, by decide⟩, [("n", true)], by with_unfolding_all rfl, rfl⟩,
      fun dev l _ _ h => hl dev l h⟩

/-- The hypotheses of `C83_encrypt` are met, with an interrupted purge in the past. -/
theorem C83_example : ∃ msgs, remetRun.2.1 = .ok (msgs, []) ∧ ∃ dev, dev.bareJid = "a" ∧ LastEval remetRun.1 dev .trusted ∧
    ∃ y ∈ msgs, ∃ k, keysFor y.1 "a" dev.deviceId = [k] := by
  have hM : Mgr.ex ∈ Use.remet.mgrs := by simp [Use.remet, Use.cutPurge, Friendly.useCut, Use.met, Friendly.use, Use.started]
  have h := C83_encrypt "me" Mgr.ex.x Use.fresh Use.remet Mgr.ex ["a"] [("n", [1]), ("o", [1])] none none _ _ _ fresh_new nofun remet_course hM
    (fun _ _ _ _ => .ret ()) Mgr.ex_quiet (Friendly.trustful.exec _ _) (Friendly.trustful.runs _ _) remet_addressed remet_clear
  rcases h with h | ⟨msgs, h1, h2, h3⟩
  · have : (match remetRun.2.1 with | .crashed => true | _ => false) = false := by decide +kernel
    unfold remetRun at this
    rw [h] at this
    cases this
  · obtain ⟨dev, h4, h5⟩ := h3 "a" (by simp) (by decide)
    obtain ⟨y, h6, ⟨k, h7⟩, _⟩ := h2 dev h5
    exact ⟨msgs, h1, dev, h4, h5, y, h6, k, h4 ▸ h7⟩

/-! ### Receiving -/

/-- Nothing stands in the way of decrypting `msg`, in state `w`, as far as the interactions `t` tell: nothing the library calls fails, no backend is
unloaded meanwhile and the backend of the message is loaded; the message carries a key for this device; the sending device is known with its identity key, or it is
in the device list if that is downloaded; the sender is not distrusted; there is a session with it, or the key comes with a key exchange, made with
the identity key that is known of the device. -/
structure Spec.Readable (M : Mgr) (w : World) (msg : Message) (t : List Ev) : Prop where
  smooth : ∀ e, ¬ ErrIn t e
  stay : ∀ e ∈ t, ∀ bs, e.1 ≠ .setBackends bs
  loaded : msg.ns ∈ w.backends
  addressed : ∃ k ∈ msg.keys, k.1.bareJid = M.ownJid ∧ k.1.deviceId = M.ownDev
  known : (Known w.disk msg.bareJid msg.deviceId ∧ ∃ ik, HasKey w.disk msg.bareJid msg.deviceId ik) ∨
    ∀ l, (⟨.downloadList msg.ns msg.bareJid, .ok l⟩ : Ev) ∈ t → ∃ x, l.get msg.deviceId = some x
  trusted : ∀ dev, (⟨.evalTrust dev, .ok .distrusted⟩ : Ev) ∉ t
  session : ∀ k ∈ msg.keys, k.1.bareJid = M.ownJid ∧ k.1.deviceId = M.ownDev →
    (k.2 = none → (⟨.loadSession msg.ns msg.bareJid msg.deviceId, .ok none⟩ : Ev) ∉ t) ∧
    ∀ x, k.2 = some x → ∀ dev l, (⟨.evalTrust dev, .ok l⟩ : Ev) ∈ t → x.identityKey = dev.identityKey

namespace Delivery
variable {M : Mgr} {msg : Message}

/-- A device that is listed, with a namespace, is returned by device lookups, if nothing fails. -/
theorem found_listed {jid : Jid} {d : DevId} {ns : Ns} {t : List Ev} {w w' : World} {devs : List DeviceInfo}
    (he : Exec (getDeviceInformation M jid) t (.ok devs)) (hr : Lib.Runs w t w') (hno : ∀ e, ¬ ErrIn t e) (hk : Known w.disk jid d)
    (hn : Advertises w.disk jid d ns) (ha : Activity w.disk jid d ns true) : ∃ dev ∈ devs, dev.deviceId = d := by
  obtain ⟨c, hi⟩ := exec_getDeviceInformation he
  obtain ⟨ids, h1, _, h3⟩ := hi.complete
  have hp : Pres Lib (ReachableW jid d ns) (getDeviceInformation M jid) := .bind (pres_info' jid) fun _ => .pure _
  have hev := at_event hp he hr ⟨hk, hn, ha⟩
  have hd : d ∈ ids := by
    rcases h1 with ⟨l, g1, rfl⟩ | ⟨g1, rfl⟩
    · obtain ⟨w1, ⟨⟨l', h3, h4⟩, _⟩, h5⟩ := hev _ g1
      have h5 : some _ = _ := h5
      rw [h3] at h5
      cases h5
      simpa [JVal.asInt] using h4
    · obtain ⟨w1, ⟨⟨l', h3, h4⟩, _⟩, h5⟩ := hev _ g1
      have h5 : none = _ := h5
      rw [h3] at h5
      cases h5
  rcases h3 d hd with h | ⟨_, l, h4, h5⟩
  · exact h
  · exfalso
    obtain ⟨w1, ⟨_, ⟨l', h6, h7⟩, _⟩, h8⟩ := hev _ h4
    have h8 : some (JVal.ofStrs l) = _ := h8
    rw [h6] at h8
    simp only [Option.some.injEq] at h8
    obtain rfl := ofStrs_inj' h8
    rcases h5 ns h7 with h | h
    · exact hno _ ⟨_, h, rfl⟩
    · exact hno _ ⟨_, h, rfl⟩

theorem errIn_mono {t t' : List Ev} {e : Exn} (h : ErrIn t e) (hs : ∀ x ∈ t, x ∈ t') : ErrIn t' e := by
  obtain ⟨x, h1, h2⟩ := h
  exact ⟨x, hs x h1, h2⟩

/-- Programs that raise by themselves only what bad data causes. -/
theorem bad_of {α : Type} {p : P α} {ρ : Exn → Prop} (hp : Raises (S := LibSig) (fun _ _ => False) ρ p) {t : List Ev} {e : Exn} (he : Exec p t (.raised e))
    (hno : ∀ e, ¬ ErrIn t e) : ρ e :=
  hp.exec he fun x hx y hy => hno y ⟨x, hx, hy⟩

def Bad (e : Exn) : Prop := BadData e ∨ e = .keyError

theorem bad_core : Core Bad := ⟨.inl (.inl rfl), .inl (.inr (.inl rfl)), .inl (.inr (.inr rfl))⟩

/-- Merging a device list of a loaded backend. -/
theorem bad_update {ns : Ns} {jid : Jid} {dl : DevList} {t : List Ev} {e : Exn} {w w' : World} (he : Exec (updateDeviceList M ns jid dl) t (.raised e))
    (hr : Lib.Runs w t w') (hns : ns ∈ w.backends) (hno : ∀ e, ¬ ErrIn t e) : Bad e := by
  unfold updateDeviceList at he
  rcases exec_call_bind.1 he with ⟨_, h⟩ | ⟨e', rfl, h⟩ | ⟨bs, t', rfl, h⟩
  · cases h
  · exact absurd ⟨_, .head _, rfl⟩ (hno e')
  · obtain rfl : bs = w.backends := Except.ok.inj hr.1
    rw [if_neg (fun h => h hns)] at h
    refine bad_of (ρ := Bad) ?_ h fun e h => hno e (errIn_mono h fun x hx => .tail _ hx)
    unfold ensureOwnListed
    have h1 := @raises_addNewDevice (fun _ _ => False) Bad bad_core nofun (.inr rfl)
    have h2 := @raises_updateKnownDevice (fun _ _ => False) Bad M bad_core nofun (.inr rfl)
    lib_raises bad_core, [h1, h2]
    all_goals rename_i h; exact h.elim

/-- The sender is found. -/
theorem sender {t : List Ev} {r} {w w' : World} (ha : ViaApi M) (hty : Typed w.disk) (he : Exec (findSender M msg) t r) (hr : Lib.Runs w t w') {t' : List Ev}
    (hsub : ∀ x ∈ t, x ∈ t') (hc : Readable M w msg t') :
    ∀ e, r = .raised e → Bad e := by
  rintro e rfl
  have hno : ∀ e, ¬ ErrIn t e := fun e h => hc.smooth e (errIn_mono h hsub)
  have hinfo : Raises (S := LibSig) (fun _ _ => False) Bad (getDeviceInformation M msg.bareJid) := raises_getDeviceInformation bad_core nofun _
  unfold findSender at he
  rcases exec_seq.1 he with ⟨t1, devs, t2, rfl, h1, h2⟩ | ⟨e', h1, h⟩ | ⟨h1, h⟩
  · obtain ⟨w1, hr1, hr2⟩ := Lib.runs_split hr
    cases hp : pickDevice M msg.deviceId devs with
    | some dev =>
      simp only [hp] at h2
      cases h2
    | none =>
      simp only [hp] at h2
      have hd := pick_none hp
      clear hp he
      rcases hc.known with ⟨hk, ik, hik⟩ | hl
      · obtain ⟨dev, h3, h4⟩ := found h1 hr1 hk hik
        exact absurd h4 (hd dev h3)
      · have hty1 : Typed w1.disk := (Intact.typed_call ha (.getDeviceInformation msg.bareJid)).run (exec_seq.2 (.inl ⟨_, _, [], (by simp), h1, .ret _⟩)) hr1 hty
        have hbs1 : w1.backends = w.backends := (wp_sound (looked_info msg.bareJid w) h1 hr1).backends
        rcases exec_seq.1 h2 with ⟨t3, _, t4, rfl, h3, h4⟩ | ⟨e', h3, h⟩ | ⟨h3, h⟩
        · unfold refreshDeviceList at h3
          obtain ⟨l, t5, rfl, h5⟩ := exec_call_bind_ok.1 h3
          obtain ⟨w2, hr3, hr4⟩ := Lib.runs_split hr2
          have hm := C11_merge M msg.ns msg.bareJid l _ _ _ (by exact hty1) h5 hr3.2
          obtain ⟨x, hx⟩ := hl l (hsub _ (by simp))
          have hkn := (hm.known msg.deviceId).2 (.inr ⟨x, hx⟩)
          obtain ⟨hact, hadv⟩ := hm.listed msg.deviceId (.inr ⟨x, hx⟩) (.inl ⟨x, hx⟩)
          rcases exec_seq.1 h4 with ⟨t6, devs', t7, rfl, h6, h7⟩ | ⟨e', h6, h⟩ | ⟨h6, h⟩
          · obtain ⟨w3, hr5, hr6⟩ := Lib.runs_split hr4
            obtain ⟨dev, h8, h9⟩ := found_listed h6 hr5 (fun e h => hno e (errIn_mono h fun x hx => by simp [hx])) hkn hadv hact
            cases hp' : pickDevice M msg.deviceId devs' with
            | some dev =>
              simp only [hp'] at h7
              cases h7
            | none => exact absurd h9 (pick_none hp' dev h8)
          · cases h
            exact bad_of hinfo h6 fun e h => hno e (errIn_mono h fun x hx => by simp [hx])
          · cases h
        · cases h
          have hno3 : ∀ e, ¬ ErrIn t2 e := fun e h => hno e (errIn_mono h fun x hx => by simp [hx])
          unfold refreshDeviceList at h3
          rcases exec_call_bind.1 h3 with ⟨_, h⟩ | ⟨e', rfl, h⟩ | ⟨l, t5, rfl, h5⟩
          · cases h
          · exact absurd ⟨_, .head _, rfl⟩ (hno3 e')
          · exact bad_update h5 hr2.2 (by rw [show (Lib.next w1 _).backends = w1.backends from rfl, hbs1]; exact hc.loaded) fun e h =>
              hno3 e (errIn_mono h fun x hx => .tail _ hx)
        · cases h
  · cases h
    exact bad_of hinfo h1 hno
  · cases h

/-- What is done once the sender is found. -/
theorem bad_content {dev : DeviceInfo} {ekm kex} {t t' : List Ev} {e : Exn} {w : World} (hc : Readable M w msg t')
    (hk : keyForUs M msg = some (ekm, kex)) (hd : dev.bareJid = msg.bareJid ∧ dev.deviceId = msg.deviceId)
    (he : Exec (decryptContent M msg dev ekm kex >>= fun x => postDecrypt M msg.ns kex x.2.1 >>= fun _ => pure (x.1, dev, x.2.2)) t (.raised e))
    (hsub : ∀ x ∈ t, x ∈ t') : Bad e := by
  have hno : ∀ e, ¬ ErrIn t e := fun e h => hc.smooth e (errIn_mono h hsub)
  rcases exec_seq.1 he with ⟨t1, ⟨p, s, km⟩, t2, rfl, h1, h2⟩ | ⟨e', h1, h⟩ | ⟨h1, h⟩
  · refine bad_of (ρ := Bad) ?_ h2 fun e h => hno e (errIn_mono h fun x hx => by simp [hx])
    have g3 := @raises_sendEmptyMessage (fun _ _ => False) Bad M nofun
    unfold postDecrypt consumePreKey discardPreKey autoReply queueEmpty refillPreKeys
    lib_raises bad_core, [g3]
    all_goals rename_i h; exact h.elim
  · cases h
    exfalso
    obtain ⟨hkm, hkj, hkd⟩ := keyForUs_some hk
    obtain ⟨hs1, hs2⟩ := hc.session _ hkm ⟨hkj, hkd⟩
    unfold decryptContent at h1
    rcases exec_call_bind.1 h1 with ⟨_, h⟩ | ⟨e', rfl, h⟩ | ⟨l, t', rfl, h2⟩
    · cases h
    · exact hno _ ⟨_, .head _, rfl⟩
    split at h2
    · rename_i hl
      subst hl
      exact hc.trusted dev (hsub _ (.head _))
    · have hno' : ∀ {o : Op} {e' : Exn}, (⟨o, .error e'⟩ : Ev) ∈ t' → False := fun h => hno _ ⟨_, .tail _ h, rfl⟩
      rcases exec_seq.1 h2 with ⟨t3, ⟨s, km⟩, t4, rfl, h3, h4⟩ | ⟨e', h3, h⟩ | ⟨h3, h⟩
      · rcases exec_seq.1 h4 with ⟨t5, p, t6, rfl, h5, h6⟩ | ⟨e', h5, h⟩ | ⟨h5, h⟩
        · cases h6
        · cases exec_plaintextOf h5 with
          | failed h => exact hno e' ⟨⟨.decryptPlaintext msg.ns msg.content km, .error e'⟩, by simp, rfl⟩
        · cases h
      · cases h
        cases exec_keyMaterial h3 with
        | mismatch hk h => exact h (hs2 _ hk dev l (hsub _ (.head _)))
        | loadFailed h => exact hno' (.head _)
        | noSession hk => exact hs1 hk (by rw [← hd.1, ← hd.2]; exact hsub _ (.tail _ (.head _)))
        | useFailed h => exact hno' (.tail _ (.head _))
        | buildFailed hk h hs => exact hno' (.tail _ (.head _))
      · cases h
  · cases h

theorem bad_decrypt {t : List Ev} {e : Exn} {w w' : World} (ha : ViaApi M) (hty : Typed w.disk) (he : Exec (decrypt M msg) t (.raised e))
    (hr : Lib.Runs w t w') (hc : Readable M w msg t) : Bad e := by
  unfold decrypt at he
  rcases exec_call_bind.1 he with ⟨_, h⟩ | ⟨e', rfl, h⟩ | ⟨bs, t', rfl, h⟩
  · cases h
  · exact absurd ⟨_, .head _, rfl⟩ (hc.smooth e')
  obtain rfl : bs = w.backends := Except.ok.inj hr.1
  rw [if_neg (fun h => h hc.loaded)] at h
  split at h
  · rename_i hk
    obtain ⟨k, h1, h2⟩ := hc.addressed
    have := List.find?_eq_none.1 hk k (SetOrder.mem_iter.2 h1)
    simp [h2] at this
  · rename_i ekm kex hk
    rcases exec_seq.1 h with ⟨t1, dev, t2, rfl, h1, h2⟩ | ⟨e', h1, h⟩ | ⟨h1, h⟩
    · have hd := exec_findSender h1
      exact bad_content hc hk ⟨hd.bareJid, hd.deviceId⟩ h2 fun x hx => by simp [hx]
    · cases h
      exact sender ha (w := w) hty h1 hr.2 (fun x hx => .tail _ hx) hc _ rfl
    · cases h

end Delivery

/-- C83, receiving: over the whole life of an account (as above), if nothing stands in the way then `decrypt` succeeds, unless the process dies.
It then returns the sending device, and content unless the message is empty. -/
theorem C83_decrypt (own : Jid) (x : XEdDSA) (s0 s : Use) (M : Mgr) (msg : Message) (t : List Ev)
    (r : Res Exn (Option Bytes × DeviceInfo × PlainKM)) (w' : World) (hnew : New s0) (ht : Typed s0.world.disk) (h : Course own x s0 s [])
    (hM : M ∈ s.mgrs) (hcare : Careful M) (he : Exec (decrypt M msg) t r) (hr : Lib.Runs s.world t w') (hc : Readable M s.world msg t) :
    r = .crashed ∨ ∃ p dev km, r = .ok (p, dev, km) ∧ (dev.bareJid = msg.bareJid ∧ dev.deviceId = msg.deviceId) ∧
      (p = none ↔ msg.content.empty = true) := by
  cases r with
  | crashed => exact .inl rfl
  | ok a =>
    obtain ⟨p, dev, km⟩ := a
    obtain ⟨_, rest, ⟨_, _, _, _, _, hsender, _, _⟩⟩ := C38_result M msg t p dev km he
    exact .inr ⟨p, dev, km, rfl, ⟨hsender.bareJid, hsender.deviceId⟩, (C46_plaintext M msg t p dev km he).1⟩
  | raised e =>
    exfalso
    have hcall : Exec ((Call.decrypt msg).run M) t (.raised e) := exec_seq.2 (.inr (.inl ⟨e, he, rfl⟩))
    have hnext : NextCall own x s M (.decrypt msg) := .call M _ hM nofun
    have hb : Delivery.Bad e := Delivery.bad_decrypt (Intact.Polite.viaApi hcare.polite) (Intact.course_inv hnew ht h).2.2.1 he hr hc
    have hno : ¬ Blames e := fun hb => by
      obtain ⟨_, _, _, _, _, h2, _⟩ := C24_partial own x s0 s M _ t _ w' hnew ht h hnext hcare.polite hcall hr hb
      cases h2
    rcases hb with (h1 | h1 | h1) | h1
    · exact hno (.inl h1)
    · exact hno (.inr (.inl h1))
    · subst h1
      obtain ⟨_, _, _, h2, _⟩ := C24_values_partial own x s0 s M _ t w' hnew ht h hnext hcare hcall hr
      cases h2
    · exact hno (.inr (.inr h1))

/-- C83, from end to end: if nothing stands in the way on the side of `A`, and `B` is a device that `A` evaluated as trusted at last, then one of the
messages is for `B`; and when `B` decrypts it and nothing stands in the way there either, it gets the plaintext that `A` gave, and learns that it came from `A`. -/
theorem C83_delivered (own : Jid) (x : XEdDSA) (s0 s : Use) (A : Mgr) (jids : List Jid) (pt : Dict Ns Bytes) (prio : Option (List Ns))
    (i : Option String) (tA : List Ev) (r : Res Exn (Dict Message PlainKM × List EncError)) (wA : World)
    (hnew : New s0) (ht : Typed s0.world.disk) (h : Course own x s0 s []) (hM : A ∈ s.mgrs) (hcare : Careful A)
    (hdec : CallbackQuiet A.decide) (he : Exec (encrypt A jids pt prio i) tA r) (hr : Lib.Runs s.world tA wA) (hA : Addressed tA)
    (hc : Clear A s.world jids pt prio tA) (hcr : r ≠ .crashed)
    (own' : Jid) (x' : XEdDSA) (u0 u : Use) (B : Mgr) (hnew' : New u0) (ht' : Typed u0.world.disk) (h' : Course own' x' u0 u []) (hM' : B ∈ u.mgrs)
    (hcare' : Careful B) (info : DeviceInfo) (hi : info.bareJid = B.ownJid ∧ info.deviceId = B.ownDev) (hev : LastEval tA info .trusted) :
    ∃ msgs, r = .ok (msgs, []) ∧ ∃ y ∈ msgs, (∃ k, keysFor y.1 B.ownJid B.ownDev = [k]) ∧
      ∀ tB rB wB, Exec (decrypt B y.1) tB rB → Lib.Runs u.world tB wB → Readable B u.world y.1 tB → Fitting tA tB → rB ≠ .crashed →
        ∃ b dev, rB = .ok (some b, dev, y.2) ∧ pt.get y.1.ns = some b ∧ dev.bareJid = A.ownJid ∧ dev.deviceId = A.ownDev := by
  rcases C83_encrypt own x s0 s A jids pt prio i tA r wA hnew ht h hM hcare hdec he hr hA hc with h1 | ⟨msgs, rfl, h2, _⟩
  · exact absurd h1 hcr
  · obtain ⟨y, hy, ⟨k, hk⟩, _⟩ := h2 info hev
    rw [hi.1, hi.2] at hk
    refine ⟨msgs, rfl, y, hy, ⟨k, hk⟩, fun tB rB wB heB hrB hcB hf hne => ?_⟩
    rcases C83_decrypt own' x' u0 u B y.1 tB rB wB hnew' ht' h' hM' hcare' heB hrB hcB with h1 | ⟨p, dev, km, rfl, _, _⟩
    · exact absurd h1 hne
    · have hb1 : BackendsOnce tA := fun bs h => by rw [lib_backends hr hc.stay bs h]; exact hc.once
      obtain ⟨⟨b, rfl, h3⟩, rfl, h4, _⟩ := C79_round_trip A B jids pt prio i tA tB msgs [] hdec he hb1 hA y hy p dev km heB hf
      exact ⟨b, dev, rfl, h3, h4⟩

/-! ### Example: device 7 of "a" reads what was sent in `remetRun`, from a sender it did not know -/

/-- A world in which everything works, for "a". -/
def hearing (w : World) (o : Op) : Except Exn o.Ret := match o with
  | .randBelow _ => .ok 6
  | .downloadList _ j => .ok (if j = "me" then [(1, none)] else [])
  | .evalTrust _ => .ok .undecided
  | .loadSession ns j d => .ok (some ⟨ns, j, d, .passive, true, ⟨[1], 0⟩, some 3, 4, 0⟩)
  | .decryptKM _ s e => .ok (⟨e.blob⟩, s)
  | .decryptPlaintext _ _ _ => .ok [1]
  | o => genuine w o

theorem hearing_ok (w : World) (o : Op) (e : Exn) (h : hearing w o = .error e) : e.isInternal = false := by
  cases o <;> simp only [hearing] at h <;> first | exact genuine_ok w _ e h | (cases h; done)

def Friendly.hearing : Friendly := ⟨Verif.hearing, hearing_ok⟩

/-- "a" has created an account, with device id 7. -/
def Use.phone : Use := Friendly.hearing.again { Mgr.phone with ownDev := 0 } ["n"] none Use.fresh

theorem phone_mem : Mgr.phone ∈ Use.phone.mgrs := by
  have : (Friendly.hearing.run (create { Mgr.phone with ownDev := 0 } ["n"] none 5) Use.fresh.world).2.1 = .ok 7 := by decide +kernel
  unfold Use.phone Friendly.again
  rw [this]
  simp [returned, Mgr.phone]

theorem phone_course : Course "a" Mgr.ex.x Use.fresh Use.phone [] :=
  .step _ .start (fun _ _ => .ret ()) (fun _ h => by cases h) (.create { Mgr.phone with ownDev := 0 } ["n"] none 5 rfl rfl (Friendly.hearing.exec _ _) (Friendly.hearing.runs _ _))

/-- Decrypting the message. -/
def phoneRun := Friendly.hearing.run (decrypt Mgr.phone chatMessage) Use.phone.world

theorem phone_fitting : Fitting remetRun.1 phoneRun.1 := by
  have hA := runProg_answers (Lib.env Verif.trustful) Lib.next 1000 (encrypt Mgr.ex ["a"] [("n", [1]), ("o", [1])] none none) Use.remet.world
  have hB := runProg_answers (Lib.env Verif.hearing) Lib.next 1000 (decrypt Mgr.phone chatMessage) Use.phone.world
  have hp : remetRun.1.all (fun e => match e.1 with | .encryptPlaintext _ p => decide (p = [1]) | _ => true) = true := by decide +kernel
  refine ⟨?_, ?_, ?_⟩
  · intro ns e e' k m s m' he he' hw hg
    obtain ⟨w, hw'⟩ := hA e he
    obtain ⟨w', hg'⟩ := hB e' he'
    have h1 : k.blob = m.blob := by
      rcases hw with ⟨_, _, _, _, rfl⟩ | ⟨_, _, rfl⟩ <;> cases hw' <;> rfl
    have h2 : m'.blob = k.blob := by
      rcases hg with ⟨_, rfl⟩ | ⟨_, _, _, rfl⟩ <;> cases hg'; rfl
    cases m; cases m'; simp_all
  · intro ns p c m p' he he'
    obtain ⟨w', hw'⟩ := hB _ he'
    cases hw'
    exact (of_decide_eq_true (List.all_eq_true.1 hp _ he : decide (p = [1]) = true)).symm
  · intro ns p c m he
    obtain ⟨w, hw⟩ := hA _ he
    cases hw
    rfl

theorem phone_readable : Readable Mgr.phone Use.phone.world chatMessage phoneRun.1 := by
  have herr : phoneRun.1.all (fun e => match e.2 with | .ok _ => true | .error _ => false) = true := by decide +kernel
  have hset : phoneRun.1.all (fun e => match e.1 with | .setBackends _ => false | _ => true) = true := by decide +kernel
  have hB := runProg_answers (Lib.env Verif.hearing) Lib.next 1000 (decrypt Mgr.phone chatMessage) Use.phone.world
  have hb : Use.phone.world.backends = ["n"] := by decide +kernel
  refine ⟨no_err_of_all herr, ?_, hb ▸ (by decide), ⟨_, .head _, rfl, rfl⟩, .inr ?_, ?_, ?_⟩
  · intro e he bs hbs
    have := List.all_eq_true.1 hset e he
    rw [hbs] at this
    cases this
  · intro l hl
    obtain ⟨w, hw⟩ := hB _ hl
    cases hw
    exact ⟨_, rfl⟩
  · intro dev h
    obtain ⟨w, hw⟩ := hB _ h
    cases hw
  · intro k hk _
    cases List.mem_singleton.1 hk
    refine ⟨fun _ h => ?_, nofun⟩
    obtain ⟨w, hw⟩ := hB _ h
    cases hw

/-- The hypotheses of `C83_delivered` are met. -/
theorem C83_delivered_example : ∃ dev, phoneRun.2.1 = .ok (some [1], dev, ⟨1⟩) ∧ dev.bareJid = "me" ∧ dev.deviceId = 1 := by
  have hM : Mgr.ex ∈ Use.remet.mgrs := by simp [Use.remet, Use.cutPurge, Friendly.useCut, Use.met, Friendly.use, Use.started]
  have hres : remetRun.2.1 = .ok ([(chatMessage, ⟨1⟩)], []) := by decide +kernel
  have hev : LastEval remetRun.1 ⟨["n"], [("n", true)], "a", 7, [7], "undecided", some "x"⟩ .trusted := lastEval_of_find (by decide +kernel)
  obtain ⟨msgs, h1, y, hy, _, h2⟩ := C83_delivered "me" Mgr.ex.x Use.fresh Use.remet Mgr.ex ["a"] [("n", [1]), ("o", [1])] none none _ _ _ fresh_new nofun remet_course hM
    (fun _ _ _ _ => .ret ()) Mgr.ex_quiet (Friendly.trustful.exec _ _) (Friendly.trustful.runs _ _) remet_addressed remet_clear
    (by have := hres; unfold remetRun at this; rw [this]; nofun) "a" Mgr.ex.x Use.fresh Use.phone Mgr.phone fresh_new nofun phone_course phone_mem
    (fun _ _ _ _ => .ret ()) _ ⟨rfl, rfl⟩ hev
  have h1 : remetRun.2.1 = .ok (msgs, []) := h1
  rw [hres] at h1
  cases h1
  cases List.mem_singleton.1 hy
  have hcr : (match phoneRun.2.1 with | .crashed => true | _ => false) = false := by decide +kernel
  obtain ⟨b, dev, h3, h4, h5⟩ := h2 phoneRun.1 phoneRun.2.1 _ (Friendly.hearing.exec _ _) (Friendly.hearing.runs _ _) phone_readable phone_fitting
    (by intro h; rw [h] at hcr; cases hcr)
  cases h4
  exact ⟨dev, h3, h5⟩

end Verif
