import Verif.Proofs.ServerParts
import Verif.Props.Delivery
/-
C92: no device on a device list is passed over without a reason.
-/
namespace Verif
open Spec SM

namespace Spec

/-- A device list of `j` for `ns` was downloaded that does not contain `d`. -/
def Dropped (ns : Ns) (j : Jid) (d : DevId) (e : Ev) : Prop := ∃ l : DevList, e = ⟨.downloadList ns j, .ok l⟩ ∧ l.get d = none

/-- The call does not withdraw device `d` of `j` from the backend `ns`: it does not purge `j`, a list it is given for them contains `d`, and it does not
create another manager for the account `j` itself. -/
def KeepsListed (ns : Ns) (j : Jid) (d : DevId) (M : Mgr) : Call → Prop
  | .purgeBareJid j' => j' ≠ j
  | .updateDeviceList ns' j' l => ns' = ns → j' = j → l.get d ≠ none
  | .create .. => M.ownJid ≠ j
  | _ => True

/-- The same for a manager other than that of the device itself, and for what the application calls while it decides on trust. -/
structure Retaining (ns : Ns) (j : Jid) (d : DevId) (x : Mgr × Call) : Prop where
  other : ¬ (x.1.ownJid = j ∧ x.1.ownDev = d)
  call : KeepsListed ns j d x.1 x.2
  app : ∀ ds i, AppBy x.1 (fun c => KeepsListed ns j d x.1 c ∧ c.inDecision = true) (x.1.decide ds i)

/-- What becomes of device `d` of `j` when a message is encrypted: a trusted device gets exactly one key, in exactly one of the messages, or is
reported as exactly one error; otherwise its trust was evaluated, at last to something else, or its identity key is not known and could not be found out. -/
def Accounted (t : List Ev) (msgs : Dict Message PlainKM) (errs : List EncError) (j : Jid) (d : DevId) : Prop :=
  let none := (∀ x ∈ msgs, keysFor x.1 j d = []) ∧ errorsFor errs j d = []
  (∃ dev, dev.bareJid = j ∧ dev.deviceId = d ∧ LastEval t dev .trusted ∧
    (((∃ x ∈ msgs, (∃ k, keysFor x.1 j d = [k]) ∧ ∀ x' ∈ msgs, x' ≠ x → keysFor x'.1 j d = []) ∧ errorsFor errs j d = []) ∨
     ((∀ x ∈ msgs, keysFor x.1 j d = []) ∧ ∃ e, errorsFor errs j d = [e]))) ∨
  (∃ dev l, dev.bareJid = j ∧ dev.deviceId = d ∧ LastEval t dev l ∧ l ≠ .trusted ∧ none) ∨
  (Keyless t j d ∧ none)

end Spec

/-- The last evaluation of a device is unique. -/
theorem lastEval_unique {t : List Ev} {dev dev' : DeviceInfo} {l l' : TrustLevel} (h : LastEval t dev l) (h' : LastEval t dev' l')
    (h1 : dev'.bareJid = dev.bareJid) (h2 : dev'.deviceId = dev.deviceId) : dev' = dev ∧ l' = l := by
  obtain ⟨u, v, rfl, h3⟩ := h
  obtain ⟨u', v', h4, h5⟩ := h'
  rcases List.append_eq_append_iff.1 h4 with ⟨a, rfl, h6⟩ | ⟨a, rfl, h6⟩
  · cases a with
    | nil => cases h6; exact ⟨rfl, rfl⟩
    | cons e a =>
      cases h6
      exact absurd rfl (h3 ⟨.evalTrust dev', .ok l'⟩ (by simp) dev' h1 h2)
  · cases a with
    | nil => cases h6; exact ⟨rfl, rfl⟩
    | cons e a =>
      cases h6
      exact absurd rfl (h5 ⟨.evalTrust dev, .ok l⟩ (by simp) dev h1.symm h2.symm)

namespace Passed
variable {M : Mgr} {ns : Ns} {j : Jid} {d : DevId} {l0 : List Ev}
open Delivery

/-- Since `l0` was recorded, a list without the device was downloaded, or the device can be addressed. -/
def Listed (l0 : List Ev) (ns : Ns) (j : Jid) (d : DevId) (w : World) : Prop :=
  ∃ l, w.log = l0 ++ l ∧ ((∃ e ∈ l, Dropped ns j d e) ∨ ReachableW j d ns w)

/-- The places that say that a device can be addressed. -/
def Place (j : Jid) (d : DevId) (k : Key) : Prop := k = .devList j ∨ k = .devNamespaces j d ∨ k = .devActive j d

theorem ReachableW.congr {w w' : World} (h : ReachableW j d ns w) (hd : ∀ k, Place j d k → w'.disk k = w.disk k) : ReachableW j d ns w' := by
  obtain ⟨⟨l, h1, h2⟩, ⟨n, h3, h4⟩, ⟨a, h5, h6⟩⟩ := h
  exact ⟨⟨l, (hd _ (.inl rfl)).trans h1, h2⟩, ⟨n, (hd _ (.inr (.inl rfl))).trans h3, h4⟩, ⟨a, (hd _ (.inr (.inr rfl))).trans h5, h6⟩⟩

/-- Interactions that leave these places alone. -/
def Spares (j : Jid) (d : DevId) : Op → Prop
  | .store k _ | .delete k => ¬ Place j d k
  | _ => True

theorem log_grows (w : World) (o : Op) (r : Except Exn o.Ret) : ∃ l, (Lib.next w ⟨o, r⟩).log = w.log ++ l := by
  cases o <;> cases r <;> first | exact ⟨[], (List.append_nil _).symm⟩ | exact ⟨_, rfl⟩

theorem allOps_any {α : Type} (p : P α) : AllOps (fun _ => True) p := by
  induction p with
  | ret | raise => trivial
  | op o k ih => exact ⟨trivial, ih⟩

theorem keep : OpsKeep (Listed l0 ns j d) (Spares j d) := by
  rintro o ho w r _ ⟨l, h1, h2⟩
  obtain ⟨l', h3⟩ := log_grows w o r
  refine ⟨l ++ l', by rw [h3, h1, List.append_assoc], ?_⟩
  rcases h2 with ⟨e, h4, h5⟩ | h2
  · exact .inl ⟨e, List.mem_append_left _ h4, h5⟩
  · refine .inr (ReachableW.congr h2 fun k hk => ?_)
    cases o with
    | store k' v => cases r with
      | ok a => exact Disk.upd_of_ne fun h => ho (h ▸ hk)
      | error e => rfl
    | delete k' => cases r with
      | ok a => exact Disk.upd_of_ne fun h => ho (h ▸ hk)
      | error e => rfl
    | _ => cases r <;> rfl

theorem pres_spares {α : Type} {p : P α} (h : AllOps (Spares j d) p) : Pres Lib (Listed l0 ns j d) p := keep.pres h

theorem quiet_spares {o : Op} (h : Quiet o) : Spares j d o := by
  cases o with
  | store k v => rintro (rfl | rfl | rfl) <;> rcases h with ⟨_, h⟩ | ⟨_, _, h⟩ <;> cases h
  | delete k => rintro (rfl | rfl | rfl) <;> rcases h with ⟨_, h⟩ | ⟨_, _, h⟩ <;> cases h
  | _ => trivial

/-- What was downloaded stays recorded. -/
theorem pres_dropped {α : Type} (p : P α) : Pres Lib (fun w => ∃ l, w.log = l0 ++ l ∧ ∃ e ∈ l, Dropped ns j d e) p := by
  refine Pres.ofOps (φ := fun _ => True) (allOps_any _) fun o _ w r _ ⟨l, h1, e, h2, h3⟩ => ?_
  obtain ⟨l', h4⟩ := log_grows w o r
  exact ⟨l ++ l', by rw [h4, h1, List.append_assoc], e, List.mem_append_left _ h2, h3⟩

theorem pres_reach {α : Type} {p : P α} (h : Pres Lib (ReachableW j d ns) p) : Pres Lib (Listed l0 ns j d) p := by
  intro w hw
  obtain ⟨l, h1, h2⟩ := hw
  have hg : Pres Lib (fun w => ∃ l', w.log = l0 ++ l ++ l') p := by
    refine Pres.ofOps (φ := fun _ => True) (allOps_any _) fun o _ w r _ ⟨l', h3⟩ => ?_
    obtain ⟨l'', h4⟩ := log_grows w o r
    exact ⟨l' ++ l'', by rw [h4, h3, List.append_assoc]⟩
  have hg := hg w ⟨[], by rw [h1, List.append_nil]⟩
  rcases h2 with ⟨e, h3, h4⟩ | h2
  · exact wp_mono hg fun r w' ⟨l', h5⟩ => ⟨l ++ l', by rw [h5, List.append_assoc], .inl ⟨e, List.mem_append_left _ h3, h4⟩⟩
  · exact wp_mono (wp_and hg (h w h2)) fun r w' ⟨⟨l', h5⟩, h6⟩ => ⟨l ++ l', by rw [h5, List.append_assoc], .inr h6⟩

/-- Merging a list that contains the device, or a list of another backend. -/
theorem reach_update {ns' : Ns} {j' : Jid} {dl : DevList} (h : ns' = ns → j' = j → dl.get d ≠ none) :
    Pres Lib (ReachableW j d ns) (updateDeviceList M ns' j' dl) := by
  refine pres_ends.2 fun w hw => ?_
  have hall : ∀ w' : World, (∀ k, w'.disk k = w.disk k ∨ w'.disk k = Upd.target M ns' j' dl w.disk k) → ReachableW j d ns w' := by
    obtain ⟨⟨l, h1, h2⟩, ⟨n, h3, h4⟩, ⟨a, h5, h6⟩⟩ := hw
    intro w' hw'
    by_cases hj : j' = j
    · subst hj
      have hold : d ∈ Upd.old w.disk j' := by
        unfold Upd.old
        rw [h1, ints_of, mem_dedup]
        exact h2
      refine ⟨?_, ?_, ?_⟩
      · rcases hw' (.devList j') with h7 | h7
        · exact ⟨l, h7.trans h1, h2⟩
        · simp only [Upd.target] at h7
          split at h7
          · exact ⟨_, h7, by simp only [SetOrder.mem_iter, mem_setUnion]; exact .inr hold⟩
          · exact ⟨l, h7.trans h1, h2⟩
      · rcases hw' (.devNamespaces j' d) with h7 | h7
        · exact ⟨n, h7.trans h3, h4⟩
        · rw [Upd.target_ns_old hold] at h7
          unfold Upd.nsAfter at h7
          split at h7
          · split at h7
            · rw [h3, strs_of] at h7
              exact ⟨_, h7, by simp only [SetOrder.mem_iter, mem_setAdd, mem_dedup]; exact .inl h4⟩
            · exact ⟨n, h7.trans h3, h4⟩
          · exact ⟨n, h7.trans h3, h4⟩
      · rcases hw' (.devActive j' d) with h7 | h7
        · exact ⟨a, h7.trans h5, h6⟩
        · rw [Upd.target_active_old hold] at h7
          unfold Upd.activeAfter at h7
          split at h7
          · split at h7
            · rw [h5, bools_of] at h7
              refine ⟨_, h7, ?_⟩
              rw [Dict.get_set]
              split
              · rfl
              · exact h6
            · exact ⟨a, h7.trans h5, h6⟩
          · rename_i hg
            split at h7
            · rw [h5, bools_of] at h7
              refine ⟨_, h7, ?_⟩
              rw [Dict.get_set]
              split
              · rename_i hn
                rw [Upd.eff_get] at hg
                split at hg
                · cases hg
                · exact absurd hg (h hn rfl)
              · exact h6
            · exact ⟨a, h7.trans h5, h6⟩
    · have he : ∀ k, Place j d k → Upd.target M ns' j' dl w.disk k = w.disk k := by
        have hj : ¬ j = j' := fun h => hj h.symm
        rintro k (rfl | rfl | rfl) <;> simp [Upd.target, hj]
      refine ReachableW.congr ⟨⟨l, h1, h2⟩, ⟨n, h3, h4⟩, ⟨a, h5, h6⟩⟩ fun k hk => ?_
      rcases hw' k with h7 | h7
      · exact h7
      · rw [h7, he k hk]
  refine ends_mono Upd.wp_updateDeviceList (fun _ w' h => ?_) fun _ w' h => ?_
  · obtain ⟨_, _, _, _, h⟩ := h
    exact hall w' fun k => .inr (by rw [h])
  · exact hall w' fun k => (h.2.2.2 k).imp_right And.right

theorem listed_refresh (ns' : Ns) (j' : Jid) : Pres Lib (Listed l0 ns j d) (refreshDeviceList M ns' j') := by
  refine pres_ends.2 fun w hw => ?_
  obtain ⟨l, h1, h2⟩ := hw
  unfold refreshDeviceList
  rw [ends_bind]
  refine Lib.ext rfl ⟨l, h1, h2⟩ (fun e _ => ?_) fun dl => ?_
  · exact keep (.downloadList ns' j') trivial w (.error e) (by assumption) ⟨l, h1, h2⟩
  · have hnext : Listed l0 ns j d (w.push ⟨.downloadList ns' j', .ok dl⟩) := keep (.downloadList ns' j') trivial w (.ok dl) trivial ⟨l, h1, h2⟩
    by_cases hb : ns' = ns → j' = j → dl.get d ≠ none
    · exact pres_ends.1 (pres_reach (reach_update hb)) _ hnext
    · refine ends_mono (pres_ends.1 (pres_dropped (l0 := l0) (ns := ns) (j := j) (d := d) _) _ ?_) (fun _ w' ⟨l', h3, h4⟩ => ⟨l', h3, .inl h4⟩)
        fun _ w' ⟨l', h3, h4⟩ => ⟨l', h3, .inl h4⟩
      have hb' : ns' = ns ∧ j' = j ∧ dl.get d = none := by
        refine ⟨Classical.not_not.1 fun h => hb fun h' => absurd h' h, Classical.not_not.1 fun h => hb fun _ h' => absurd h' h, ?_⟩
        exact Classical.not_not.1 fun h => hb fun _ _ => h
      obtain ⟨rfl, rfl, hg⟩ := hb'
      exact ⟨l ++ [⟨.downloadList ns' j', .ok dl⟩], by simp [World.push, h1], _, by simp, dl, rfl, hg⟩

theorem parts : ServerParts (Listed l0 ns j d) M :=
  ⟨fun o ho => keep o (quiet_spares ho), fun jid => pres_reach (pres_info' jid), listed_refresh⟩

theorem ownParts (h : ¬ (M.ownJid = j ∧ M.ownDev = d)) : OwnParts (Listed l0 ns j d) M := by
  refine ⟨fun a => pres_spares (.perform ?_), fun a => pres_spares (.perform ?_)⟩
  · rintro (h' | h' | h')
    · cases h'
    · cases h'
    · cases h'; exact h ⟨rfl, rfl⟩
  · rintro (h' | h' | h')
    · cases h'
    · cases h'; exact h ⟨rfl, rfl⟩
    · cases h'

theorem listed_ikp : Pres Lib (Listed l0 ns j d) IdentityKeyPair.get :=
  pres_spares (ops_ikp.mono fun o ho => by
    cases ho with
    | isSeed => rintro (h | h | h) <;> cases h
    | key b => rintro (h | h | h) <;> cases h
    | _ => trivial)

theorem listed_purge {jid : Jid} (h : jid ≠ j) : Pres Lib (Listed l0 ns j d) (purgeBareJid M jid) := by
  refine pres_spares ((ops_purgeBareJid M jid).mono fun o ho => ?_)
  cases ho with
  | namespaces d' => rintro (h' | h' | h') <;> cases h'; exact h rfl
  | active d' => rintro (h' | h' | h') <;> cases h'; exact h rfl
  | label d' => rintro (h' | h' | h') <;> cases h'
  | identityKey d' => rintro (h' | h' | h') <;> cases h'
  | trust d' => rintro (h' | h' | h') <;> cases h'
  | list => rintro (h' | h' | h') <;> cases h'; exact h rfl
  | _ => trivial

theorem listed_create (hj : M.ownJid ≠ j) (bs : List Ns) (label : Option String) (fuel : Nat) : Pres Lib (Listed l0 ns j d) (create M bs label fuel) := by
  refine ServerParts.create (fun _ => parts) (fun _ => ownParts fun h => hj h.1) listed_ikp bs label fuel fun d' ik bs' => pres_spares ?_
  unfold storeOwnDevice Sto.storeBytes
  refine .bind (.perform ?_) fun _ => .bind (.perform ?_) fun _ => .bind (.perform ?_) fun _ =>
    .bind (.perform ?_) fun _ => .bind (.perform ?_) fun _ => .bind (.perform ?_) fun _ => .perform ?_
  all_goals rintro (h' | h' | h') <;> cases h' <;> exact hj rfl

theorem listed_extra {c : Call} (ho : ¬ (M.ownJid = j ∧ M.ownDev = d)) (hc : KeepsListed ns j d M c)
    (hd : c.inDecision = false → ∀ ds i, Pres Lib (Listed l0 ns j d) (M.decide ds i)) : ServerParts.Extra (Listed l0 ns j d) M c := by
  cases c with
  | getIdentityKeyPair => exact listed_ikp
  | create bs l f => exact listed_create hc bs l f
  | purgeBackend ns => exact ownParts ho
  | purgeBareJid jid => exact listed_purge hc
  | updateDeviceList ns' jid dl => exact pres_reach (reach_update hc)
  | setTrust j' ik l => exact pres_spares (.perform (by rintro (h' | h' | h') <;> cases h'))
  | setOwnLabel l => exact pres_spares (.perform (by rintro (h' | h' | h') <;> cases h'))
  | encrypt => exact hd rfl
  | _ => trivial

theorem listed_call {x : Mgr × Call} (h : Retaining ns j d x) : Pres Lib (Listed l0 ns j d) (x.2.run x.1) := by
  refine parts.call x.2 (listed_extra h.other h.call fun _ ds i => parts.app (fun c hc => ?_) (h.app ds i))
  exact listed_extra h.other hc.1 fun h' => by rw [hc.2] at h'; cases h'

end Passed

/-- C92, storing: whoever is on a device list that was merged can be addressed. -/
theorem C92_merged (M : Mgr) (ns : Ns) (j : Jid) (L : DevList) (w w' : World) (t : List Ev) (ht : Typed w.disk)
    (he : Exec (updateDeviceList M ns j L) t (.ok ())) (hr : Lib.Runs w t w') (order : List Ns) (hns : ns ∈ order) (d : DevId) (hd : L.get d ≠ none) :
    Reachable w'.disk order j d := by
  have hm := C11_merge M ns j L w w' t ht he hr
  obtain ⟨x, hx⟩ := Option.ne_none_iff_exists'.1 hd
  obtain ⟨h1, h2⟩ := hm.listed d (.inr ⟨x, hx⟩) (.inl ⟨x, hx⟩)
  exact ⟨(hm.known d).2 (.inr ⟨x, hx⟩), ns, hns, h2, h1⟩

/-- C92, later: this stays so whatever is called, unless a list without the device is downloaded. -/
theorem C92_stays (cs : List (Mgr × Call)) (w w' : World) (ns : Ns) (j : Jid) (d : DevId) (h : Hist Lib w cs w')
    (hcs : ∀ x ∈ cs, Retaining ns j d x) (hw : Reachable w.disk [ns] j d) :
    ∃ l, w'.log = w.log ++ l ∧ ((∃ e ∈ l, Dropped ns j d e) ∨ Reachable w'.disk [ns] j d) := by
  obtain ⟨h1, n, hn, h2⟩ := hw
  obtain rfl := List.mem_singleton.1 hn
  obtain ⟨l, h3, h4⟩ := h.invariant (I := Passed.Listed w.log n j d) (fun x hx => Passed.listed_call (hcs x hx)) ⟨[], by simp, .inr ⟨h1, h2⟩⟩
  exact ⟨l, h3, h4.imp_right fun ⟨h5, h6⟩ => ⟨h5, n, hn, h6⟩⟩

/-- C92, encrypting: each device that can be addressed is accounted for. -/
theorem C92_accounted (M : Mgr) (jids : List Jid) (pt : Dict Ns Bytes) (prio : Option (List Ns)) (i : Option String) (t : List Ev) (w w' : World)
    (msgs : Dict Message PlainKM) (errs : List EncError) (hdec : CallbackQuiet M.decide)
    (he : Exec (encrypt M jids pt prio i) t (.ok (msgs, errs))) (hr : Lib.Runs w t w') (hb : w.backends.Nodup)
    (hs : ∀ e ∈ t, ∀ bs, e.1 ≠ .setBackends bs) (hA : Addressed t) (j : Jid) (d : DevId) (hj : j ∈ jids ∨ j = M.ownJid)
    (hown : ¬ (j = M.ownJid ∧ d = M.ownDev)) (hd : Reachable w.disk (prio.getD w.backends) j d) : Accounted t msgs errs j d := by
  have hbs := lib_backends hr hs
  have hb1 : BackendsOnce t := fun bs h => by rw [hbs bs h]; exact hb
  have hb2 : BackendsStay t := fun bs bs' h h' => by rw [hbs bs h, hbs bs' h']
  obtain ⟨c1, c2, _⟩ := C32_served_or_reported M jids pt prio i t msgs errs hdec he hb1 hb2 hA
  by_cases hev : ∃ dev l, dev.bareJid = j ∧ dev.deviceId = d ∧ LastEval t dev l
  · obtain ⟨dev, l, rfl, rfl, h⟩ := hev
    by_cases hl : l = .trusted
    · subst hl
      obtain ⟨_, _, h1 | ⟨h1, e, h2, _⟩⟩ := c1 dev h
      · obtain ⟨⟨x, h1, _, h2⟩, h3⟩ := h1
        exact .inl ⟨dev, rfl, rfl, h, .inl ⟨⟨x, h1, h2⟩, h3⟩⟩
      · exact .inl ⟨dev, rfl, rfl, h, .inr ⟨h1, e, h2⟩⟩
    · refine .inr (.inl ⟨dev, l, rfl, rfl, h, hl, c2 _ _ fun dev' h1 h2 h3 => hl ?_⟩)
      exact (lastEval_unique h h3 h1 h2).2.symm
  · refine .inr (.inr ⟨?_, c2 _ _ fun dev h1 h2 h3 => hev ⟨dev, _, h1, h2, h3⟩⟩)
    obtain ⟨t1, t2, t4, order, devices, cache, infos, out, v1, v2, v3, tm, bs, st, os, rfl, _, _, hp, ha, hts, ho, _⟩ :=
      (encrypt_run hdec jids pt prio i he hb1).succeeded rfl
    have hord : order = prio.getD w.backends := by
      obtain ⟨bs0, t0, rfl, hord⟩ := hp.chosen
      rw [(effectiveOrder_ok hord).1, hbs bs0 (by simp)]
    rw [← hord] at hd
    obtain ⟨w1, hr1, _⟩ := Lib.runs_split (t1 := t1) (by simpa only [List.append_assoc] using hr)
    rcases Delivery.considered_or hp hr1 hj hown hd with ⟨dev, hdev, haddr⟩ | ⟨h, _⟩
    · exfalso
      have : addr dev ∈ out.map addr := (ha.addrs _).2 (List.mem_map_of_mem hdev)
      obtain ⟨d', hd', he'⟩ := List.mem_map.1 this
      rw [haddr] at he'
      simp only [addr, Prod.mk.injEq] at he'
      refine hev ⟨d', v3 d', he'.1, he'.2, ?_⟩
      rw [List.append_assoc]
      refine (lastEval_iff hdec hp ha ?_).2 ⟨hd', rfl⟩
      intro e he
      simp only [List.cons_append, List.mem_cons, List.mem_append, List.mem_map] at he
      rcases he with rfl | he | ⟨p, _, rfl⟩
      · nofun
      · exact sends_not_eval (hts e he)
      · nofun
    · exact h.mono fun e he => by simp only [List.mem_append]; exact .inl (.inl (.inl (.inl he)))

/-- C92: after a device list was merged and whatever was called then, each device on this list is accounted for in messages encrypted for its JID, unless a
list without it was downloaded in between. -/
theorem C92 (M0 M : Mgr) (ns : Ns) (j : Jid) (L : DevList) (w0 w1 w2 w3 : World) (t0 t : List Ev) (cs : List (Mgr × Call)) (d : DevId)
    (jids : List Jid) (pt : Dict Ns Bytes) (prio : Option (List Ns)) (i : Option String) (msgs : Dict Message PlainKM) (errs : List EncError)
    (ht : Typed w0.disk) (he0 : Exec (updateDeviceList M0 ns j L) t0 (.ok ())) (hr0 : Lib.Runs w0 t0 w1) (hd : L.get d ≠ none)
    (hh : Hist Lib w1 cs w2) (hcs : ∀ x ∈ cs, Retaining ns j d x) (hl : ∀ e ∈ w2.log.drop w1.log.length, ¬ Dropped ns j d e)
    (hdec : CallbackQuiet M.decide) (he : Exec (encrypt M jids pt prio i) t (.ok (msgs, errs))) (hr : Lib.Runs w2 t w3) (hb : w2.backends.Nodup)
    (hs : ∀ e ∈ t, ∀ bs, e.1 ≠ .setBackends bs) (hA : Addressed t) (hns : ns ∈ prio.getD w2.backends) (hj : j ∈ jids ∨ j = M.ownJid)
    (hown : ¬ (j = M.ownJid ∧ d = M.ownDev)) : Accounted t msgs errs j d := by
  obtain ⟨l, h1, h2⟩ := C92_stays cs w1 w2 ns j d hh hcs (C92_merged M0 ns j L w0 w1 t0 ht he0 hr0 [ns] (by simp) d hd)
  rw [h1, List.drop_left] at hl
  rcases h2 with ⟨e, h3, h4⟩ | ⟨h2, n, h3, h4⟩
  · exact absurd h4 (hl e h3)
  · obtain rfl := List.mem_singleton.1 h3
    exact C92_accounted M jids pt prio i t w2 w3 msgs errs hdec he hr hb hs hA j d hj hown ⟨h2, n, hns, h4⟩

/-! ### Example -/

/-- The bundles of device 8 are not to be found, device 9 is distrusted. -/
def mixed (w : World) (o : Op) : Except Exn o.Ret := match o with
  | .evalTrust dev => .ok (if dev.deviceId = 9 then .distrusted else .trusted)
  | .downloadBundle ns j d => if d = 8 then .error .bundleNotFound else genuine w (.downloadBundle ns j d)
  | .downloadList _ _ => .ok []
  | o => trustful w o

theorem mixed_ok (w : World) (o : Op) (e : Exn) (h : mixed w o = .error e) : e.isInternal = false := by
  cases o <;> simp only [mixed] at h <;> first | exact trustful_ok w _ e h | (cases h; done) | skip
  split at h
  · cases h; rfl
  · exact genuine_ok w _ e h

def Friendly.mixed : Friendly := ⟨Verif.mixed, mixed_ok⟩

/-- Three devices of "a" are listed for "n". -/
def World.listed3 : World := (Friendly.mixed.run (updateDeviceList Mgr.ex "n" "a" [(7, none), (8, none), (9, none)]) World.started).2.2

/-- An empty list of "a" for "o" is downloaded and the label is changed meanwhile. -/
def World.listed3' : World := (Friendly.mixed.run ((Call.setOwnLabel none).run Mgr.ex)
  (Friendly.mixed.run ((Call.refreshDeviceList "o" "a").run Mgr.ex) World.listed3).2.2).2.2

def mixedRun := Friendly.mixed.run (encrypt Mgr.ex ["a"] [("n", [1]), ("o", [1])] none none) World.listed3'

theorem mixed_addressed : Addressed mixedRun.1 := by
  have h := runProg_answers (Lib.env Verif.mixed) Lib.next 1000 (encrypt Mgr.ex ["a"] [("n", [1]), ("o", [1])] none none) World.listed3'
  refine ⟨?_, ?_, ?_⟩
  · intro ns j d s hm
    obtain ⟨w, hw⟩ := h _ hm
    cases hw; exact ⟨rfl, rfl⟩
  · intro ns j d b m s k hm
    obtain ⟨w, hw⟩ := h _ hm
    cases hw; exact ⟨⟨rfl, rfl⟩, rfl, rfl⟩
  · intro ns s m k s' hm
    obtain ⟨w, hw⟩ := h _ hm
    cases hw; exact ⟨⟨rfl, rfl⟩, rfl, rfl⟩

/-- The hypotheses of `C92` are met for all three devices; one gets a key. -/
theorem C92_example : ∃ msgs errs, mixedRun.2.1 = .ok (msgs, errs) ∧ (∀ d, d = 7 ∨ d = 8 ∨ d = 9 → Accounted mixedRun.1 msgs errs "a" d) ∧
    ∃ x ∈ msgs, (keysFor x.1 "a" 7).length = 1 ∧ keysFor x.1 "a" 8 = [] ∧ keysFor x.1 "a" 9 = [] := by
  have hok : ∃ msgs errs, mixedRun.2.1 = .ok (msgs, errs) := by
    have : (match mixedRun.2.1 with | .ok _ => true | _ => false) = true := by decide +kernel
    cases h : mixedRun.2.1 with
    | ok a => exact ⟨a.1, a.2, rfl⟩
    | raised e => rw [h] at this; cases this
    | crashed => rw [h] at this; cases this
  obtain ⟨msgs, errs, hok⟩ := hok
  have hkeys : (match mixedRun.2.1 with
    | .ok a => a.1.any fun x => decide ((keysFor x.1 "a" 7).length = 1) && (keysFor x.1 "a" 8).isEmpty && (keysFor x.1 "a" 9).isEmpty
    | _ => false) = true := by decide +kernel
  have h0 : (Friendly.mixed.run (updateDeviceList Mgr.ex "n" "a" [(7, none), (8, none), (9, none)]) World.started).2.1 = .ok () := by decide +kernel
  have hset : mixedRun.1.all (fun e => match e.1 with | .setBackends _ => false | _ => true) = true := by decide +kernel
  have hlog : ((World.listed3'.log.drop World.listed3.log.length).all fun e => match e with
    | ⟨.downloadList ns j, _⟩ => decide (ns ≠ "n" ∨ j ≠ "a") | _ => true) = true := by decide +kernel
  have ht : Typed World.started.disk := by
    have hst : Step "me" Mgr.ex.x Use.fresh (Mgr.ex, .create ["n", "o"] (some "pc") 5) Use.started := by
      cases started_life with
      | cons h h' => cases h'; exact h
    exact (Intact.course_inv fresh_new nofun (.step _ .start viaApi_ex (fun _ h => by cases h) hst)).2.2.1
  have hme : ¬ Mgr.ex.ownJid = "a" := by decide
  have hb : World.listed3'.backends = ["n", "o"] := by decide +kernel
  refine ⟨msgs, errs, hok, fun d hd => ?_, ?_⟩
  · have hret : ∀ c, (∀ j, c ≠ Call.purgeBareJid j) → (∀ ns j l, c ≠ .updateDeviceList ns j l) → (∀ bs l f, c ≠ .create bs l f) → Retaining "n" "a" d (Mgr.ex, c) :=
      fun c h1 h2 h3 => ⟨fun h => hme h.1, (by cases c <;> first | trivial | exact absurd rfl (h1 _) | exact absurd rfl (h2 _ _ _) | exact absurd rfl (h3 _ _ _)),
        fun _ _ => .ret ()⟩
    refine C92 Mgr.ex Mgr.ex "n" "a" [(7, none), (8, none), (9, none)] World.started World.listed3 World.listed3' _ _ _ _ d ["a"] [("n", [1]), ("o", [1])] none none
      msgs errs ht (h0 ▸ Friendly.mixed.exec _ _) (Friendly.mixed.runs _ _) ?_
      (Friendly.mixed.hist (Friendly.mixed.hist (.nil _) Mgr.ex (.refreshDeviceList "o" "a")) Mgr.ex (.setOwnLabel none)) ?_ ?_ Mgr.ex_quiet (hok ▸ Friendly.mixed.exec _ _)
      (Friendly.mixed.runs _ _) (hb ▸ (by decide)) ?_ mixed_addressed (by rw [hb]; decide) (by simp) (fun h => absurd h.1 (by decide))
    · rcases hd with rfl | rfl | rfl <;> decide
    · intro x hx
      simp only [List.nil_append, List.cons_append, List.mem_cons, List.not_mem_nil, or_false] at hx
      rcases hx with rfl | rfl <;> exact hret _ nofun nofun nofun
    · rintro e he ⟨l, rfl, _⟩
      have := List.all_eq_true.1 hlog _ he
      simp at this
    · intro e he bs hbs
      have := List.all_eq_true.1 hset e he
      rw [hbs] at this
      cases this
  · rw [hok] at hkeys
    obtain ⟨x, h1, h2⟩ := List.any_eq_true.1 hkeys
    simp only [Bool.and_eq_true, decide_eq_true_eq, List.isEmpty_iff] at h2
    exact ⟨x, h1, h2.1.1, h2.1.2, h2.2⟩

end Verif
