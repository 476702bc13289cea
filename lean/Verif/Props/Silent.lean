import Verif.Props.HiddenKeys
/-
From creation until `after_history_sync`, history is being synchronized.
-/
namespace Verif
open SM Spec

namespace Spec

/-- A message is sent, or pre keys are deleted. -/
def Op.final : Op → Bool
  | .sendMessage .. | .deletePreKey .. | .deleteHidden _ => true
  | _ => false

/-- Neither that, nor ends the synchronization. -/
def Op.waits (o : Op) : Bool := !Op.final o && match o with | .setSync b => b | _ => true

/-- Calls other than ending the synchronization and replacing sessions; trust decisions do neither as well. -/
structure Waiting (k : Running) : Prop where
  decisions : ∀ ds i, AllOps (fun o => Op.waits o = true) (k.M.decide ds i)
  after : k.c ≠ .afterHistorySync
  replace : ∀ j d, k.c ≠ .replaceSessions j d

end Spec

namespace Silent

/-- Messages are sent and pre keys deleted only after asking whether history is synchronized. -/
def Rule (h : List Ev) (o : Op) : Prop := Op.waits o = true ∨ (⟨.getSync, .ok false⟩ : Ev) ∈ h ∧ o ≠ .setSync false

theorem Rule.mono {h h' : List Ev} {o : Op} (hr : Rule h o) (hs : h ⊆ h') : Rule h' o := hr.imp_right fun h => ⟨hs h.1, h.2⟩

/-- What interactions are preceded by within a call, they are preceded by in an interleaving. -/
theorem shuffled {R : List Ev → Op → Prop} (mono : ∀ {h h' o}, R h o → h ⊆ h' → R h' o) {ts : List (List Ev)} {t : List Ev} (hs : Shuffle ts t) :
    ∀ (g : List Ev), (∀ u ∈ ts, ∃ g0, g0 ⊆ g ∧ ∀ h1 e h2, u = h1 ++ e :: h2 → R (g0 ++ h1) e.1) → ∀ h1 e h2, t = h1 ++ e :: h2 → R (g ++ h1) e.1 := by
  induction hs with
  | nil _ => intro g _ h1 e h2 h; simp at h
  | @cons as bs a u t _ ih =>
    intro g h h1 e h2 ht
    cases h1 with
    | nil =>
      simp only [List.nil_append, List.cons.injEq] at ht
      obtain ⟨rfl, rfl⟩ := ht
      obtain ⟨g0, hg, hr⟩ := h (a :: u) (by simp)
      exact mono (hr [] a u rfl) (by simpa using hg)
    | cons x h1 =>
      simp only [List.cons_append, List.cons.injEq] at ht
      obtain ⟨rfl, rfl⟩ := ht
      have := ih (g ++ [a]) (fun v hv => ?_) h1 e h2 rfl
      · simpa using this
      · rcases List.mem_append.1 hv with hv | hv
        · obtain ⟨g0, hg, hr⟩ := h v (by simp [hv])
          exact ⟨g0, fun y hy => List.mem_append_left _ (hg hy), hr⟩
        · rcases List.mem_cons.1 hv with rfl | hv
          · obtain ⟨g0, hg, hr⟩ := h (a :: v) (by simp)
            refine ⟨g0 ++ [a], fun y hy => ?_, fun h1 e h2 hh => ?_⟩
            · rcases List.mem_append.1 hy with hy | hy
              · exact List.mem_append_left _ (hg hy)
              · exact List.mem_append_right _ hy
            · have := hr (a :: h1) e h2 (by rw [hh]; rfl)
              simpa using this
          · obtain ⟨g0, hg, hr⟩ := h v (by simp [hv])
            exact ⟨g0, fun y hy => List.mem_append_left _ (hg hy), hr⟩

theorem waits_info {jid : Jid} {o : Op} (h : Foot.Info jid o) : Op.waits o = true := by cases h <;> rfl

theorem waits_refresh {M : Mgr} {ns : Ns} {jid : Jid} {o : Op} (h : Foot.Refresh M ns jid o) : Op.waits o = true := by
  cases h with
  | download => rfl
  | update h => cases h <;> rfl

theorem waits_purge {M : Mgr} {ns : Ns} {o : Op} (h : Foot.PurgeBackend M ns o) : Op.waits o = true := by
  cases h with
  | info h => exact waits_info h
  | _ => rfl

theorem waits_create {M : Mgr} {o : Op} (h : Foot.Create M o) : Op.waits o = true := by
  cases h with
  | info h => exact waits_info h
  | refresh _ _ h => exact waits_refresh h
  | purge _ _ h => exact waits_purge h
  | _ => rfl

theorem kn_waits {K : List Ev → Prop} [Lasting K] {α : Type} {p : P α} (h : AllOps (fun o => Op.waits o = true) p) : Kn Rule K p (fun _ _ => True) :=
  Kn.ops (h.mono fun _ ho _ _ => .inl ho)

theorem kn_consume {M : Mgr} {ns : Ns} {s : Session} : Kn Rule (fun _ => True) (consumePreKey M ns s) (fun _ _ => True) := by
  unfold consumePreKey
  refine Kn.bind (Kn.call fun _ _ => .inl rfl) fun sync => Kn.seq (R := fun _ _ => True) ?_ fun b => kn_waits ?_
  · unfold discardPreKey
    cases sync
    · exact (Kn.call fun h hk => .inr ⟨hk.2, nofun⟩).post fun _ _ _ => trivial
    · exact kn_waits (AllOps.perform rfl)
  · unfold refillPreKeys
    lib_ops []

theorem kn_reply {M : Mgr} {ns : Ns} {kex} {s : Session} : Kn Rule (fun _ => True) (autoReply M ns kex s) (fun _ _ => True) := by
  unfold autoReply
  refine Kn.when' fun _ => Kn.bind (Kn.call fun _ _ => .inl rfl) fun sync => ?_
  cases sync
  · exact Kn.ops ((ops_sendEmptyMessage M ns s).mono fun o h _ hk => Or.inr ⟨hk.2, fun h' => by subst h'; cases h⟩)
  · refine kn_waits ?_
    simp only [if_true]
    unfold queueEmpty
    lib_ops []

theorem kn_decrypt {M : Mgr} {msg : Message} : Kn Rule (fun _ => True) (Call.run M (.decrypt msg)) (fun _ _ => True) := by
  have h1 : AllOps (fun o => Op.waits o = true) (findSender M msg) := by
    unfold findSender
    lib_ops []
    all_goals first
      | exact (ops_getDeviceInformation M _).mono fun _ h => waits_info h
      | exact (ops_refreshDeviceList M _ _).mono fun _ h => waits_refresh h
  have h2 : ∀ dev ekm kex, AllOps (fun o => Op.waits o = true) (decryptContent M msg dev ekm kex) := by
    intro dev ekm kex
    unfold decryptContent keyMaterial plaintextOf decryptKeyMaterial handleKeyExchange
    lib_ops []
  have skip : ∀ {e : Exn} {α : Type}, Kn Rule (fun _ => True) (throwE e : P α) (fun _ _ => True) := Kn.raise
  simp only [Call.run]
  refine Kn.seq (R := fun _ _ => True) ?_ fun _ => Kn.pure fun _ _ => trivial
  unfold decrypt
  refine Kn.seq (kn_waits (AllOps.perform rfl)) fun bs => ?_
  split
  · exact skip
  · split
    · exact skip
    · refine Kn.seq (kn_waits h1) fun dev => Kn.seq (kn_waits (h2 _ _ _)) fun x => ?_
      refine Kn.seq (R := fun _ _ => True) ?_ fun _ => Kn.pure fun _ _ => trivial
      unfold postDecrypt
      exact Kn.seq (kn_waits (AllOps.perform rfl)) fun _ => Kn.seq (Kn.when' fun _ => kn_consume) fun _ => kn_reply

theorem waits_others {k : Running} (h : Waiting k) (hc : ∀ msg, k.c ≠ .decrypt msg) : AllOps (fun o => Op.waits o = true) (k.c.run k.M) := by
  obtain ⟨M, c, tr, r, he⟩ := k
  obtain ⟨hd, ha, hr⟩ := h
  simp only at hd ha hr hc ⊢
  clear he
  have drop : ∀ {α : Type} {p : P α} {φ : Op → Prop}, AllOps φ p → AllOps φ (do let _ ← p; pure ()) := fun h => AllOps.bind h fun _ => AllOps.ret _
  cases c <;> simp only [Call.run]
  case decrypt msg => exact absurd rfl (hc msg)
  case encrypt jids pt prio i =>
    refine drop ?_
    unfold encrypt
    have h1 : ∀ order, AllOps (fun o => Op.waits o = true) (recipientDevices M order (setUnion jids [M.ownJid])) := by
      intro order
      unfold recipientDevices getDeviceInformation' deviceInformation identityKeyOf repairNamespaces
      lib_ops []
      exact (ops_fetchIdentityKey ..).mono fun _ h => waits_info h
    have h2 : ∀ ds, AllOps (fun o => Op.waits o = true) (decideTrust M ds i) := by
      intro ds
      unfold decideTrust askTrust devicesWithTrust reloadTrust
      lib_ops []
      exact hd _ _
    have h3 : ∀ cache ds, AllOps (fun o => Op.waits o = true) (encryptTrusted M (setUnion jids [M.ownJid]) cache pt ds) := by
      intro cache ds
      unfold encryptTrusted devicesWithTrust encryptBackend encryptDevice encryptForDevice bundleFor
      lib_ops []
    refine AllOps.bind (AllOps.perform rfl) fun _ => AllOps.bind (allOps_liftE _) fun order => AllOps.bind (h1 order) fun x => AllOps.bind (h2 _) fun ds => h3 _ _
  case replaceSessions j d => exact absurd rfl (hr j d)
  case afterHistorySync => exact absurd rfl ha
  case getIdentityKeyPair => exact drop (ops_ikp.mono fun _ h => by cases h <;> rfl)
  case create bs label fuel => exact drop ((ops_create M bs label fuel).mono fun _ h => h.elim (fun h => by cases h <;> rfl) waits_create)
  case purgeBackend ns => exact (ops_purgeBackend M ns).mono fun _ h => waits_purge h
  case purgeBareJid jid => exact (ops_purgeBareJid M jid).mono fun _ h => by cases h <;> rfl
  case ensureDataConsistency => exact (ops_ensureDataConsistency M).mono fun _ h => by cases h with | refresh _ h => exact waits_refresh h | _ => rfl
  case rotation p f r => exact (ops_manageRotation M p f r).mono fun _ h => by cases h <;> rfl
  case updateDeviceList ns jid dl => exact (ops_updateDeviceList M ns jid dl).mono fun _ h => by cases h <;> rfl
  case refreshDeviceList ns jid => exact (ops_refreshDeviceList M ns jid).mono fun _ h => waits_refresh h
  case refreshDeviceLists jid =>
    unfold refreshDeviceLists
    exact AllOps.bind (AllOps.perform rfl) fun bs => AllOps.forEach fun ns _ => (ops_refreshDeviceList M ns jid).mono fun _ h => waits_refresh h
  case setTrust => exact AllOps.perform rfl
  case getSendingChainLength x =>
    unfold getSendingChainLength
    lib_ops []
  case setOwnLabel l => exact (ops_setOwnLabel M l).mono fun _ h => by cases h <;> rfl
  case getDeviceInformation jid => exact drop ((ops_getDeviceInformation M jid).mono fun _ h => waits_info h)
  case getOwnDeviceInformation => exact drop ((ops_getOwnDeviceInformation M).mono fun _ h => waits_info h)
  case beforeHistorySync => exact AllOps.perform rfl

theorem rules {k : Running} (h : Waiting k) : Guarded (fun h e => Rule h e.1) k.trace := by
  by_cases hc : ∃ msg, k.c = .decrypt msg
  · obtain ⟨msg, hc⟩ := hc
    have := k.exec
    rw [hc] at this
    exact Kn.exec kn_decrypt this
  · exact Kn.exec (kn_waits (waits_others h fun msg hm => hc ⟨msg, hm⟩)) k.exec

theorem rules_all {calls : List Running} {t : List Ev} (h : ∀ k ∈ calls, Waiting k) (hs : Shuffle (calls.map (·.trace)) t) : Guarded (fun h e => Rule h e.1) t := by
  intro h1 e h2 ht
  refine shuffled (R := Rule) Rule.mono hs [] (fun u hu => ?_) h1 e h2 ht
  obtain ⟨k, hk, rfl⟩ := List.mem_map.1 hu
  exact ⟨[], List.Subset.refl _, rules (h k hk)⟩

/-- The synchronization goes on unless it is ended. -/
theorem runs_sync {w w' : World} {t : List Ev} (h : ∀ r, (⟨.setSync false, r⟩ : Ev) ∉ t) (hr : Lib.Runs w t w') :
    (w.sync = true → w'.sync = true ∧ (⟨.getSync, .ok false⟩ : Ev) ∉ t) ∧ ((⟨.setSync true, .ok ()⟩ : Ev) ∈ t → w'.sync = true) := by
  induction t generalizing w with
  | nil => cases hr; exact ⟨fun h => ⟨h, List.not_mem_nil⟩, fun h => (List.not_mem_nil h).elim⟩
  | cons e t ih =>
    obtain ⟨h2, h3⟩ := ih (fun r hr => h r (List.mem_cons_of_mem _ hr)) hr.2
    obtain ⟨o, r⟩ := e
    have hs : (w.sync = true → (Lib.next w ⟨o, r⟩).sync = true) ∧ ((⟨o, r⟩ : Ev) = ⟨.setSync true, .ok ()⟩ → (Lib.next w ⟨o, r⟩).sync = true) := by
      cases o with
      | setSync b => cases b with
        | true => exact ⟨fun _ => rfl, fun _ => rfl⟩
        | false => exact absurd (List.mem_cons_self ..) (h r)
      | _ => first
          | exact ⟨id, fun h => (nomatch h)⟩
          | (cases r <;> exact ⟨id, fun h => (nomatch h)⟩)
    refine ⟨fun hw => ⟨(h2 (hs.1 hw)).1, fun hm => ?_⟩, fun hm => ?_⟩
    · rcases List.mem_cons.1 hm with hm | hm
      · cases hm
        have : Except.ok false = Except.ok w.sync := hr.1
        rw [hw] at this
        cases this
      · exact (h2 (hs.1 hw)).2 hm
    · rcases List.mem_cons.1 hm with hm | hm
      · exact (h2 (hs.2 hm.symm)).1
      · exact h3 hm

theorem not_ended {t : List Ev} (h : Guarded (fun h e => Rule h e.1) t) : ∀ r, (⟨.setSync false, r⟩ : Ev) ∉ t := by
  intro r hm
  obtain ⟨a, b, hab⟩ := List.append_of_mem hm
  rcases h a _ b hab with h | h
  · cases h
  · exact h.2 rfl

/-- `create` begins the synchronization. -/
theorem create_sets {M : Mgr} {bs : List Ns} {label : Option String} {fuel : Nat} {d : DevId} {t : List Ev} (h : Exec (create M bs label fuel) t (.ok d)) :
    (⟨.setSync true, .ok ()⟩ : Ev) ∈ t := by
  unfold create at h
  split at h
  · cases h
  · split at h
    · cases h
    · replace h := exec_call_bind_ok.1 h; obtain ⟨_, t1, rfl, h⟩ := h
      replace h := exec_seq_ok.1 h; obtain ⟨t2, _, t3, rfl, -, h⟩ := h
      replace h := exec_call_bind_ok.1 h; obtain ⟨_, t4, rfl, h⟩ := h
      simp

end Silent

/-- C114: while history is synchronized, calls other than `after_history_sync` and `replace_sessions` send nothing and delete no pre keys, however they overlap and end,
and the synchronization goes on. -/
theorem C114_waits (calls : List Running) (t : List Ev) (w w' : World) (h : ∀ k ∈ calls, Waiting k) (hs : Shuffle (calls.map (·.trace)) t) (hr : Lib.Runs w t w') (hw : w.sync = true) :
    w'.sync = true ∧ ∀ e ∈ t, Op.final e.1 = false := by
  have hg := Silent.rules_all h hs
  obtain ⟨h1, h2⟩ := (Silent.runs_sync (Silent.not_ended hg) hr).1 hw
  refine ⟨h1, fun e he => ?_⟩
  obtain ⟨a, b, rfl⟩ := List.append_of_mem he
  rcases hg a e b rfl with h | ⟨h, -⟩
  · unfold Op.waits at h
    simp only [Bool.and_eq_true, Bool.not_eq_true'] at h
    exact h.1
  · exact absurd (List.mem_append_left _ h) h2

/-- C114: this is so from the creation of the session manager on. -/
theorem C114 (M : Mgr) (bs : List Ns) (label : Option String) (fuel : Nat) (d : DevId) (t0 : List Ev) (he : Exec (create M bs label fuel) t0 (.ok d)) (w w1 : World)
    (hr : Lib.Runs w t0 w1) (calls : List Running) (t : List Ev) (w2 : World) (h : ∀ k ∈ calls, Waiting k) (hs : Shuffle (calls.map (·.trace)) t) (hr' : Lib.Runs w1 t w2) :
    w2.sync = true ∧ ∀ e ∈ t0 ++ t, Op.final e.1 = false := by
  have h0 : ∀ e ∈ t0, Op.waits e.1 = true := ((ops_create M bs label fuel).mono fun _ h => h.elim (fun h => by cases h <;> rfl) Silent.waits_create).exec he
  have hw : w1.sync = true := (Silent.runs_sync (fun r hm => by cases h0 _ hm) hr).2 (Silent.create_sets he)
  obtain ⟨h1, h2⟩ := C114_waits calls t w1 w2 h hs hr' hw
  refine ⟨h1, fun e hm => ?_⟩
  rcases List.mem_append.1 hm with hm | hm
  · have := h0 e hm
    unfold Op.waits at this
    simp only [Bool.and_eq_true, Bool.not_eq_true'] at this
    exact this.1
  · exact h2 e hm

/-! ### A run -/

namespace Silent

/-- The sender is on the server. -/
def fetching : World → (o : Op) → Except Exn o.Ret
  | _, .downloadList _ "a" => .ok [(7, none)]
  | _, .downloadBundle ns j d => .ok ⟨ns, j, d, [UInt8.ofNat d.toNat], 0⟩
  | w, o => OneTime.counting w o

theorem fetching_ok (w : World) (o : Op) (e : Exn) (h : fetching w o = .error e) : e.isInternal = false := by
  unfold fetching at h
  split at h
  · cases h
  · cases h
  · exact HiddenKeys.counting_ok w o e h

/-- After the first start, two first messages arrive at the same time. -/
def turns : List Nat := (List.replicate 80 [0, 1]).flatten
def work : List (P Unit) := [(Call.decrypt OneTime.first).run Mgr.ex, (Call.decrypt OneTime.third).run Mgr.ex]
def busy := sched (Lib.env fetching) Lib.next turns work World.started

def hiddenB (e : Ev) : Bool := match e with | ⟨.hidePreKey .., .ok true⟩ => true | _ => false

theorem waiting_ex {k : Running} (hm : k.M = Mgr.ex) (h1 : k.c ≠ .afterHistorySync) (h2 : ∀ j d, k.c ≠ .replaceSessions j d) : Waiting k :=
  ⟨fun _ _ => by rw [hm]; exact AllOps.ret _, h1, h2⟩

end Silent

/-- The hypotheses are met: a session manager is created for the first time, and decrypts two first messages at the same time. Their pre keys are hidden, replies are put off. -/
theorem C114_example : ∃ (t0 : List Ev) (k1 k2 : Running) (t : List Ev) (w1 w2 : World), Exec (create Mgr.ex ["n", "o"] (some "pc") 5) t0 (.ok 1) ∧ Lib.Runs World.fresh t0 w1 ∧
    (k1.c = .decrypt OneTime.first ∧ k1.res = .ok ()) ∧ (k2.c = .decrypt OneTime.third ∧ k2.res = .ok ()) ∧ Waiting k1 ∧ Waiting k2 ∧ Shuffle [k1.trace, k2.trace] t ∧ Lib.Runs w1 t w2 ∧
    (t.filter Silent.hiddenB).length = 2 ∧ w2.disk (.queue "n") = some (.ofStrs ["a"]) ∧ w2.sync = true ∧ ∀ e ∈ t0 ++ t, Op.final e.1 = false := by
  have h0 : Exec (create Mgr.ex ["n", "o"] (some "pc") 5) firstCreate.1 (.ok 1) := firstCreate_result ▸ genuineRun_exec (create Mgr.ex ["n", "o"] (some "pc") 5) World.fresh
  have r0 : Lib.Runs World.fresh firstCreate.1 World.started := genuineRun_runs _ _
  have hx := sched_ok Lib (Lib.env Silent.fetching) (Lib.env_ok Silent.fetching Silent.fetching_ok) Silent.turns Silent.work World.started
  obtain ⟨k1, k2, ⟨m1, c1, r1, -⟩, ⟨m2, c2, r2, -⟩, hs, hr⟩ := HiddenKeys.two_calls hx (by decide +kernel) (by decide +kernel)
  have w1 : Waiting k1 := Silent.waiting_ex m1 (by rw [c1]; nofun) (by rw [c1]; nofun)
  have w2 : Waiting k2 := Silent.waiting_ex m2 (by rw [c2]; nofun) (by rw [c2]; nofun)
  refine ⟨_, k1, k2, _, _, _, h0, r0, ⟨c1, r1⟩, ⟨c2, r2⟩, w1, w2, hs, hr, ?_, ?_, C114 Mgr.ex _ _ _ _ _ h0 _ _ r0 [k1, k2] _ _ ?_ hs hr⟩
  · exact (by decide +kernel : (Silent.busy.2.2.1.filter Silent.hiddenB).length = 2)
  · exact (by with_unfolding_all rfl : Silent.busy.2.2.2.disk (.queue "n") = some (.ofStrs ["a"]))
  · intro k hk
    simp only [List.mem_cons, List.not_mem_nil, or_false] at hk
    rcases hk with rfl | rfl
    · exact w1
    · exact w2

end Verif
