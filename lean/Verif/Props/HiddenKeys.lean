import Verif.Props.OneTime
import Verif.Props.BundlePar
import Verif.Props.Sync
/-
Hidden pre keys are kept only while history is synchronized.
-/
namespace Verif
open SM Spec

namespace Spec

/-- A pre key is hidden. -/
def HidesKey (ns : Ns) (e : Ev) : Prop := ∃ s, e = ⟨.hidePreKey ns s, .ok true⟩

/-- The hidden pre keys are deleted. -/
def DropsHidden (ns : Ns) (e : Ev) : Prop := e = ⟨.deleteHidden ns, .ok ()⟩ ∨ e = ⟨.purge ns, .ok ()⟩

/-- The backend has no hidden pre keys: they were deleted after the last one was hidden. -/
def NoneHidden (ns : Ns) (h : List Ev) : Prop := ∀ h1 e h2, h = h1 ++ e :: h2 → HidesKey ns e → ∃ c ∈ h2, DropsHidden ns c

/-- Everything but starting the synchronization, replacing backends, and hiding pre keys. -/
def Op.ordinary : Op → Bool
  | .setSync b => !b
  | .setBackends _ | .hidePreKey .. => false
  | _ => true

/-- Calls that do not start the synchronization; trust decisions leave it alone as well. -/
structure Ordinary (k : Running) : Prop where
  decisions : ∀ ds i, AllOps (fun o => Op.ordinary o = true) (k.M.decide ds i)
  created : ∀ bs l f, k.c ≠ .create bs l f
  before : k.c ≠ .beforeHistorySync

/-- One of the calls is `after_history_sync`, and returns. -/
def SyncEnds (calls : List Running) : Prop := ∃ k ∈ calls, k.c = .afterHistorySync ∧ k.res = .ok ()

end Spec

/-- C107 in full: once `after_history_sync` has returned and the calls at the same time are over, loaded backends have no hidden pre keys. -/
def C107_Claim : Prop := ∀ (calls : List Running) (t : List Ev) (w w' : World), (∀ k ∈ calls, Ordinary k ∧ k.res ≠ .crashed) → SyncEnds calls →
  (∀ k ∈ calls, ∀ ns, k.c ≠ .purgeBackend ns) → Shuffle (calls.map (·.trace)) t → Lib.Runs w t w' → ∀ ns ∈ w'.backends, NoneHidden ns w'.log

namespace HiddenKeys

/-- Pre keys are hidden only after asking whether history is synchronized; no backends are added. -/
def Rule (h : List Ev) : Op → Prop
  | .hidePreKey .. => (⟨.getSync, .ok true⟩ : Ev) ∈ h
  | .setBackends bs => ∃ bs0, (⟨.getBackends, .ok bs0⟩ : Ev) ∈ h ∧ bs ⊆ bs0
  | o => Op.ordinary o = true

theorem rule_of {h : List Ev} {o : Op} (ho : Op.ordinary o = true) : Rule h o := by
  cases o <;> first | exact ho | cases ho

theorem Rule.mono {h h' : List Ev} {o : Op} (hr : Rule h o) (hs : h ⊆ h') : Rule h' o := by
  cases o <;> first | exact hr | exact hs hr | exact hr.imp fun _ h => ⟨hs h.1, h.2⟩

/-- What interactions are preceded by within a call, they are preceded by in an interleaving. -/
theorem shuffled {ts : List (List Ev)} {t : List Ev} (hs : Shuffle ts t) : ∀ (g : List Ev), (∀ u ∈ ts, ∃ g0, g0 ⊆ g ∧ ∀ h1 e h2, u = h1 ++ e :: h2 → Rule (g0 ++ h1) e.1) →
    ∀ h1 e h2, t = h1 ++ e :: h2 → Rule (g ++ h1) e.1 := by
  induction hs with
  | nil _ => intro g _ h1 e h2 h; simp at h
  | @cons as bs a u t _ ih =>
    intro g h h1 e h2 ht
    cases h1 with
    | nil =>
      simp only [List.nil_append, List.cons.injEq] at ht
      obtain ⟨rfl, rfl⟩ := ht
      obtain ⟨g0, hg, hr⟩ := h (a :: u) (by simp)
      exact (hr [] a u rfl).mono (by simpa using hg)
    | cons x h1 =>
      simp only [List.cons_append, List.cons.injEq] at ht
      obtain ⟨rfl, rfl⟩ := ht
      have := ih (g ++ [a]) (fun v hv => ?_) h1 e h2 rfl
      · simpa using this
      · rcases List.mem_append.1 hv with hv | hv
        · obtain ⟨g0, hg, hr⟩ := h v (by simp [hv])
          exact ⟨g0, fun y hy => List.mem_append_left _ (hg hy), hr⟩
        · rcases List.mem_cons.1 hv with rfl | hv
          · obtain ⟨g0, hg, hr⟩ := h (a :: v) (by simp)
            refine ⟨g0 ++ [a], fun y hy => ?_, fun h1 e h2 hh => ?_⟩
            · rcases List.mem_append.1 hy with hy | hy
              · exact List.mem_append_left _ (hg hy)
              · exact List.mem_append_right _ hy
            · have := hr (a :: h1) e h2 (by rw [hh]; rfl)
              simpa using this
          · obtain ⟨g0, hg, hr⟩ := h v (by simp [hv])
            exact ⟨g0, fun y hy => List.mem_append_left _ (hg hy), hr⟩

theorem ordinary_info {jid : Jid} {o : Op} (h : Foot.Info jid o) : Op.ordinary o = true := by cases h <;> rfl

theorem ordinary_refresh {M : Mgr} {ns : Ns} {jid : Jid} {o : Op} (h : Foot.Refresh M ns jid o) : Op.ordinary o = true := by
  cases h with
  | download => rfl
  | update h => cases h <;> rfl

theorem kn_ordinary {K : List Ev → Prop} [Lasting K] {α : Type} {p : P α} (h : AllOps (fun o => Op.ordinary o = true) p) : Kn Rule K p (fun _ _ => True) :=
  Kn.ops (h.mono fun _ ho _ _ => rule_of ho)

theorem kn_consume {M : Mgr} {ns : Ns} {s : Session} : Kn Rule (fun _ => True) (consumePreKey M ns s) (fun _ _ => True) := by
  unfold consumePreKey
  refine Kn.bind (Kn.call fun _ _ => rfl) fun sync => Kn.seq (R := fun _ _ => True) ?_ fun b => kn_ordinary ?_
  · unfold discardPreKey
    cases sync
    · exact kn_ordinary (AllOps.perform rfl)
    · exact (Kn.call fun h hk => hk.2).post fun _ _ _ => trivial
  · unfold refillPreKeys
    lib_ops []

theorem kn_decrypt {M : Mgr} {msg : Message} : Kn Rule (fun _ => True) (Call.run M (.decrypt msg)) (fun _ _ => True) := by
  have h1 : AllOps (fun o => Op.ordinary o = true) (findSender M msg) := by
    unfold findSender
    lib_ops []
    all_goals first
      | exact (ops_getDeviceInformation M _).mono fun _ h => ordinary_info h
      | exact (ops_refreshDeviceList M _ _).mono fun _ h => ordinary_refresh h
  have h2 : ∀ dev ekm kex, AllOps (fun o => Op.ordinary o = true) (decryptContent M msg dev ekm kex) := by
    intro dev ekm kex
    unfold decryptContent keyMaterial plaintextOf decryptKeyMaterial handleKeyExchange
    lib_ops []
  have h3 : ∀ kex s, AllOps (fun o => Op.ordinary o = true) (autoReply M msg.ns kex s) := by
    intro kex s
    unfold autoReply queueEmpty
    lib_ops []
    all_goals exact (ops_sendEmptyMessage M _ _).mono fun _ h => by cases h <;> rfl
  have skip : ∀ {e : Exn} {α : Type}, Kn Rule (fun _ => True) (throwE e : P α) (fun _ _ => True) := Kn.raise
  simp only [Call.run]
  refine Kn.seq (R := fun _ _ => True) ?_ fun _ => Kn.pure fun _ _ => trivial
  unfold decrypt
  refine Kn.seq (kn_ordinary (AllOps.perform rfl)) fun bs => ?_
  split
  · exact skip
  · split
    · exact skip
    · refine Kn.seq (kn_ordinary h1) fun dev => Kn.seq (kn_ordinary (h2 _ _ _)) fun x => ?_
      refine Kn.seq (R := fun _ _ => True) ?_ fun _ => Kn.pure fun _ _ => trivial
      unfold postDecrypt
      exact Kn.seq (kn_ordinary (AllOps.perform rfl)) fun _ => Kn.seq (Kn.when' fun _ => kn_consume) fun _ => kn_ordinary (h3 _ _)

theorem ordinary_others {k : Running} (h : Ordinary k) (hc : ∀ msg, k.c ≠ .decrypt msg) (hp : ∀ ns, k.c ≠ .purgeBackend ns) : AllOps (fun o => Op.ordinary o = true) (k.c.run k.M) := by
  obtain ⟨M, c, tr, r, he⟩ := k
  obtain ⟨hd, hcr, hb⟩ := h
  simp only at hd hcr hb hc hp ⊢
  clear he
  have drop : ∀ {α : Type} {p : P α} {φ : Op → Prop}, AllOps φ p → AllOps φ (do let _ ← p; pure ()) := fun h => AllOps.bind h fun _ => AllOps.ret _
  cases c <;> simp only [Call.run]
  case decrypt msg => exact absurd rfl (hc msg)
  case encrypt jids pt prio i =>
    refine drop ?_
    unfold encrypt
    have h1 : ∀ order, AllOps (fun o => Op.ordinary o = true) (recipientDevices M order (setUnion jids [M.ownJid])) := by
      intro order
      unfold recipientDevices getDeviceInformation' deviceInformation identityKeyOf repairNamespaces
      lib_ops []
      exact (ops_fetchIdentityKey ..).mono fun _ h => ordinary_info h
    have h2 : ∀ ds, AllOps (fun o => Op.ordinary o = true) (decideTrust M ds i) := by
      intro ds
      unfold decideTrust askTrust devicesWithTrust reloadTrust
      lib_ops []
      exact hd _ _
    have h3 : ∀ cache ds, AllOps (fun o => Op.ordinary o = true) (encryptTrusted M (setUnion jids [M.ownJid]) cache pt ds) := by
      intro cache ds
      unfold encryptTrusted devicesWithTrust encryptBackend encryptDevice encryptForDevice bundleFor
      lib_ops []
    refine AllOps.bind (AllOps.perform rfl) fun _ => AllOps.bind (allOps_liftE _) fun order => AllOps.bind (h1 order) fun x => AllOps.bind (h2 _) fun ds => h3 _ _
  case replaceSessions j d => exact drop ((ops_replaceSessions M j d).mono fun _ h => by cases h with | info h => exact ordinary_info h | _ => rfl)
  case afterHistorySync => exact (ops_afterHistorySync M).mono fun _ h => by cases h with | sendEmpty _ h => cases h <;> rfl | _ => rfl
  case getIdentityKeyPair => exact drop (ops_ikp.mono fun _ h => by cases h <;> rfl)
  case create bs label fuel => exact absurd rfl (hcr bs label fuel)
  case purgeBackend ns => exact absurd rfl (hp ns)
  case purgeBareJid jid => exact (ops_purgeBareJid M jid).mono fun _ h => by cases h <;> rfl
  case ensureDataConsistency => exact (ops_ensureDataConsistency M).mono fun _ h => by cases h with | refresh _ h => exact ordinary_refresh h | _ => rfl
  case rotation p f r => exact (ops_manageRotation M p f r).mono fun _ h => by cases h <;> rfl
  case updateDeviceList ns jid dl => exact (ops_updateDeviceList M ns jid dl).mono fun _ h => by cases h <;> rfl
  case refreshDeviceList ns jid => exact (ops_refreshDeviceList M ns jid).mono fun _ h => ordinary_refresh h
  case refreshDeviceLists jid =>
    unfold refreshDeviceLists
    exact AllOps.bind (AllOps.perform rfl) fun bs => AllOps.forEach fun ns _ => (ops_refreshDeviceList M ns jid).mono fun _ h => ordinary_refresh h
  case setTrust => exact AllOps.perform rfl
  case getSendingChainLength x =>
    unfold getSendingChainLength
    lib_ops []
  case setOwnLabel l => exact (ops_setOwnLabel M l).mono fun _ h => by cases h <;> rfl
  case getDeviceInformation jid => exact drop ((ops_getDeviceInformation M jid).mono fun _ h => ordinary_info h)
  case getOwnDeviceInformation => exact drop ((ops_getOwnDeviceInformation M).mono fun _ h => ordinary_info h)
  case beforeHistorySync => exact absurd rfl hb

theorem kn_purge {M : Mgr} {ns : Ns} : Kn Rule (fun _ => True) (purgeBackend M ns) (fun _ _ => True) := by
  have h1 : AllOps (fun o => Op.ordinary o = true) (getOwnDeviceInformation M) := (ops_getOwnDeviceInformation M).mono fun _ h => ordinary_info h
  have free : ∀ {K : List Ev → Prop} [Lasting K] (o : Op), Op.ordinary o = true → Kn Rule K (call o) (fun _ _ => True) := fun o h => kn_ordinary (AllOps.perform h)
  unfold purgeBackend
  refine Kn.seq (free _ rfl) fun dl => Kn.seq (Kn.when' fun _ => free _ rfl) fun _ => Kn.seq (kn_ordinary h1) fun x => Kn.seq (free _ rfl) fun _ => Kn.seq (free _ rfl) fun _ =>
    Kn.bind (Kn.call fun _ _ => rfl) fun bs => Kn.seq (R := fun _ _ => True) ?_ fun _ => Kn.seq (Kn.when' fun _ => free _ rfl) fun _ => free _ rfl
  exact (Kn.call fun h hk => ⟨bs, hk.2, fun x hx => (mem_setDiff.1 hx).1⟩).post fun _ _ _ => trivial

theorem rules {k : Running} (h : Ordinary k) : Guarded (fun h e => Rule h e.1) k.trace := by
  by_cases hc : ∃ msg, k.c = .decrypt msg
  · obtain ⟨msg, hc⟩ := hc
    have := k.exec
    rw [hc] at this
    exact Kn.exec kn_decrypt this
  · by_cases hp : ∃ ns, k.c = .purgeBackend ns
    · obtain ⟨ns, hp⟩ := hp
      have := k.exec
      rw [hp] at this
      exact Kn.exec kn_purge this
    · exact Kn.exec (kn_ordinary (ordinary_others h (fun msg hm => hc ⟨msg, hm⟩) fun ns hn => hp ⟨ns, hn⟩)) k.exec

theorem rules_all {calls : List Running} {t : List Ev} (h : ∀ k ∈ calls, Ordinary k) (hs : Shuffle (calls.map (·.trace)) t) : Guarded (fun h e => Rule h e.1) t := by
  intro h1 e h2 ht
  refine shuffled hs [] (fun u hu => ?_) h1 e h2 ht
  obtain ⟨k, hk, rfl⟩ := List.mem_map.1 hu
  exact ⟨[], List.Subset.refl _, rules (h k hk)⟩

theorem not_started {t : List Ev} (h : Guarded (fun h e => Rule h e.1) t) : ∀ r, (⟨.setSync true, r⟩ : Ev) ∉ t := by
  intro r hm
  obtain ⟨a, b, hab⟩ := List.append_of_mem hm
  cases (show (!true) = true from h a _ b hab)

/-- The flag and the record of external interactions. -/
theorem runs_sync {w w' : World} {t : List Ev} (h : ∀ r, (⟨.setSync true, r⟩ : Ev) ∉ t) (hr : Lib.Runs w t w') :
    (w.sync = false → w'.sync = false ∧ (⟨.getSync, .ok true⟩ : Ev) ∉ t) ∧ ((⟨.setSync false, .ok ()⟩ : Ev) ∈ t → w'.sync = false) := by
  induction t generalizing w with
  | nil => cases hr; exact ⟨fun h => ⟨h, List.not_mem_nil⟩, fun h => (List.not_mem_nil h).elim⟩
  | cons e t ih =>
    obtain ⟨h2, h3⟩ := ih (fun r hr => h r (List.mem_cons_of_mem _ hr)) hr.2
    obtain ⟨o, r⟩ := e
    have hs : (w.sync = false → (Lib.next w ⟨o, r⟩).sync = false) ∧ ((⟨o, r⟩ : Ev) = ⟨.setSync false, .ok ()⟩ → (Lib.next w ⟨o, r⟩).sync = false) := by
      cases o with
      | setSync b => cases b with
        | false => exact ⟨fun _ => rfl, fun _ => rfl⟩
        | true => exact absurd (List.mem_cons_self ..) (h r)
      | _ => first
          | exact ⟨id, fun h => (nomatch h)⟩
          | (cases r <;> exact ⟨id, fun h => (nomatch h)⟩)
    refine ⟨fun hw => ⟨(h2 (hs.1 hw)).1, fun hm => ?_⟩, fun hm => ?_⟩
    · rcases List.mem_cons.1 hm with hm | hm
      · cases hm
        have : Except.ok true = Except.ok w.sync := hr.1
        rw [hw] at this
        cases this
      · exact (h2 (hs.1 hw)).2 hm
    · rcases List.mem_cons.1 hm with hm | hm
      · exact (h2 (hs.2 hm.symm)).1
      · exact h3 hm

theorem next_backends {w : World} {o : Op} {r : Except Exn o.Ret} (h : ∀ bs, o ≠ .setBackends bs) : (Lib.next w ⟨o, r⟩).backends = w.backends := by
  cases o <;> first | rfl | (cases r <;> rfl) | exact absurd rfl (h _)

theorem runs_same {w w' : World} {t : List Ev} (h : ∀ bs r, (⟨.setBackends bs, r⟩ : Ev) ∉ t) (hr : Lib.Runs w t w') : w'.backends = w.backends := by
  induction t generalizing w with
  | nil => cases hr; rfl
  | cons e t ih =>
    obtain ⟨o, r⟩ := e
    exact (ih (fun bs r hm => h bs r (List.mem_cons_of_mem _ hm)) hr.2).trans (next_backends (by rintro bs rfl; exact h bs r (List.mem_cons_self ..)))

/-- No backends are added. -/
theorem runs_less {B : List Ns} {w w' : World} {t : List Ev} : ∀ g : List Ev, (∀ h1 e h2, t = h1 ++ e :: h2 → Rule (g ++ h1) e.1) → (∀ bs, (⟨.getBackends, .ok bs⟩ : Ev) ∈ g → bs ⊆ B) →
    w.backends ⊆ B → Lib.Runs w t w' → w'.backends ⊆ B := by
  induction t generalizing w with
  | nil => intro g _ _ hw hr; cases hr; exact hw
  | cons e t ih =>
    intro g h hg hw hr
    refine ih (g ++ [e]) (fun h1 e' h2 hh => ?_) (fun bs hm => ?_) ?_ hr.2
    · have := h (e :: h1) e' h2 (by rw [hh]; rfl)
      simpa using this
    · rcases List.mem_append.1 hm with hm | hm
      · exact hg bs hm
      · obtain rfl := List.mem_singleton.1 hm
        have : Except.ok bs = Except.ok w.backends := hr.1
        cases this
        exact hw
    · obtain ⟨o, r⟩ := e
      by_cases ho : ∃ bs, o = .setBackends bs
      · obtain ⟨bs, rfl⟩ := ho
        have h1 : Rule (g ++ []) (.setBackends bs) := h [] _ t rfl
        obtain ⟨bs0, h2, h3⟩ := h1
        rw [List.append_nil] at h2
        exact fun x hx => hg bs0 h2 (h3 hx)
      · rw [next_backends fun bs hb => ho ⟨bs, hb⟩]
        exact hw

/-- Who hides a pre key was told that history is synchronized. -/
theorem told {calls : List Running} {t : List Ev} (h : ∀ k ∈ calls, Ordinary k) (hs : Shuffle (calls.map (·.trace)) t) {ns s r} (hm : (⟨.hidePreKey ns s, r⟩ : Ev) ∈ t) :
    ∃ k ∈ calls, (∃ msg, k.c = .decrypt msg) ∧ (⟨.getSync, .ok true⟩ : Ev) ∈ k.trace := by
  obtain ⟨u, hu, heu⟩ := (hs.mem_iff _).1 hm
  obtain ⟨k, hk, rfl⟩ := List.mem_map.1 hu
  refine ⟨k, hk, ?_, ?_⟩
  · by_cases hc : ∃ msg, k.c = .decrypt msg
    · exact hc
    · have hx := k.exec
      by_cases hp : ∃ ns, k.c = .purgeBackend ns
      · obtain ⟨ns', hp⟩ := hp
        rw [hp] at hx
        have := AllOps.exec (ops_purgeBackend k.M ns') hx _ heu
        cases this with
        | info h => cases h
      · have := AllOps.exec (ordinary_others (h k hk) (fun msg hm => hc ⟨msg, hm⟩) fun ns hn => hp ⟨ns, hn⟩) hx _ heu
        cases this
  · obtain ⟨a, b, hab⟩ := List.append_of_mem heu
    have hr : (⟨.getSync, .ok true⟩ : Ev) ∈ a := rules (h k hk) a _ b hab
    rw [hab]
    exact List.mem_append_left _ hr

theorem NoneHidden.append {ns : Ns} {h u : List Ev} (hh : NoneHidden ns h) (hu : ∀ s r, (⟨.hidePreKey ns s, r⟩ : Ev) ∉ u) : NoneHidden ns (h ++ u) := by
  rintro h1 e h2 he ⟨s, rfl⟩
  rcases List.append_eq_append_iff.1 he with ⟨v, rfl, hv⟩ | ⟨v, rfl, hv⟩
  · exact absurd (by rw [hv]; simp) (hu s (.ok true))
  · cases v with
    | nil => exact absurd (by rw [← List.nil_append u, ← hv]; simp) (hu s (.ok true))
    | cons x v =>
      simp only [List.cons_append, List.cons.injEq] at hv
      obtain ⟨rfl, rfl⟩ := hv
      obtain ⟨c, hc, hd⟩ := hh _ _ _ rfl ⟨s, rfl⟩
      exact ⟨c, List.mem_append_left _ hc, hd⟩

theorem dropped {ns : Ns} {h u : List Ev} (hd : ∃ c ∈ u, DropsHidden ns c) (hu : ∀ s r, (⟨.hidePreKey ns s, r⟩ : Ev) ∉ u) : NoneHidden ns (h ++ u) := by
  rintro h1 e h2 he ⟨s, rfl⟩
  rcases List.append_eq_append_iff.1 he with ⟨v, rfl, hv⟩ | ⟨v, rfl, hv⟩
  · exact absurd (by rw [hv]; simp) (hu s (.ok true))
  · cases v with
    | nil => exact absurd (by rw [← List.nil_append u, ← hv]; simp) (hu s (.ok true))
    | cons x v =>
      simp only [List.cons_append, List.cons.injEq] at hv
      obtain ⟨rfl, rfl⟩ := hv
      obtain ⟨c, hc, hd⟩ := hd
      exact ⟨c, List.mem_append_right _ hc, hd⟩

/-- `after_history_sync` ends the synchronization and deletes the hidden pre keys of the backends it finds. -/
theorem after_ok {M : Mgr} {t : List Ev} (h : Exec (afterHistorySync M) t (.ok ())) : (⟨.setSync false, .ok ()⟩ : Ev) ∈ t ∧
    ∃ bs, (⟨.getBackends, .ok bs⟩ : Ev) ∈ t ∧ ∀ ns ∈ bs, (⟨.deleteHidden ns, .ok ()⟩ : Ev) ∈ t := by
  unfold afterHistorySync at h
  replace h := exec_call_bind_ok.1 h; obtain ⟨_, t1, rfl, h⟩ := h
  replace h := exec_call_bind_ok.1 h; obtain ⟨bs, t2, rfl, h⟩ := h
  replace h := exec_seq_ok.1 h; obtain ⟨t3, _, t4, rfl, h1, h⟩ := h
  refine ⟨by simp, bs, by simp, fun ns hn => ?_⟩
  have key : ∀ (l : List Ns) (t : List Ev), Exec (Prog.forEach l fun ns => call (.deleteHidden ns)) t (.ok ()) → ∀ ns ∈ l, (⟨.deleteHidden ns, .ok ()⟩ : Ev) ∈ t := by
    intro l
    induction l with
    | nil => intro t _ ns hn; cases hn
    | cons x l ih =>
      intro t h ns hn
      obtain ⟨t1, t2, rfl, h1, h2⟩ := exec_forEach_cons_ok.1 h
      rcases List.mem_cons.1 hn with rfl | hn
      · replace h1 := exec_call_ok.1 h1; subst h1; simp
      · exact List.mem_append_right _ (ih t2 h2 ns hn)
  have := key bs t3 h1 ns hn
  simp [this]

/-- Once the synchronization ended, in calls that were not told that it goes on. -/
theorem ended {calls : List Running} {t : List Ev} {w w' : World} (h : ∀ k ∈ calls, Ordinary k) (hn : ∀ k ∈ calls, (∃ msg, k.c = .decrypt msg) → (⟨.getSync, .ok true⟩ : Ev) ∉ k.trace)
    (hp : ∀ k ∈ calls, ∀ ns, k.c ≠ .purgeBackend ns) (he : SyncEnds calls) (hs : Shuffle (calls.map (·.trace)) t) (hr : Lib.Runs w t w') :
    w'.sync = false ∧ ∀ ns ∈ w'.backends, NoneHidden ns w'.log := by
  obtain ⟨k, hk, hc, hres⟩ := he
  have hx := k.exec
  rw [hc, hres] at hx
  obtain ⟨h1, bs, h2, h3⟩ := after_ok (M := k.M) hx
  have up : ∀ {e : Ev}, e ∈ k.trace → e ∈ t := fun he => (hs.mem_iff _).2 ⟨k.trace, List.mem_map.2 ⟨k, hk, rfl⟩, he⟩
  have hb : ∀ bs r, (⟨.setBackends bs, r⟩ : Ev) ∉ t := by
    intro bs r hm
    obtain ⟨u, hu, heu⟩ := (hs.mem_iff _).1 hm
    obtain ⟨k, hk, rfl⟩ := List.mem_map.1 hu
    by_cases hd : ∃ msg, k.c = .decrypt msg
    · obtain ⟨msg, hd⟩ := hd
      have hx := k.exec
      rw [hd] at hx
      have := AllOps.exec (AllOps.bind (ops_decrypt k.M msg) fun _ => AllOps.ret _) hx _ heu
      cases this with
      | info h => cases h
      | refresh h => cases h with | update h => cases h
      | sendEmpty h => cases h
    · have := AllOps.exec (ordinary_others (h k hk) (fun msg hm => hd ⟨msg, hm⟩) (hp k hk)) k.exec _ heu
      cases this
  refine ⟨(runs_sync (not_started (rules_all h hs)) hr).2 (up h1), fun ns hns => ?_⟩
  have hb1 : bs = w'.backends := by
    obtain ⟨a, b, rfl⟩ := List.append_of_mem (up h2)
    obtain ⟨w1, r1, r2⟩ := Sem.runs_append.1 hr
    have : Except.ok bs = Except.ok w1.backends := r2.1
    cases this
    exact (runs_same (fun bs r hm => hb bs r (List.mem_append_right _ hm)) r2).symm
  rw [Lib.log_external hr]
  refine dropped ⟨⟨.deleteHidden ns, .ok ()⟩, List.mem_filter.2 ⟨up (h3 ns (hb1 ▸ hns)), rfl⟩, .inl rfl⟩ fun s r hm => ?_
  obtain ⟨k', hk', hd, ht'⟩ := told h hs (List.mem_filter.1 hm).1
  exact hn k' hk' hd ht'

end HiddenKeys

/-- C107, if no `decrypt` that overlaps with `after_history_sync` was told that the synchronization goes on: no hidden pre keys are left, and none are hidden until the synchronization is
started again, whatever is called, overlapping and ending in any way. -/
theorem C107_partial (calls calls' : List Running) (t t' : List Ev) (w w1 w2 : World) (h : ∀ k ∈ calls, Ordinary k)
    (hn : ∀ k ∈ calls, (∃ msg, k.c = .decrypt msg) → (⟨.getSync, .ok true⟩ : Ev) ∉ k.trace) (hp : ∀ k ∈ calls, ∀ ns, k.c ≠ .purgeBackend ns) (he : SyncEnds calls)
    (hs : Shuffle (calls.map (·.trace)) t) (hr : Lib.Runs w t w1) (h' : ∀ k ∈ calls', Ordinary k) (hs' : Shuffle (calls'.map (·.trace)) t') (hr' : Lib.Runs w1 t' w2) :
    w2.sync = false ∧ ∀ ns ∈ w2.backends, NoneHidden ns w2.log := by
  obtain ⟨e1, e2⟩ := HiddenKeys.ended h hn hp he hs hr
  have hg := HiddenKeys.rules_all h' hs'
  obtain ⟨f2, -⟩ := HiddenKeys.runs_sync (HiddenKeys.not_started hg) hr'
  refine ⟨(f2 e1).1, fun ns hns => ?_⟩
  have f1 := HiddenKeys.runs_less (B := w1.backends) [] (fun h1 e h2 hh => hg h1 e h2 hh) (fun _ hm => absurd hm List.not_mem_nil) (List.Subset.refl _) hr'
  rw [Lib.log_external hr']
  refine HiddenKeys.NoneHidden.append (e2 ns (f1 hns)) fun s r hm => ?_
  obtain ⟨k, hk, -, ht⟩ := HiddenKeys.told h' hs' (List.mem_filter.1 hm).1
  exact (f2 e1).2 ((hs'.mem_iff _).2 ⟨k.trace, List.mem_map.2 ⟨k, hk, rfl⟩, ht⟩)

namespace HiddenKeys

def hidesB (ns : Ns) (e : Ev) : Bool := match e with
  | ⟨.hidePreKey n _, .ok true⟩ => decide (n = ns)
  | _ => false

def dropsB (e : Ev) : Bool := match e with
  | ⟨.deleteHidden _, .ok _⟩ | ⟨.purge _, .ok _⟩ => true
  | _ => false

/-- A pre key was hidden, and nothing was deleted since. -/
def keptB (ns : Ns) : List Ev → Bool
  | [] => false
  | e :: t => hidesB ns e && !t.any dropsB || keptB ns t

theorem kept_of {ns : Ns} {h : List Ev} (hk : keptB ns h = true) : ¬ NoneHidden ns h := by
  induction h with
  | nil => cases hk
  | cons e t ih =>
    intro hn
    simp only [keptB, Bool.or_eq_true, Bool.and_eq_true, Bool.not_eq_true'] at hk
    rcases hk with ⟨h1, h2⟩ | hk
    · have he : HidesKey ns e := by
        unfold hidesB at h1
        split at h1
        · obtain rfl := of_decide_eq_true h1; exact ⟨_, rfl⟩
        · cases h1
      obtain ⟨c, hc, hd⟩ := hn [] e t rfl he
      refine List.any_eq_false.1 h2 c hc ?_
      rcases hd with rfl | rfl <;> rfl
    · exact ih hk fun h1 e' h2 hh he' => hn (e :: h1) e' h2 (by rw [hh]; rfl) he'

/-- While old messages are fetched. -/
def syncing : World := { World.side with sync := true }

/-- A first message is received; before its pre key is hidden, the synchronization ends. -/
def turns : List Nat := List.replicate 13 0 ++ List.replicate 40 1 ++ List.replicate 40 0
def work : List (P Unit) := [(Call.decrypt OneTime.first).run Mgr.ex, Call.afterHistorySync.run Mgr.ex]
def crossed := sched (Lib.env OneTime.counting) Lib.next turns work syncing

theorem ordinary_ex {k : Running} (hm : k.M = Mgr.ex) (h1 : ∀ bs l f, k.c ≠ .create bs l f) (h2 : k.c ≠ .beforeHistorySync) : Ordinary k :=
  ⟨fun _ _ => by rw [hm]; exact AllOps.ret _, h1, h2⟩

theorem counting_ok (w : World) (o : Op) (e : Exn) (h : OneTime.counting w o = .error e) : e.isInternal = false := by
  cases o <;> simp only [OneTime.counting, exchanging] at h <;> first
    | exact friendly_ok w _ e h
    | (cases h; done)
    | (split at h <;> cases h; rfl)

theorem two_calls {w : World} {c1 c2 : Call} {x : List (List Ev) × List (P Unit) × List Ev × World}
    (hx : SchedOk Lib [c1.run Mgr.ex, c2.run Mgr.ex] w x) (h1 : x.2.1[0]?.any (Prog.isOk fun _ => true) = true) (h2 : x.2.1[1]?.any (Prog.isOk fun _ => true) = true) :
    ∃ k1 k2 : Running, (k1.M = Mgr.ex ∧ k1.c = c1 ∧ k1.res = .ok () ∧ x.1[0]? = some k1.trace) ∧ (k2.M = Mgr.ex ∧ k2.c = c2 ∧ k2.res = .ok () ∧ x.1[1]? = some k2.trace) ∧
      Shuffle ([k1, k2].map (·.trace)) x.2.2.1 ∧ Lib.Runs w x.2.2.1 x.2.2.2 := by
  obtain ⟨ts, y, t, w'⟩ := x
  obtain ⟨t1, t2, rfl⟩ := list2 (l := ts) hx.len
  obtain ⟨_, e1, -⟩ := hx.isOk 0 rfl rfl _ h1
  obtain ⟨_, e2, -⟩ := hx.isOk 1 rfl rfl _ h2
  exact ⟨⟨Mgr.ex, c1, t1, _, e1⟩, ⟨Mgr.ex, c2, t2, _, e2⟩, ⟨rfl, rfl, rfl, rfl⟩, ⟨rfl, rfl, rfl, rfl⟩, hx.shuffle, hx.runs⟩

end HiddenKeys

/-- The claim in full does not hold: `decrypt` asks whether history is synchronized, the synchronization ends, then `decrypt` hides the pre key. -/
theorem C107_refuted : ¬ C107_Claim := by
  intro h
  have hx := sched_ok Lib (Lib.env OneTime.counting) (Lib.env_ok OneTime.counting HiddenKeys.counting_ok) HiddenKeys.turns HiddenKeys.work HiddenKeys.syncing
  obtain ⟨k1, k2, ⟨m1, c1, r1, -⟩, ⟨m2, c2, r2, -⟩, hs, hr⟩ := HiddenKeys.two_calls hx (by decide +kernel) (by decide +kernel)
  refine HiddenKeys.kept_of (ns := "n") (h := HiddenKeys.crossed.2.2.2.log) (by decide +kernel) (h [k1, k2] _ _ _ ?_ ⟨k2, by simp, c2, r2⟩ ?_ hs hr "n" ?_)
  · intro k hk
    simp only [List.mem_cons, List.not_mem_nil, or_false] at hk
    rcases hk with rfl | rfl
    · exact ⟨HiddenKeys.ordinary_ex m1 (by rw [c1]; nofun) (by rw [c1]; nofun), by rw [r1]; nofun⟩
    · exact ⟨HiddenKeys.ordinary_ex m2 (by rw [c2]; nofun) (by rw [c2]; nofun), by rw [r2]; nofun⟩
  · intro k hk ns
    simp only [List.mem_cons, List.not_mem_nil, or_false] at hk
    rcases hk with rfl | rfl
    · rw [c1]; nofun
    · rw [c2]; nofun
  · exact (by decide +kernel : "n" ∈ HiddenKeys.crossed.2.2.2.backends)

namespace HiddenKeys

/-- After the synchronization, another key exchange with the pre key. -/
def later := runProg (Lib.env OneTime.counting) Lib.next 200 ((Call.decrypt OneTime.again).run Mgr.ex) crossed.2.2.2

end HiddenKeys

/-- The consequence: long after `after_history_sync` has returned, the pre key, though used, builds another session. Backends do what they should, and all calls return. -/
theorem C107_reused : ∃ (k1 k2 k3 : Running) (t : List Ev) (w w1 w2 : World), k2.c = .afterHistorySync ∧ k1.res = .ok () ∧ k2.res = .ok () ∧ k3.res = .ok () ∧
    Shuffle [k1.trace, k2.trace] t ∧ Lib.Runs w t w1 ∧ w1.sync = false ∧ Lib.Runs w1 k3.trace w2 ∧ Guarded (PreKeyed OneTime.key OneTime.keys) (t ++ k3.trace) ∧
    (∃ s, (⟨.storeSession "n" s, .ok ()⟩ : Ev) ∈ t ∧ s.initiation = .passive ∧ OneTime.key s.keyExchange = 0) ∧
    ∃ j d x km s m, (⟨.buildPassive "n" j d x km, .ok (s, m)⟩ : Ev) ∈ k3.trace ∧ OneTime.key x = 0 := by
  have hx := sched_ok Lib (Lib.env OneTime.counting) (Lib.env_ok OneTime.counting HiddenKeys.counting_ok) HiddenKeys.turns HiddenKeys.work HiddenKeys.syncing
  obtain ⟨k1, k2, ⟨m1, c1, r1, -⟩, ⟨m2, c2, r2, -⟩, hs, hr⟩ := HiddenKeys.two_calls hx (by decide +kernel) (by decide +kernel)
  have he := runProg_exec (Lib.env OneTime.counting) Lib.next 200 ((Call.decrypt OneTime.again).run Mgr.ex) HiddenKeys.crossed.2.2.2
  have hl := runProg_runs Lib (Lib.env OneTime.counting) (Lib.env_ok OneTime.counting HiddenKeys.counting_ok) 200 ((Call.decrypt OneTime.again).run Mgr.ex) HiddenKeys.crossed.2.2.2
  obtain ⟨e1, hm1, h1⟩ := List.any_eq_true.1 (show HiddenKeys.crossed.2.2.1.any (OneTime.storesB 0) = true by decide +kernel)
  obtain ⟨e2, hm2, h2⟩ := List.any_eq_true.1 (show HiddenKeys.later.1.any (OneTime.buildsB 0) = true by decide +kernel)
  obtain ⟨s, rfl, hp, hk⟩ := OneTime.of_stores h1
  obtain ⟨j, d, z, km, s', m, rfl, hz⟩ := OneTime.of_builds h2
  refine ⟨k1, k2, ⟨Mgr.ex, _, _, _, he⟩, _, _, _, _, c2, r1, r2, ?_, hs, hr, ?_, hl, OneTime.all_of ?_, ⟨s, hm1, hp, hk⟩, j, d, z, km, s', m, hm2, hz⟩
  · have : Run.works HiddenKeys.later.2.1 = true := by decide +kernel
    show HiddenKeys.later.2.1 = _
    revert this
    cases HiddenKeys.later.2.1 with
    | ok u => exact fun _ => rfl
    | raised e => nofun
    | crashed => nofun
  · exact (by decide +kernel : HiddenKeys.crossed.2.2.2.sync = false)
  · exact (by decide +kernel : OneTime.allB [] (HiddenKeys.crossed.2.2.1 ++ HiddenKeys.later.1) = true)

namespace HiddenKeys

/-- The backend cannot delete hidden pre keys. -/
def broken : World → (o : Op) → Except Exn o.Ret
  | _, .deleteHidden _ => .error .storageException
  | w, o => OneTime.counting w o

theorem broken_ok (w : World) (o : Op) (e : Exn) (h : broken w o = .error e) : e.isInternal = false := by
  cases o <;> simp only [broken] at h <;> first
    | exact counting_ok w _ e h
    | (cases h; rfl)

def stuck := runProg (Lib.env broken) Lib.next 200 (Call.afterHistorySync.run Mgr.ex) OneTime.synced2.2

end HiddenKeys

/-- The other way to keep hidden pre keys: if deleting them fails, so does `after_history_sync`, but the synchronization is over, and what was hidden stays. -/
theorem C107_failed : ∃ (k : Running) (w w' : World), k.c = .afterHistorySync ∧ k.res = .raised .storageException ∧ Lib.Runs w k.trace w' ∧ w'.sync = false ∧
    "n" ∈ w'.backends ∧ ¬ NoneHidden "n" w'.log := by
  refine ⟨⟨Mgr.ex, .afterHistorySync, _, _, runProg_exec (Lib.env HiddenKeys.broken) Lib.next 200 _ OneTime.synced2.2⟩, _, _, rfl, ?_,
    runProg_runs Lib (Lib.env HiddenKeys.broken) (Lib.env_ok HiddenKeys.broken HiddenKeys.broken_ok) 200 _ _, ?_, ?_, ?_⟩
  · have : (match HiddenKeys.stuck.2.1 with | .raised .storageException => true | _ => false) = true := by decide +kernel
    show HiddenKeys.stuck.2.1 = _
    revert this
    generalize HiddenKeys.stuck.2.1 = r
    intro h
    split at h
    · rfl
    · cases h
  · exact (by decide +kernel : HiddenKeys.stuck.2.2.sync = false)
  · exact (by decide +kernel : "n" ∈ HiddenKeys.stuck.2.2.backends)
  · exact HiddenKeys.kept_of (by decide +kernel : HiddenKeys.keptB "n" HiddenKeys.stuck.2.2.log = true)

namespace HiddenKeys

def fourth : Message := ⟨"n", "a", 7, ⟨false, 1⟩, [(⟨"me", 1, 7⟩, some ⟨[7], 21⟩)]⟩

/-- With a hidden pre key: the synchronization ends, a message is received meanwhile; then another two. -/
def work1 : List (P Unit) := [Call.afterHistorySync.run Mgr.ex, (Call.decrypt OneTime.third).run Mgr.ex]
def work2 : List (P Unit) := [(Call.decrypt fourth).run Mgr.ex, (Call.decrypt OneTime.again).run Mgr.ex]
def turns1 : List Nat := 0 :: (List.replicate 10 1 ++ List.replicate 2 0 ++ List.replicate 40 1 ++ List.replicate 40 0)
def turns2 : List Nat := List.replicate 10 1 ++ List.replicate 40 0 ++ List.replicate 40 1
def part1 := sched (Lib.env OneTime.counting) Lib.next turns1 work1 OneTime.synced2.2
def part2 := sched (Lib.env OneTime.counting) Lib.next turns2 work2 part1.2.2.2

end HiddenKeys

/-- The hypotheses of `C107_partial`, with overlapping calls and a hidden pre key to start with. -/
theorem C107_example : ∃ (calls calls' : List Running) (t t' : List Ev) (w w1 w2 : World), calls.length = 2 ∧ calls'.length = 2 ∧ ((∀ k ∈ calls, Ordinary k) ∧
    (∀ k ∈ calls, (∃ msg, k.c = .decrypt msg) → (⟨.getSync, .ok true⟩ : Ev) ∉ k.trace) ∧ (∀ k ∈ calls, ∀ ns, k.c ≠ .purgeBackend ns) ∧ SyncEnds calls ∧
    Shuffle (calls.map (·.trace)) t ∧ Lib.Runs w t w1 ∧ (∀ k ∈ calls', Ordinary k) ∧ Shuffle (calls'.map (·.trace)) t' ∧ Lib.Runs w1 t' w2) ∧
    ¬ NoneHidden "n" w.log ∧ "n" ∈ w2.backends ∧ NoneHidden "n" w2.log ∧ ∃ s, (⟨.deletePreKey "n" s, .ok true⟩ : Ev) ∈ t' := by
  have hx := sched_ok Lib (Lib.env OneTime.counting) (Lib.env_ok OneTime.counting HiddenKeys.counting_ok) HiddenKeys.turns1 HiddenKeys.work1 OneTime.synced2.2
  have hy := sched_ok Lib (Lib.env OneTime.counting) (Lib.env_ok OneTime.counting HiddenKeys.counting_ok) HiddenKeys.turns2 HiddenKeys.work2 HiddenKeys.part1.2.2.2
  obtain ⟨k1, k2, ⟨m1, c1, r1, -⟩, ⟨m2, c2, r2, q2⟩, hs, hr⟩ := HiddenKeys.two_calls hx (by decide +kernel) (by decide +kernel)
  obtain ⟨k3, k4, ⟨m3, c3, r3, -⟩, ⟨m4, c4, r4, -⟩, hs', hr'⟩ := HiddenKeys.two_calls hy (by decide +kernel) (by decide +kernel)
  have o1 : ∀ k ∈ [k1, k2], Ordinary k := by
    intro k hk
    simp only [List.mem_cons, List.not_mem_nil, or_false] at hk
    rcases hk with rfl | rfl
    · exact HiddenKeys.ordinary_ex m1 (by rw [c1]; nofun) (by rw [c1]; nofun)
    · exact HiddenKeys.ordinary_ex m2 (by rw [c2]; nofun) (by rw [c2]; nofun)
  have o2 : ∀ k ∈ [k3, k4], Ordinary k := by
    intro k hk
    simp only [List.mem_cons, List.not_mem_nil, or_false] at hk
    rcases hk with rfl | rfl
    · exact HiddenKeys.ordinary_ex m3 (by rw [c3]; nofun) (by rw [c3]; nofun)
    · exact HiddenKeys.ordinary_ex m4 (by rw [c4]; nofun) (by rw [c4]; nofun)
  have o3 : ∀ k ∈ [k1, k2], (∃ msg, k.c = .decrypt msg) → (⟨.getSync, .ok true⟩ : Ev) ∉ k.trace := by
    intro k hk hd
    simp only [List.mem_cons, List.not_mem_nil, or_false] at hk
    rcases hk with rfl | rfl
    · obtain ⟨msg, hd⟩ := hd
      rw [c1] at hd; cases hd
    · intro hm
      have : (HiddenKeys.part1.1[1]?).all (fun t => !t.any OneTime.readsTrueB) = true := by decide +kernel
      change (HiddenKeys.part1.1[1]?) = _ at q2
      rw [q2] at this
      have h2 : k.trace.any OneTime.readsTrueB = false := by simpa using this
      exact List.any_eq_false.1 h2 _ hm rfl
  have o4 : ∀ k ∈ [k1, k2], ∀ ns, k.c ≠ .purgeBackend ns := by
    intro k hk ns
    simp only [List.mem_cons, List.not_mem_nil, or_false] at hk
    rcases hk with rfl | rfl
    · rw [c1]; nofun
    · rw [c2]; nofun
  have o5 : SyncEnds [k1, k2] := ⟨k1, by simp, c1, r1⟩
  have ob : "n" ∈ HiddenKeys.part2.2.2.2.backends := by decide +kernel
  refine ⟨[k1, k2], [k3, k4], _, _, _, _, _, rfl, rfl, ⟨o1, o3, o4, o5, hs, hr, o2, hs', hr'⟩, HiddenKeys.kept_of (by decide +kernel), ob,
    (C107_partial _ _ _ _ _ _ _ o1 o3 o4 o5 hs hr o2 hs' hr').2 "n" ob, ?_⟩
  obtain ⟨e, hm, he⟩ := List.any_eq_true.1 (show HiddenKeys.part2.2.2.1.any (fun e => match e with | ⟨.deletePreKey "n" _, .ok true⟩ => true | _ => false) = true by decide +kernel)
  split at he
  · exact ⟨_, hm⟩
  · cases he

end Verif
