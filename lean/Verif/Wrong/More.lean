import Verif.Props.Outward
import Verif.Props.Robust
import Verif.Props.Bundles
import Verif.Props.Refresh
import Verif.Props.Sync
import Verif.Wrong.Account
/-
Wrong programs for the claims about queued messages, downloads, and what reaches the server.
-/
namespace Verif
namespace Wrong
open SM Spec

/-! ### C48: the queued messages -/

/-- C48 for a program. -/
def C48 (leave : Mgr → P Unit) : Prop :=
  ∀ (M : Mgr) (w w' : World) (t : List Ev), Exec (leave M) t (.ok ()) → Lib.Runs w t w' →
    ∃ (xs : List (Ns × Jid × DevId)) (l : List Ev), xs.Nodup ∧ (∀ x, x ∈ xs ↔ x.1 ∈ w.backends ∧ Queued w.disk x) ∧ Replies M xs l ∧
      (t.filter fun e => e.1.isExternal) = (w.backends.map fun ns => (⟨.deleteHidden ns, .ok ()⟩ : Ev)) ++ l ∧
      (∀ k, (∃ ns ∈ w.backends, Queues w.disk ns k) → w'.disk k = none) ∧
      (∀ k, ¬ (∃ ns ∈ w.backends, Queues w.disk ns k) → w'.disk k = w.disk k) ∧
      w'.backends = w.backends ∧ w'.sync = false

theorem C48_afterHistorySync : C48 afterHistorySync := C48_queues

/-- `after_history_sync` with other steps for one JID and for the end of the mode. -/
def leaveBy (sync : Bool) (forget : Ns → P Unit) (one : Mgr → Ns → Jid → P Unit) : Mgr → P Unit := fun M => do
  call (.setSync sync)
  Prog.forEach (← call .getBackends) fun ns => call (.deleteHidden ns)
  Prog.forEach (← call .getBackends) fun ns => do
    let jids := dedup (Maybe.maybe (← Sto.loadStrs (.queue ns)) [])
    forget ns
    Prog.forEach (M.O.iter jids) fun jid => one M ns jid

theorem leaveBy_right : leaveBy false (fun ns => call (.delete (.queue ns))) sendQueuedJid = afterHistorySync := rfl

/-- The list of JIDs with queued messages is not deleted (sm:1586 forgotten). -/
def leftover : Mgr → P Unit := leaveBy false (fun _ => pure ()) sendQueuedJid

theorem C48_leftover : ¬ C48 leftover := by
  intro hc
  have hr : (trial sunny (leftover Mgr.ex) World.inbox).2.1 = .ok () := by decide +kernel
  obtain ⟨_, _, -, -, -, -, h, -⟩ := hc _ _ _ _ (hr ▸ trial_exec sunny (leftover Mgr.ex) World.inbox) (trial_runs sunny_ok _ _)
  have h1 := h (.queue "n") ⟨"n", by decide +kernel, .inl rfl⟩
  have h2 : ((trial sunny (leftover Mgr.ex) World.inbox).2.2.disk (.queue "n")).isSome = true := by decide +kernel
  rw [h1] at h2
  cases h2

/-- Only the first device of each JID gets a message (sm:1604: the loop returns after one round). -/
def firstOnly : Mgr → P Unit := leaveBy false (fun ns => call (.delete (.queue ns))) fun M ns jid => do
  let ids := dedup (Maybe.maybe (← Sto.loadInts (.queueJid ns jid)) [])
  call (.delete (.queueJid ns jid))
  Prog.forEach ((M.O.iter ids).take 1) fun d => sendQueued M ns jid d

/-- The session with device `d` of "a" for "o" is loaded. -/
def loadsO (d : DevId) : Ev → Bool | ⟨.loadSession ns j d', _⟩ => decide (ns = "o" ∧ j = "a" ∧ d' = d) | _ => false

theorem C48_missed (leave : Mgr → P Unit) (d : DevId) (hq : Queued World.inbox.disk ("o", "a", d))
    (hr : (trial sunny (leave Mgr.ex) World.inbox).2.1 = .ok ()) (hn : (trial sunny (leave Mgr.ex) World.inbox).1.any (loadsO d) = false) :
    ¬ C48 leave := by
  intro hc
  obtain ⟨xs, l, -, h1, h2, h3, -⟩ := hc _ _ _ _ (hr ▸ trial_exec sunny (leave Mgr.ex) World.inbox) (trial_runs sunny_ok _ _)
  obtain ⟨r, h4⟩ := replies_mem h2 ((h1 ("o", "a", d)).2 ⟨show "o" ∈ World.inbox.backends by decide +kernel, hq⟩)
  have h5 := (List.mem_filter.1 (show _ ∈ (trial sunny (leave Mgr.ex) World.inbox).1.filter _ from h3 ▸ List.mem_append_right _ h4)).1
  have := never hn h5
  simp [loadsO] at this

theorem C48_firstOnly : ¬ C48 firstOnly := by
  by_cases h : (trial sunny (firstOnly Mgr.ex) World.inbox).1.any (loadsO 8) = false
  · exact C48_missed _ 8 World.inbox_queued.2.1 (by decide +kernel) h
  · exact C48_missed _ 7 World.inbox_queued.1 (by decide +kernel) (by revert h; decide +kernel)

/-- The mode is not left (sm:1576: the wrong value). -/
def stillSyncing : Mgr → P Unit := leaveBy true (fun ns => call (.delete (.queue ns))) sendQueuedJid

theorem C48_stillSyncing : ¬ C48 stillSyncing := by
  intro hc
  have hr : (trial sunny (stillSyncing Mgr.ex) World.inbox).2.1 = .ok () := by decide +kernel
  obtain ⟨_, _, -, -, -, -, -, -, -, h⟩ := hc _ _ _ _ (hr ▸ trial_exec sunny (stillSyncing Mgr.ex) World.inbox) (trial_runs sunny_ok _ _)
  have h2 : (trial sunny (stillSyncing Mgr.ex) World.inbox).2.2.sync = true := by decide +kernel
  rw [h] at h2
  cases h2

/-! ### C71: problems with single devices -/

/-- C71 for a program. -/
def C71 (enc : Enc) : Prop :=
  ∀ (M : Mgr) (jids : List Jid) (pt : Dict Ns Bytes) (prio : Option (List Ns)) (i : Option String) (y : Exn),
    (y = .bundleDownloadFailed ∨ y = .bundleNotFound ∨ y = .keyExchangeFailed) → (∀ ds i t, ¬ Exec (M.decide ds i) t (.raised y)) →
    ∀ t : List Ev, (∀ e ∈ t, e.2 = .error y → DeviceProblem e.1 y) → ¬ Exec (enc M jids pt prio i) t (.raised y)

theorem C71_encrypt : C71 encrypt := Verif.C71

/-- The exceptions of a failed key exchange are passed on (sm:1912: an exception less). -/
def fragileDevice (M : Mgr) (ns : Ns) (cache : List Bundle) (km : PlainKM) (st : EncState) (dev : DeviceInfo) : P EncState := do
  let session : Option Session ← call (.loadSession ns dev.bareJid dev.deviceId)
  let bundle := (M.O.iter cache).find? fun b => decide (b.ns = ns ∧ b.bareJid = dev.bareJid ∧ b.deviceId = dev.deviceId)
  Prog.tryElse (encryptForDevice ns dev session bundle km)
    (fun e => if e = .bundleDownloadFailed ∨ e = .bundleNotFound then
        pure { st with devices := setDiff st.devices [dev]
                       errors := st.errors ++ [{ ns := ns, bareJid := dev.bareJid, deviceId := dev.deviceId, exn := e }] }
      else throwE e)
    (fun (session, ekm) =>
        pure { st with keys := setAdd st.keys (ekm, kexFor session)
                       sessions := st.sessions ++ [(ns, session)] })

def fragile : Enc := encryptBy fun M => { right M with device := fragileDevice M }

theorem C71_fragile : ¬ C71 fragile := by
  intro hc
  have hr : (trial barren (fragile Mgr.ex ["a"] [("n", [1]), ("o", [1, 2])] none none) World.chat).2.1 = .raised .keyExchangeFailed := by decide +kernel
  refine hc Mgr.ex ["a"] [("n", [1]), ("o", [1, 2])] none none .keyExchangeFailed (.inr (.inr rfl)) (fun ds i t h => by cases h) _ ?_
    (hr ▸ trial_exec barren (fragile Mgr.ex ["a"] [("n", [1]), ("o", [1, 2])] none none) World.chat)
  have h : (trial barren (fragile Mgr.ex ["a"] [("n", [1]), ("o", [1, 2])] none none) World.chat).1.all (fun e => match e with
      | ⟨.buildActive .., _⟩ => true
      | ⟨_, .error .keyExchangeFailed⟩ => false
      | _ => true) = true := by decide +kernel
  rintro ⟨o, r⟩ he hr
  have := List.all_eq_true.1 h _ he
  dsimp only at hr
  subst hr
  cases o <;> first
    | exact .inr (.inr rfl)
    | (simp at this; done)

/-! ### C82: downloads of bundles -/

/-- C82 for a program. -/
def C82 (enc : Enc) : Prop :=
  ∀ (M : Mgr) (jids : List Jid) (pt : Dict Ns Bytes) (prio : Option (List Ns)) (i : Option String) (t : List Ev)
    (r : Res Exn (Dict Message PlainKM × List EncError)), Exec (enc M jids pt prio i) t r → BackendsOnce t →
    (∀ ds i t r, Exec (M.decide ds i) t r → ∀ e ∈ t, ∀ ns j d, e.1 ≠ .downloadBundle ns j d) →
    (∀ ns j d b, (⟨.downloadBundle ns j d, .ok b⟩ : Ev) ∈ t → b.ns = ns ∧ b.bareJid = j ∧ b.deviceId = d) →
    Guarded Needed t

theorem C82_encrypt : C82 encrypt := Verif.C82

/-- The bundles downloaded before are not used (sm:1890-1894 forgotten). -/
def forgetful : Enc := encryptBy fun M => { right M with device := fun ns _ => encryptDevice M ns [] }

/-- Bundles are downloaded before looking for a session (sm:1886, 1902: the wrong order). -/
def prefetchDevice (M : Mgr) (ns : Ns) (cache : List Bundle) (km : PlainKM) (st : EncState) (dev : DeviceInfo) : P EncState := do
  Prog.tryElse (call (.downloadBundle ns dev.bareJid dev.deviceId)) (fun _ => pure ()) (fun _ => pure ())
  encryptDevice M ns cache km st dev

def prefetching : Enc := encryptBy fun M => { right M with device := prefetchDevice M }

theorem sparse_labels {t : List Ev} (h : ∀ e ∈ t, ∃ w, e.2 = Lib.env sparse w e.1) (ns : Ns) (j : Jid) (d : DevId) (b : Bundle)
    (hm : (⟨.downloadBundle ns j d, .ok b⟩ : Ev) ∈ t) : b.ns = ns ∧ b.bareJid = j ∧ b.deviceId = d := by
  obtain ⟨w, hw⟩ := h _ hm
  simp only [Lib.env, sparse] at hw
  split at hw
  · cases hw
  · cases hw; exact ⟨rfl, rfl, rfl⟩

/-- A successful download of the bundle of device 8 of "a" for "o". -/
def gets8 : Ev → Bool | ⟨.downloadBundle ns j d, .ok _⟩ => decide (ns = "o" ∧ j = "a" ∧ d = 8) | _ => false

/-- A download is rejected if the bundle was obtained before. -/
theorem again_rejected {t : List Ev} {u v : List Ev} {e : Ev} (ht : t = u ++ e :: v) (he : gets8 e = true) (hu : u.any gets8 = true)
    (hg : Guarded Needed t) : False := by
  obtain ⟨o, r⟩ := e
  cases o <;> cases r <;> try (cases he; done)
  simp only [gets8, decide_eq_true_eq] at he
  obtain ⟨rfl, rfl, rfl⟩ := he
  refine (hg u _ v ht _ _ _ rfl).1 ?_
  obtain ⟨x, hx, h⟩ := List.any_eq_true.1 hu
  obtain ⟨o, r⟩ := x
  cases o <;> cases r <;> try (cases h; done)
  simp only [gets8, decide_eq_true_eq] at h
  obtain ⟨rfl, rfl, rfl⟩ := h
  exact ⟨_, hx⟩

/-- The trace has two steps that pass the test. -/
theorem twice {f : Ev → Bool} : ∀ {t : List Ev}, 2 ≤ t.countP f → ∃ u e v, t = u ++ e :: v ∧ f e = true ∧ u.any f = true
  | [], h => by simp at h
  | x :: t, h => by
    by_cases hx : f x = true
    · rw [List.countP_cons_of_pos hx] at h
      obtain ⟨e, he, hf⟩ := List.countP_pos_iff.1 (show 0 < t.countP f by omega)
      obtain ⟨u, v, rfl⟩ := List.append_of_mem he
      exact ⟨x :: u, e, v, rfl, hf, by simp [hx]⟩
    · rw [List.countP_cons_of_neg hx] at h
      obtain ⟨u, e, v, rfl, h1, h2⟩ := twice h
      exact ⟨x :: u, e, v, rfl, h1, by simp [h2]⟩

theorem C82_repeats (enc : Enc)
    (hs : (trial sparse (enc Mgr.ex ["a"] [("o", [1]), ("n", [2])] (some ["o", "n"]) none) World.chat).1.all settled = true)
    (h2 : 2 ≤ (trial sparse (enc Mgr.ex ["a"] [("o", [1]), ("n", [2])] (some ["o", "n"]) none) World.chat).1.countP gets8) : ¬ C82 enc := by
  intro hc
  have hg := hc _ _ _ _ _ _ _ (trial_exec sparse (enc Mgr.ex ["a"] [("o", [1]), ("n", [2])] (some ["o", "n"]) none) World.chat)
    (trial_once sparse_ok hs (by decide)) (fun ds i t r h => by cases h; simp) (sparse_labels (runProg_answers _ _ _ _ _))
  obtain ⟨u, e, v, ht, he, hu⟩ := twice h2
  exact again_rejected ht he hu hg

theorem C82_forgetful : ¬ C82 forgetful := C82_repeats _ (by decide +kernel) (by decide +kernel)

theorem C82_prefetching : ¬ C82 prefetching := C82_repeats _ (by decide +kernel) (by decide +kernel)

/-! ### C81: downloads of device lists -/

/-- C81 for a program. -/
def C81 (dec : Dec) : Prop :=
  ∀ (M : Mgr) (msg : Message) (t : List Ev) (r), Exec (dec M msg) t r →
    t.countP (fun e => Op.getsList e.1) ≤ 1 ∧ ∀ e ∈ t, Op.getsList e.1 = true → e.1 = .downloadList msg.ns msg.bareJid

theorem C81_decrypt : C81 decrypt := C81_once

/-- For an unknown sender the lists of all backends are downloaded (sm:2051: too many). -/
def thorough : Dec := decryptBy fun M => { rightly M with
  sender := fun msg => do
    match pickDevice M msg.deviceId (← getDeviceInformation M msg.bareJid) with
    | some dev => pure dev
    | none => do
      refreshDeviceLists M msg.bareJid
      match pickDevice M msg.deviceId (← getDeviceInformation M msg.bareJid) with
      | some dev => pure dev
      | none => throwE .senderNotFound }

theorem C81_thorough : ¬ C81 thorough := by
  intro hc
  have h := (hc _ _ _ _ (trial_exec genuine (thorough Mgr.ex strangerMessage) World.started)).1
  have : ¬ (trial genuine (thorough Mgr.ex strangerMessage) World.started).1.countP (fun e => Op.getsList e.1) ≤ 1 := by decide +kernel
  exact this h

/-- The list is downloaded for the own account (sm:2051: the wrong JID). -/
def introspective : Dec := decryptBy fun M => { rightly M with
  sender := fun msg => do
    match pickDevice M msg.deviceId (← getDeviceInformation M msg.bareJid) with
    | some dev => pure dev
    | none => do
      refreshDeviceList M msg.ns M.ownJid
      match pickDevice M msg.deviceId (← getDeviceInformation M msg.bareJid) with
      | some dev => pure dev
      | none => throwE .senderNotFound }

theorem C81_introspective : ¬ C81 introspective := by
  intro hc
  have h := (hc _ _ _ _ (trial_exec genuine (introspective Mgr.ex strangerMessage) World.started)).2
  obtain ⟨u, ⟨o, r⟩, v, ht, he⟩ := find (t := (trial genuine (introspective Mgr.ex strangerMessage) World.started).1)
    (f := fun e => match e.1 with | .downloadList _ j => decide (j = "me") | _ => false) (by decide +kernel)
  cases o <;> try (cases he; done)
  have h1 := h ⟨.downloadList _ _, r⟩ (by rw [ht]; simp) rfl
  simp only [decide_eq_true_eq] at he
  subst he
  injection h1 with _ h1
  exact absurd h1 (by decide)

/-! ### C73, C74, C75: what reaches the server -/

/-- C73 for a program in place of a call that is not given a list. -/
def C73 (c : Call) (p : Mgr → P Unit) : Prop :=
  ∀ (M : Mgr), (∀ ds i t r, Exec (M.decide ds i) t r → Guarded (KeepsOthers M.ownJid (OwnIs M c) fun _ _ => False) t) →
    ∀ (t r), Exec (p M) t r → Guarded (KeepsOthers M.ownJid (OwnIs M c) fun _ _ => False) t

/-- C74 for a program in place of a call. -/
def C74 (c : Call) (p : Mgr → P Unit) : Prop :=
  ∀ (M : Mgr), (∀ ds i t r, Exec (M.decide ds i) t r → Guarded (OwnBundles M.ownJid (OwnIs M c)) t) →
    ∀ (t r), Exec (p M) t r → Guarded (OwnBundles M.ownJid (OwnIs M c)) t

/-- C75 for a program in place of a call. -/
def C75 (c : Call) (p : Mgr → P Unit) : Prop :=
  ∀ (M : Mgr), (∀ ds i t r, Exec (M.decide ds i) t r → Guarded (OnlyEmpty M.ownJid (OwnIs M c)) t) →
    ∀ (t r), Exec (p M) t r → Guarded (OnlyEmpty M.ownJid (OwnIs M c)) t

theorem C73_purgeBackend (ns : Ns) : C73 (.purgeBackend ns) fun M => (Call.purgeBackend ns).run M :=
  fun M hd _ _ he => Verif.C73 M _ _ nofun hd he

theorem C74_purgeBackend (ns : Ns) : C74 (.purgeBackend ns) fun M => (Call.purgeBackend ns).run M := fun M hd _ _ he => Verif.C74 M _ hd he

theorem C75_afterHistorySync : C75 .afterHistorySync fun M => (Call.afterHistorySync).run M := fun M hd _ _ he => Verif.C75 M _ hd he

/-- `purge_backend` with another list uploaded, and another bundle deleted. -/
def purgeBackendBy (list : Mgr → DevList → DevList) (gone : Mgr → DevId) (ns : Ns) : Mgr → P Unit := fun M => do
  let dl ← call (.downloadList ns M.ownJid)
  Prog.when (M.ownDev ∈ Dict.keys dl) do
    call (.uploadList ns (list M dl))
  let (device, _) ← getOwnDeviceInformation M
  call (.store (.devActive M.ownJid M.ownDev) (.ofBools (device.active.erase ns)))
  call (.store (.devNamespaces M.ownJid M.ownDev) (.ofStrs (M.O.iter (setDiff device.namespaces [ns]))))
  let bs ← call .getBackends
  call (.setBackends (setDiff bs [ns]))
  Prog.when (ns ∈ bs) do
    call (.purge ns)
  call (.deleteBundle ns (gone M))

theorem purgeBackendBy_right (ns : Ns) :
    purgeBackendBy (fun M dl => Dict.erase dl M.ownDev) (·.ownDev) ns = fun M => purgeBackend M ns := rfl

/-- An empty list is uploaded (sm:528: all devices removed instead of the own one). -/
def clearing : Ns → Mgr → P Unit := purgeBackendBy (fun _ _ => []) (·.ownDev)

/-- The bundle of another device is deleted. -/
def misdirected : Ns → Mgr → P Unit := purgeBackendBy (fun M dl => Dict.erase dl M.ownDev) fun M => M.ownDev + 1

theorem quiet_guarded {G : List Ev → Ev → Prop} (ds i t r) (h : Exec (Mgr.ex.decide ds i) t r) : Guarded G t := by
  cases h
  exact Guarded.nil

theorem C73_clearing : ¬ C73 (.purgeBackend "n") (clearing "n") := by
  intro hc
  have hg := hc Mgr.ex quiet_guarded _ _ (trial_exec mirroring (clearing "n" Mgr.ex) World.started)
  have h1 : (trial mirroring (clearing "n" Mgr.ex) World.started).1 =
    [⟨.downloadList "n" "me", .ok [(1, none), (5, some "x")]⟩] ++ ⟨.uploadList "n" [], .ok ()⟩ ::
      (trial mirroring (clearing "n" Mgr.ex) World.started).1.drop 2 := rfl
  obtain ⟨d, dl, h2, h3, h4⟩ := hg _ _ _ h1 _ _ rfl
  obtain rfl : d = 1 := h2
  rcases h3 with h3 | h3
  · simp only [List.mem_singleton] at h3
    cases h3
    exact absurd (h4 5 (by decide)) (by decide)
  · exact h3

theorem C74_misdirected : ¬ C74 (.purgeBackend "n") (misdirected "n") := by
  intro hc
  have hg := hc Mgr.ex quiet_guarded _ _ (trial_exec mirroring (misdirected "n" Mgr.ex) World.started)
  obtain ⟨u, ⟨o, r⟩, v, ht, he⟩ := find (t := (trial mirroring (misdirected "n" Mgr.ex) World.started).1)
    (f := fun e => match e.1 with | .deleteBundle _ d => decide (d = 2) | _ => false) (by decide +kernel)
  cases o <;> try (cases he; done)
  have h1 := (hg _ _ _ ht).2 _ _ rfl
  simp only [decide_eq_true_eq] at he
  subst he
  exact absurd (show (2 : DevId) = 1 from h1) (by decide)

/-- Empty messages are sent in the name of the recipient (sm:1643: the wrong JID). -/
def masquerading : Mgr → P Unit := leaveBy false (fun ns => call (.delete (.queue ns))) fun M ns jid =>
  sendQueuedJid { M with ownJid := jid } ns jid

theorem C75_masquerading : ¬ C75 .afterHistorySync masquerading := by
  intro hc
  have hg := hc Mgr.ex quiet_guarded _ _ (trial_exec sunny (masquerading Mgr.ex) World.inbox)
  obtain ⟨u, ⟨o, r⟩, v, ht, he⟩ := find (t := (trial sunny (masquerading Mgr.ex) World.inbox).1)
    (f := fun e => match e.1 with | .sendMessage m _ => decide (m.bareJid = "a") | _ => false) (by decide +kernel)
  cases o <;> try (cases he; done)
  have h1 := (hg _ _ _ ht _ _ rfl).1
  simp only [decide_eq_true_eq] at he
  rw [he] at h1
  exact absurd (show ("a" : String) = "me" from h1) (by decide)

end Wrong
end Verif
