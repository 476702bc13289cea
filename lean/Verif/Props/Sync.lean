import Verif.Props.PurgeJid
/-
C48–C50: history synchronization.
-/
namespace Verif
namespace Spec

/-- An empty message is queued for device `x.2.2` of `x.2.1` in namespace `x.1`. -/
def Queued (m : Disk) (x : Ns × Jid × DevId) : Prop :=
  (∃ l, m (.queue x.1) = some (.ofStrs l) ∧ x.2.1 ∈ l) ∧ ∃ l, m (.queueJid x.1 x.2.1) = some (.list l) ∧ x.2.2 ∈ l.map JVal.asInt

/-- The places with the queues processed for `ns`. -/
def Queues (m : Disk) (ns : Ns) (k : Key) : Prop :=
  k = .queue ns ∨ ∃ l jid, m (.queue ns) = some (.ofStrs l) ∧ jid ∈ l ∧ k = .queueJid ns jid

/-- What is done for a queued empty message: the session is loaded; if there is none, nothing else; otherwise one empty message is
encrypted with it for this device, sent to the JID of the session, and the session is stored. -/
inductive Reply (M : Mgr) (x : Ns × Jid × DevId) : List Ev → Prop
  | gone : Reply M x [⟨.loadSession x.1 x.2.1 x.2.2, .ok none⟩]
  | sent (s s' : Session) (c : Content) (km : PlainKM) (ekm : EncKM) (kex : Option KeyExchange) :
      Reply M x [⟨.loadSession x.1 x.2.1 x.2.2, .ok (some s)⟩, ⟨.encryptEmpty x.1, .ok (c, km)⟩, ⟨.encryptKM x.1 s km, .ok (ekm, s')⟩,
        ⟨.sendMessage ⟨x.1, M.ownJid, M.ownDev, c, [(ekm, kex)]⟩ s'.bareJid, .ok ()⟩, ⟨.storeSession x.1 s', .ok ()⟩]

/-- This is done for each of the queued messages, one after the other. -/
inductive Replies (M : Mgr) : List (Ns × Jid × DevId) → List Ev → Prop
  | nil : Replies M [] []
  | snoc {xs : List (Ns × Jid × DevId)} {t : List Ev} {x : Ns × Jid × DevId} {l : List Ev} : Replies M xs t → Reply M x l → Replies M (xs ++ [x]) (t ++ l)

theorem Replies.append {M : Mgr} {xs ys : List (Ns × Jid × DevId)} {t u : List Ev} (h : Replies M xs t) (h' : Replies M ys u) : Replies M (xs ++ ys) (t ++ u) := by
  induction h' with
  | nil => simpa using h
  | snoc h1 h2 ih => rw [← List.append_assoc, ← List.append_assoc]; exact .snoc ih h2

end Spec
open Spec SM

namespace SM
variable {M : Mgr} {ns : Ns}

/-- `l` was logged; the stored data changed as by `D`. -/
structure Went (l : List Ev) (D : Key → Prop) (w w' : World) : Prop where
  log : w'.log = w.log ++ l
  gone : ∀ k, D k → w'.disk k = none
  rest : ∀ k, ¬ D k → w'.disk k = w.disk k
  backends : w'.backends = w.backends
  sync : w'.sync = w.sync

theorem Went.refl (w : World) : Went [] (fun _ => False) w w := ⟨by simp, nofun, fun _ _ => rfl, rfl, rfl⟩

theorem Went.trans {l l' : List Ev} {K K' L : Key → Prop} {w w1 w2 : World} (h : Went l K w w1) (h' : Went l' K' w1 w2) (hL : ∀ k, L k ↔ K k ∨ K' k) :
    Went (l ++ l') L w w2 := by
  refine ⟨by rw [h'.log, h.log, List.append_assoc], fun k hk => ?_, fun k hk => ?_, h'.backends.trans h.backends, h'.sync.trans h.sync⟩
  · by_cases hk' : K' k
    · exact h'.gone k hk'
    · rw [h'.rest k hk', h.gone k (((hL k).1 hk).resolve_right hk')]
  · rw [hL] at hk
    rw [h'.rest k fun x => hk (.inr x), h.rest k fun x => hk (.inl x)]

/-- As before, where some of the places are emptied. -/
def Partly (D : Key → Prop) (w w' : World) : Prop := ∃ l K, (∀ k, K k → D k) ∧ Went l K w w'

theorem Partly.after {l : List Ev} {K D D' : Key → Prop} {w w1 w2 : World} (h : Went l K w w1) (h' : Partly D' w1 w2) (hK : ∀ k, K k → D k) (hD : ∀ k, D' k → D k) :
    Partly D w w2 := by
  obtain ⟨l', K', h1, h2⟩ := h'
  exact ⟨_, _, fun k hk => hk.elim (hK k) fun h => hD k (h1 k h), h.trans h2 fun _ => Iff.rfl⟩

theorem Went.push (w : World) (e : Ev) : Went [e] (fun _ => False) w (w.push e) := ⟨rfl, nofun, fun _ _ => rfl, rfl, rfl⟩

theorem went_delete (w : World) (k : Key) : Went [] (· = k) w { w with disk := w.disk.upd k none } := by
  refine ⟨by simp, ?_, fun k' hk => Disk.upd_of_ne hk, rfl, rfl⟩
  rintro _ rfl; exact Disk.upd_self

theorem Went.snoc {l : List Ev} {w w1 : World} (h : Went l (fun _ => False) w w1) (e : Ev) : Went (l ++ [e]) (fun _ => False) w (w1.push e) :=
  h.trans (.push w1 e) (by simp)

theorem sync_reply (jid : Jid) (d : DevId) (w : World) : wp Lib (sendQueued M ns jid d)
    (ends (fun _ w' => ∃ l, Reply M (ns, jid, d) l ∧ Went l (fun _ => False) w w') fun _ w' => Partly (fun _ => False) w w') w := by
  have bad : ∀ {l : List Ev} {w' : World}, Went l (fun _ => False) w w' → Partly (fun _ => False) w w' := fun h => ⟨_, _, fun _ => id, h⟩
  unfold sendQueued
  rw [ends_bind]
  refine Lib.ext rfl (bad (.refl w)) (fun e _ => bad (.push w _)) fun o => ?_
  have h1 := Went.push w ⟨.loadSession ns jid d, .ok o⟩
  cases o with
  | none => exact ⟨_, .gone, h1⟩
  | some s =>
    simp only
    unfold sendEmptyMessage
    rw [ends_bind]
    refine Lib.ext rfl (bad h1) (fun e _ => bad (h1.snoc _)) fun x => ?_
    obtain ⟨c, km⟩ := x
    have h2 := h1.snoc ⟨.encryptEmpty ns, .ok (c, km)⟩
    simp only
    rw [ends_bind]
    refine Lib.ext rfl (bad h2) (fun e _ => bad (h2.snoc _)) fun x => ?_
    obtain ⟨ekm, s'⟩ := x
    have h3 := h2.snoc ⟨.encryptKM ns s km, .ok (ekm, s')⟩
    simp only
    rw [ends_bind]
    refine Lib.ext rfl (bad h3) (fun e _ => bad (h3.snoc _)) fun _ => ?_
    have h4 := h3.snoc ⟨.sendMessage ⟨ns, M.ownJid, M.ownDev, c, [(ekm, kexFor s')]⟩ s'.bareJid, .ok ()⟩
    refine Lib.ext rfl (bad h4) (fun e _ => bad (h4.snoc _)) fun _ => ?_
    exact ⟨_, .sent s s' c km ekm (kexFor s'), h4.snoc _⟩

theorem sync_jid (jid : Jid) (w : World) : wp Lib (sendQueuedJid M ns jid)
    (ends (fun _ w' => ∃ (ids : List DevId) (l : List Ev), ids.Nodup ∧ (∀ d, d ∈ ids ↔ ∃ l, w.disk (.queueJid ns jid) = some (.list l) ∧ d ∈ l.map JVal.asInt) ∧
      Replies M (ids.map fun d => (ns, jid, d)) l ∧ Went l (· = .queueJid ns jid) w w') fun _ w' => Partly (· = .queueJid ns jid) w w') w := by
  unfold sendQueuedJid
  rw [ends_bind]
  have start : ∀ b : List Int, (∀ d, d ∈ b ↔ ∃ l, w.disk (.queueJid ns jid) = some (.list l) ∧ d ∈ l.map JVal.asInt) →
      wp Lib (do call (.delete (.queueJid ns jid)); Prog.forEach (M.O.iter (dedup b)) fun d => sendQueued M ns jid d)
        (ends (fun _ w' => ∃ (ids : List DevId) (l : List Ev), ids.Nodup ∧ (∀ d, d ∈ ids ↔ ∃ l, w.disk (.queueJid ns jid) = some (.list l) ∧ d ∈ l.map JVal.asInt) ∧
          Replies M (ids.map fun d => (ns, jid, d)) l ∧ Went l (· = .queueJid ns jid) w w') fun _ w' => Partly (· = .queueJid ns jid) w w') w := by
    intro b hb
    rw [ends_bind]
    refine Lib.delete (fun _ _ => ⟨[], _, nofun, .refl w⟩) ?_
    have h0 := went_delete w (.queueJid ns jid)
    refine ends_forEach (fun done _ w' => ∃ l, Replies M (done.map fun d => (ns, jid, d)) l ∧ Went l (· = .queueJid ns jid) w w') ⟨[], .nil, h0⟩ ?_ ?_
    · rintro done d rest w1 - ⟨l, h1, h2⟩
      refine ends_mono (sync_reply jid d w1) ?_ fun _ w2 h3 => .after h2 h3 (fun _ => id) nofun
      rintro _ w2 ⟨l', h3, h4⟩
      refine ⟨l ++ l', ?_, h2.trans h4 (by simp)⟩
      rw [List.map_append]
      exact .snoc h1 h3
    · rintro w' ⟨l, h1, h2⟩
      refine ⟨M.O.iter (dedup b), l, ?_, fun d => ?_, h1, h2⟩
      · exact SetOrder.nodup_iter.2 (nodup_dedup _)
      · rw [M.O.mem_iter, mem_dedup, hb]
  refine Lib.typed (fun _ _ => ⟨[], _, nofun, .refl w⟩) (fun _ _ _ _ => ⟨[], _, nofun, .refl w⟩) (fun h0 => ?_) fun v b hv hb => ?_
  · refine start [] fun d => ?_
    simp [h0]
  · refine start b fun d => ?_
    obtain ⟨l, rfl, rfl⟩ := ints_list hb
    constructor
    · exact fun h => ⟨l, hv, h⟩
    · rintro ⟨l', h1, h2⟩
      rw [hv] at h1
      cases h1
      exact h2


theorem strs_read {m : Disk} {k : Key} {v : JVal} {b : List String} (hv : m k = some v) (hb : chkStrs v = .ok b) (x : String) :
    x ∈ b ↔ ∃ l, m k = some (.ofStrs l) ∧ x ∈ l := by
  have := strs_of_check hb
  subst this
  constructor
  · exact fun h => ⟨b, hv, h⟩
  · rintro ⟨l, h1, h2⟩
    rw [hv] at h1
    rw [ofStrs_inj' (Option.some.inj h1)]
    exact h2

theorem sync_backend (w : World) : wp Lib (sendQueuedBackend M ns)
    (ends (fun _ w' => ∃ (xs : List (Ns × Jid × DevId)) (l : List Ev), xs.Nodup ∧ (∀ x, x ∈ xs ↔ x.1 = ns ∧ Queued w.disk x) ∧
      Replies M xs l ∧ Went l (Queues w.disk ns) w w') fun _ w' => Partly (Queues w.disk ns) w w') w := by
  unfold sendQueuedBackend
  rw [ends_bind]
  have start : ∀ b : List String, (∀ j, j ∈ b ↔ ∃ l, w.disk (.queue ns) = some (.ofStrs l) ∧ j ∈ l) →
      wp Lib (do call (.delete (.queue ns)); Prog.forEach (M.O.iter (dedup b)) fun jid => sendQueuedJid M ns jid)
        (ends (fun _ w' => ∃ (xs : List (Ns × Jid × DevId)) (l : List Ev), xs.Nodup ∧ (∀ x, x ∈ xs ↔ x.1 = ns ∧ Queued w.disk x) ∧
          Replies M xs l ∧ Went l (Queues w.disk ns) w w') fun _ w' => Partly (Queues w.disk ns) w w') w := by
    intro b hb
    have hb' : ∀ j, j ∈ M.O.iter (dedup b) ↔ ∃ l, w.disk (.queue ns) = some (.ofStrs l) ∧ j ∈ l := fun j => by rw [M.O.mem_iter, mem_dedup, hb]
    have hnd : (M.O.iter (dedup b)).Nodup := SetOrder.nodup_iter.2 (nodup_dedup _)
    rw [ends_bind]
    refine Lib.delete (fun _ _ => ⟨[], _, nofun, .refl w⟩) ?_
    have h0 := went_delete w (.queue ns)
    refine ends_forEach (fun done _ w' => ∃ (xs : List (Ns × Jid × DevId)) (l : List Ev), xs.Nodup ∧
        (∀ x, x ∈ xs ↔ x.1 = ns ∧ x.2.1 ∈ done ∧ ∃ l, w.disk (.queueJid ns x.2.1) = some (.list l) ∧ x.2.2 ∈ l.map JVal.asInt) ∧
        Replies M xs l ∧ Went l (fun k => k = .queue ns ∨ ∃ j ∈ done, k = .queueJid ns j) w w')
      ⟨[], [], List.nodup_nil, by simp, .nil, by simpa using h0⟩ ?_ ?_
    · rintro done jid rest w1 hxs ⟨xs, l, h1, h2, h3, h4⟩
      rw [hxs] at hnd
      have hj : jid ∉ done := by
        rw [List.nodup_append] at hnd
        exact fun h => hnd.2.2 jid h jid (by simp) rfl
      have hq : w1.disk (.queueJid ns jid) = w.disk (.queueJid ns jid) := by
        refine h4.rest _ ?_
        rintro (h | ⟨j, hj', h⟩)
        · cases h
        · cases h; exact hj hj'
      have hjb : ∀ j, j ∈ done ++ [jid] → ∃ l, w.disk (.queue ns) = some (.ofStrs l) ∧ j ∈ l := by
        intro j hj
        refine (hb' j).1 ?_
        rw [hxs]
        simp only [List.mem_append, List.mem_singleton] at hj
        rw [List.mem_append, List.mem_cons]
        exact hj.imp_right .inl
      refine ends_mono (sync_jid jid w1) ?_ ?_
      · rintro _ w2 ⟨ids, l', h5, h6, h7, h8⟩
        refine ⟨xs ++ ids.map fun d => (ns, jid, d), l ++ l', ?_, fun x => ?_, h3.append h7, h4.trans h8 fun k => ?_⟩
        · rw [List.nodup_append]
          refine ⟨h1, ?_, ?_⟩
          · rw [List.nodup_iff_pairwise_ne] at h5 ⊢
            rw [List.pairwise_map]
            exact h5.imp fun h heq => h (by simpa using heq)
          · rintro x hx y hy rfl
            obtain ⟨d, hd, rfl⟩ := List.mem_map.1 hy
            exact hj ((h2 _).1 hx).2.1
        · obtain ⟨n, j, d⟩ := x
          rw [List.mem_append, h2, List.mem_map]
          simp only [h6, hq, List.mem_append, List.mem_singleton, Prod.mk.injEq]
          constructor
          · rintro (⟨rfl, h, h'⟩ | ⟨d', h, rfl, rfl, rfl⟩)
            · exact ⟨rfl, .inl h, h'⟩
            · exact ⟨rfl, .inr rfl, h⟩
          · rintro ⟨rfl, h | rfl, h'⟩
            · exact .inl ⟨rfl, h, h'⟩
            · exact .inr ⟨d, h', rfl, rfl, rfl⟩
        · simp only [List.mem_append, List.mem_singleton]
          constructor
          · rintro (h | ⟨j, h | rfl, h'⟩)
            · exact .inl (.inl h)
            · exact .inl (.inr ⟨j, h, h'⟩)
            · exact .inr h'
          · rintro ((h | ⟨j, h, h'⟩) | h)
            · exact .inl h
            · exact .inr ⟨j, .inl h, h'⟩
            · exact .inr ⟨jid, .inr rfl, h⟩
      · intro _ w2 h5
        refine .after h4 h5 ?_ ?_
        · rintro k (h | ⟨j, h, h'⟩)
          · exact .inl h
          · obtain ⟨l, a, b⟩ := hjb j (by simp [h])
            exact .inr ⟨l, j, a, b, h'⟩
        · rintro k rfl
          obtain ⟨l, a, b⟩ := hjb jid (by simp)
          exact .inr ⟨l, jid, a, b, rfl⟩
    · rintro w' ⟨xs, l, h1, h2, h3, h4⟩
      refine ⟨xs, l, h1, fun x => ?_, h3, ?_⟩
      · rw [h2, hb']
        unfold Queued
        refine and_congr_right ?_
        rintro rfl
        exact Iff.rfl
      · have : (fun k => k = .queue ns ∨ ∃ j ∈ M.O.iter (dedup b), k = .queueJid ns j) = Queues w.disk ns := by
          funext k
          refine propext (or_congr_right ?_)
          constructor
          · rintro ⟨j, hj, rfl⟩
            obtain ⟨l, h⟩ := (hb' j).1 hj
            exact ⟨l, j, h.1, h.2, rfl⟩
          · rintro ⟨l, j, h, h', rfl⟩
            exact ⟨j, (hb' j).2 ⟨l, h, h'⟩, rfl⟩
        exact this ▸ h4
  refine Lib.typed (fun _ _ => ⟨[], _, nofun, .refl w⟩) (fun _ _ _ _ => ⟨[], _, nofun, .refl w⟩) (fun h0 => ?_) fun v b hv hb => ?_
  · refine start [] fun d => ?_
    simp [h0]
  · exact start b (strs_read hv hb)


theorem replies_mem {xs : List (Ns × Jid × DevId)} {l : List Ev} (h : Replies M xs l) {x : Ns × Jid × DevId} (hx : x ∈ xs) :
    ∃ r, (⟨.loadSession x.1 x.2.1 x.2.2, r⟩ : Ev) ∈ l := by
  induction h with
  | nil => cases hx
  | snoc h1 h2 ih =>
    rw [List.mem_append, List.mem_singleton] at hx
    rcases hx with hx | rfl
    · exact (ih hx).imp fun r hr => List.mem_append_left _ hr
    · cases h2 <;> exact ⟨_, List.mem_append_right _ List.mem_cons_self⟩

theorem queued_ne {m m' : Disk} {D : Key → Prop} (h : ∀ k, ¬ D k → m' k = m k) {x : Ns × Jid × DevId} (h1 : ¬ D (.queue x.1)) (h2 : ¬ D (.queueJid x.1 x.2.1)) :
    Queued m' x ↔ Queued m x := by
  unfold Queued
  rw [h _ h1, h _ h2]

theorem queues_ne {m : Disk} {n : Ns} (hn : n ≠ ns) (j : Jid) : ¬ Queues m n (.queue ns) ∧ ¬ Queues m n (.queueJid ns j) := by
  constructor
  · rintro (h | ⟨l, j, -, -, h⟩)
    · cases h; exact hn rfl
    · cases h
  · rintro (h | ⟨l, j, -, -, h⟩)
    · cases h
    · cases h; exact hn rfl

/-- What is known when `after_history_sync` ends early, with `l` logged. -/
structure SyncEnd (w : World) (l : List Ev) (w' : World) : Prop where
  log : w'.log = w.log ++ l
  /-- the hidden pre keys are deleted before anything is sent -/
  hidden : ∀ u e v, l = u ++ e :: v → (∃ m j, e.1 = .sendMessage m j) → ∀ ns ∈ w.backends, (⟨.deleteHidden ns, .ok ()⟩ : Ev) ∈ u
  /-- queued messages are processed or stay queued, but for those of one backend -/
  lost : ∃ ns0, ∀ x, x.1 ∈ w.backends → Queued w.disk x → (∃ r, (⟨.loadSession x.1 x.2.1 x.2.2, r⟩ : Ev) ∈ l) ∨ Queued w'.disk x ∨ x.1 = ns0

/-- The deletions of hidden pre keys. -/
def hides (bs : List Ns) : List Ev := bs.map fun ns => ⟨.deleteHidden ns, .ok ()⟩

theorem hides_nosend (bs : List Ns) (e : Ev) (he : e ∈ hides bs) : ¬ ∃ m j, e.1 = .sendMessage m j := by
  rintro ⟨m, j, h⟩
  obtain ⟨n, -, rfl⟩ := List.mem_map.1 he
  cases h

theorem hides_first {bs : List Ns} {l u v : List Ev} {e : Ev} (heq : hides bs ++ l = u ++ e :: v) (hs : ∃ m j, e.1 = .sendMessage m j) :
    ∀ ns ∈ bs, (⟨.deleteHidden ns, .ok ()⟩ : Ev) ∈ u := by
  intro ns hns
  obtain ⟨a, ha⟩ : ∃ a, u = hides bs ++ a := by
    rcases List.append_eq_append_iff.1 heq with ⟨a, h4, -⟩ | ⟨c, h4, h5⟩
    · exact ⟨a, h4⟩
    · cases c with
      | nil => exact ⟨[], by simpa using h4.symm⟩
      | cons y c =>
        obtain ⟨rfl, -⟩ := List.cons.inj h5
        exact absurd hs (hides_nosend bs _ (by rw [h4]; simp))
  rw [ha]
  exact List.mem_append_left _ (List.mem_map.2 ⟨ns, hns, rfl⟩)

theorem sync_all (w : World) : wp Lib (afterHistorySync M)
    (ends (fun _ w' => ∃ (xs : List (Ns × Jid × DevId)) (l : List Ev), xs.Nodup ∧ (∀ x, x ∈ xs ↔ x.1 ∈ w.backends ∧ Queued w.disk x) ∧
      Replies M xs l ∧ Went (hides w.backends ++ l) (fun k => ∃ ns ∈ w.backends, Queues w.disk ns k) { w with sync := false } w')
      fun _ w' => ∃ l, SyncEnd w l w') w := by
  have early : ∀ w' : World, ∀ l, w'.log = w.log ++ l → w'.disk = w.disk → (∀ e ∈ l, ¬ ∃ m j, e.1 = .sendMessage m j) → SyncEnd w l w' := by
    intro w' l h1 h2 h3
    refine ⟨h1, ?_, "", fun x _ hx => .inr (.inl (h2 ▸ hx))⟩
    rintro u e v rfl hs
    exact absurd hs (h3 e (by simp))
  unfold afterHistorySync
  rw [ends_bind]
  refine Lib.setSync ⟨[], early _ [] (by simp) rfl (by simp)⟩ ?_
  rw [ends_bind]
  refine Lib.getBackends ⟨[], early _ [] (by simp) rfl (by simp)⟩ ?_
  rw [ends_bind]
  refine ends_forEach (fun done _ w' => Went (hides done) (fun _ => False) { w with sync := false } w') (.refl _) ?_ ?_
  · rintro done ns rest w1 - h1
    have same : w1.disk = w.disk := funext fun k => h1.rest k id
    refine Lib.ext rfl ⟨_, early _ _ h1.log same (hides_nosend _)⟩ (fun e _ => ⟨hides done ++ [⟨.deleteHidden ns, .error e⟩], early _ _ ?_ same ?_⟩) fun _ => ?_
    · simp [World.push, h1.log]
    · intro x hx
      rw [List.mem_append, List.mem_singleton] at hx
      rcases hx with hx | rfl
      · exact hides_nosend _ _ hx
      · rintro ⟨m, j, h⟩; cases h
    · have := h1.snoc ⟨.deleteHidden ns, .ok ()⟩
      unfold hides at *
      rwa [List.map_append]
  · intro w1 h1
    have same : w1.disk = w.disk := funext fun k => h1.rest k id
    have hbs : w1.backends = w.backends := h1.backends
    rw [ends_bind]
    refine Lib.getBackends ⟨_, early _ _ h1.log same (hides_nosend _)⟩ ?_
    rw [hbs]
    replace h1 : Went (hides w.backends) (fun _ => False) { w with sync := false } w1 := h1
    have after : ∀ (w' : World) (l l' : List Ev), w'.log = w.log ++ (hides w.backends ++ l) →
        (∃ ns0, ∀ x, x.1 ∈ w.backends → Queued w.disk x → (∃ r, (⟨.loadSession x.1 x.2.1 x.2.2, r⟩ : Ev) ∈ l) ∨ Queued w'.disk x ∨ x.1 = ns0) →
        SyncEnd w (hides w.backends ++ l) w' := by
      intro w' l l' h2 h3
      refine ⟨h2, fun u e v heq hs ns hns => ?_, ?_⟩
      · exact hides_first heq hs ns hns
      · obtain ⟨ns0, h4⟩ := h3
        exact ⟨ns0, fun x hx hq => (h4 x hx hq).imp_left fun ⟨r, hr⟩ => ⟨r, List.mem_append_right _ hr⟩⟩
    refine ends_forEach (fun done _ w' => ∃ (xs : List (Ns × Jid × DevId)) (l : List Ev), xs.Nodup ∧ (∀ x, x ∈ xs ↔ x.1 ∈ done ∧ Queued w.disk x) ∧
        Replies M xs l ∧ Went (hides w.backends ++ l) (fun k => ∃ ns ∈ done, Queues w.disk ns k) { w with sync := false } w')
      ⟨[], [], List.nodup_nil, by simp, .nil, by simpa using h1⟩ ?_ fun w' h => h
    rintro done ns rest w2 hxs ⟨xs, l, h2, h3, h4, h5⟩
    have hq : ∀ n, n ∉ done → ∀ j, w2.disk (.queue n) = w.disk (.queue n) ∧ w2.disk (.queueJid n j) = w.disk (.queueJid n j) := by
      refine fun n hn j => ⟨h5.rest _ ?_, h5.rest _ ?_⟩
      · rintro ⟨n', hn', h⟩
        exact (queues_ne (ns := n) (n := n') (fun h => hn (h ▸ hn')) j).1 h
      · rintro ⟨n', hn', h⟩
        exact (queues_ne (ns := n) (n := n') (fun h => hn (h ▸ hn')) j).2 h
    have hempty : ns ∈ done → w2.disk (.queue ns) = none := fun h => h5.gone _ ⟨ns, h, .inl rfl⟩
    refine ends_mono (sync_backend w2) ?_ ?_
    · rintro _ w3 ⟨ys, l', h6, h7, h8, h9⟩
      refine ⟨xs ++ ys, l ++ l', ?_, fun x => ?_, h4.append h8, ?_⟩
      · rw [List.nodup_append]
        refine ⟨h2, h6, ?_⟩
        rintro x hx y hy rfl
        have hd := ((h3 x).1 hx).1
        obtain ⟨rfl, h⟩ := (h7 x).1 hy
        obtain ⟨l, hl, -⟩ := h.1
        rw [hempty hd] at hl
        cases hl
      · rw [List.mem_append, h3, h7, List.mem_append, List.mem_singleton]
        by_cases hd : x.1 ∈ done
        · constructor
          · rintro (h | ⟨rfl, h⟩)
            · exact ⟨.inl hd, h.2⟩
            · obtain ⟨l, hl, -⟩ := h.1
              rw [hempty hd] at hl
              cases hl
          · exact fun h => .inl ⟨hd, h.2⟩
        · have : Queued w2.disk x ↔ Queued w.disk x := by
            unfold Queued
            rw [(hq x.1 hd x.2.1).1, (hq x.1 hd x.2.1).2]
          rw [this]
          simp [hd]
      · rw [← List.append_assoc]
        refine h5.trans h9 fun k => ?_
        constructor
        · rintro ⟨n, hn, hk⟩
          rw [List.mem_append, List.mem_singleton] at hn
          rcases hn with hn | rfl
          · exact .inl ⟨n, hn, hk⟩
          · by_cases hd : n ∈ done
            · exact .inl ⟨n, hd, hk⟩
            · refine .inr ?_
              unfold Queues
              rw [(hq n hd "").1]
              exact hk
        · rintro (⟨n, hn, hk⟩ | hk)
          · exact ⟨n, by simp [hn], hk⟩
          · refine ⟨ns, by simp, ?_⟩
            by_cases hd : ns ∈ done
            · rcases hk with h | ⟨l, j, h, -⟩
              · exact .inl h
              · rw [hempty hd] at h
                cases h
            · unfold Queues at hk
              rwa [(hq ns hd "").1] at hk
    · rintro _ w3 ⟨l', K, hK, h6⟩
      refine ⟨_, after w3 (l ++ l') [] ?_ ⟨ns, fun x hx hq' => ?_⟩⟩
      · rw [h6.log, h5.log]; simp
      · by_cases hn : x.1 = ns
        · exact .inr (.inr hn)
        · by_cases hd : x.1 ∈ done
          · obtain ⟨r, hr⟩ := replies_mem h4 ((h3 x).2 ⟨hd, hq'⟩)
            exact .inl ⟨r, List.mem_append_left _ hr⟩
          · refine .inr (.inl ?_)
            unfold Queued at *
            rw [h6.rest _ fun h => (queues_ne (ns := x.1) (Ne.symm hn) x.2.1).1 (hK _ h), h6.rest _ fun h => (queues_ne (ns := x.1) (Ne.symm hn) x.2.1).2 (hK _ h),
              (hq x.1 hd x.2.1).1, (hq x.1 hd x.2.1).2]
            exact hq'


/-! ### What decrypt does during history synchronization -/

/-- Neither sends a message, nor deletes a pre key, nor changes the mode. -/
def quietOp : Op → Bool
  | .sendMessage .. | .deletePreKey .. | .setSync _ => false
  | _ => true

/-- Synchronizing; nothing was sent and no pre key deleted since the log was `L`. -/
def Syncing (L : List Ev) (w : World) : Prop := w.sync = true ∧ ∃ l, w.log = L ++ l ∧ ∀ e ∈ l, quietOp e.1 = true

theorem syncing_next {L : List Ev} {w : World} {o : Op} (ho : quietOp o = true) (r : Except Exn o.Ret) (h : Syncing L w) :
    Syncing L (Lib.next w ⟨o, r⟩) := by
  obtain ⟨h1, l, h2, h3⟩ := h
  cases hx : o.isExternal
  · cases o <;> first
      | (cases hx; done)
      | (cases ho; done)
      | (cases r <;> exact ⟨h1, l, h2, h3⟩)
  · rw [Lib.next_ext hx]
    refine ⟨h1, l ++ [⟨o, r⟩], by simp [World.push, h2], fun e he => ?_⟩
    rw [List.mem_append, List.mem_singleton] at he
    rcases he with he | rfl
    · exact h3 e he
    · exact ho

theorem syncing_ops {L : List Ev} {α : Type} {p : P α} (h : AllOps (fun o => quietOp o = true) p) : Pres Lib (Syncing L) p :=
  .ofOps h fun _ ho _ r _ hi => syncing_next ho r hi

theorem syncing_choice {L : List Ev} {α : Type} {f : Bool → P α} (h : Pres Lib (Syncing L) (f true)) : Pres Lib (Syncing L) (call .getSync >>= f) := by
  intro w hw
  rw [wp_bind]
  refine wp_perform.2 ⟨hw, fun a ha => ?_, fun e he => ?_⟩
  · cases (show Except.ok a = Except.ok w.sync from ha)
    show wp Lib (f w.sync) _ w
    rw [hw.1]
    exact h w hw
  · cases (show Except.error e = Except.ok w.sync from he)

theorem update_quiet {ns : Ns} {jid : Jid} {o : Op} (h : Foot.Update M ns jid o) : quietOp o = true := by cases h <;> rfl
theorem info_quiet {jid : Jid} {o : Op} (h : Foot.Info jid o) : quietOp o = true := by cases h <;> rfl
theorem refresh_quiet {ns : Ns} {jid : Jid} {o : Op} (h : Foot.Refresh M ns jid o) : quietOp o = true := by
  cases h with
  | download => rfl
  | update h => exact update_quiet h

theorem syncing_decrypt (L : List Ev) (msg : Message) : Pres Lib (Syncing L) (decrypt M msg) := by
  have h1 : AllOps (fun o => quietOp o = true) (getDeviceInformation M msg.bareJid) := (ops_getDeviceInformation M _).mono fun _ h => info_quiet h
  have h2 : AllOps (fun o => quietOp o = true) (refreshDeviceList M msg.ns msg.bareJid) := (ops_refreshDeviceList M _ _).mono fun _ h => refresh_quiet h
  have hr : ∀ {α : Type} (e : Exn), Pres Lib (Syncing L) (throwE e : P α) := fun e w hw => hw
  have h3 : ∀ s, Pres Lib (Syncing L) (consumePreKey M msg.ns s) := by
    intro s
    unfold consumePreKey
    refine syncing_choice (syncing_ops ?_)
    unfold discardPreKey refillPreKeys
    lib_ops []
    all_goals first | rfl | exact absurd rfl ‹_›
  have h4 : ∀ kex s, Pres Lib (Syncing L) (autoReply M msg.ns kex s) := by
    intro kex s
    unfold autoReply
    refine .when fun _ => syncing_choice (syncing_ops ?_)
    unfold queueEmpty
    lib_ops []
    all_goals first | rfl | exact absurd rfl ‹_›
  unfold decrypt
  refine .bind (syncing_ops (.perform rfl)) fun bs => ?_
  split
  · exact hr _
  split
  · exact hr _
  rename_i ekm kex _
  refine .bind (syncing_ops ?_) fun dev => .bind (syncing_ops ?_) fun x => .bind ?_ fun _ => .pure _
  · unfold findSender
    lib_ops [h1, h2]
  · unfold decryptContent keyMaterial plaintextOf decryptKeyMaterial handleKeyExchange
    lib_ops []
    all_goals rfl
  · unfold postDecrypt
    exact .bind (syncing_ops (.perform rfl)) fun _ => .bind (.when fun _ => h3 _) fun _ => h4 _ _

end SM

/-- The log grows by the external interactions. -/
theorem Lib.log_external {w w' : World} {t : List Ev} (h : Lib.Runs w t w') : w'.log = w.log ++ t.filter fun e => e.1.isExternal := by
  induction t generalizing w with
  | nil => cases h; simp
  | cons e t ih =>
    rw [ih h.2]
    obtain ⟨o, r⟩ := e
    cases hx : o.isExternal
    · rw [List.filter_cons_of_neg (by simp [hx])]
      congr 1
      cases o <;> first
        | (cases hx; done)
        | (cases r <;> rfl)
    · rw [List.filter_cons_of_pos (by simpa using hx), Lib.next_ext hx]
      simp [World.push]

/-- C48: when `after_history_sync` succeeds, it has worked through exactly the queued messages of the loaded backends, each once: for each
with a session one empty message was sent to its JID, and nothing for the others; before, the hidden pre keys of all loaded backends
were deleted; there were no other interactions with backends or server.  The processed queues are empty, nothing else changed in storage
and synchronization mode is left. -/
theorem C48_queues (M : Mgr) (w w' : World) (t : List Ev) (he : Exec (afterHistorySync M) t (.ok ())) (hr : Lib.Runs w t w') :
    ∃ (xs : List (Ns × Jid × DevId)) (l : List Ev), xs.Nodup ∧ (∀ x, x ∈ xs ↔ x.1 ∈ w.backends ∧ Queued w.disk x) ∧ Replies M xs l ∧
      (t.filter fun e => e.1.isExternal) = (w.backends.map fun ns => (⟨.deleteHidden ns, .ok ()⟩ : Ev)) ++ l ∧
      (∀ k, (∃ ns ∈ w.backends, Queues w.disk ns k) → w'.disk k = none) ∧
      (∀ k, ¬ (∃ ns ∈ w.backends, Queues w.disk ns k) → w'.disk k = w.disk k) ∧
      w'.backends = w.backends ∧ w'.sync = false := by
  obtain ⟨xs, l, h1, h2, h3, h4⟩ := wp_sound (sync_all (M := M) w) he hr
  refine ⟨xs, l, h1, h2, h3, ?_, h4.gone, h4.rest, h4.backends, h4.sync⟩
  have := (Lib.log_external hr).symm.trans h4.log
  exact List.append_cancel_left this

/-- C49 as stated in the list of properties, for the states reachable by calls: when `after_history_sync` raises, every queued message has
been worked on or is still queued. -/
def C49_Claim : Prop :=
  ∀ (cs : List (Mgr × Call)) (w w' : World) (M : Mgr) (t : List Ev) (e : Exn), Hist Lib World.fresh cs w → Exec (afterHistorySync M) t (.raised e) →
    Lib.Runs w t w' → ∀ x, x.1 ∈ w.backends → Queued w.disk x → (∃ r, (⟨.loadSession x.1 x.2.1 x.2.2, r⟩ : Ev) ∈ t) ∨ Queued w'.disk x

/-- However `after_history_sync` ends. -/
theorem sync_ends (M : Mgr) (w w' : World) (t : List Ev) (r : Res Exn Unit) (he : Exec (afterHistorySync M) t r) (hr : Lib.Runs w t w') :
    SyncEnd w (t.filter fun e => e.1.isExternal) w' ∨ r = .ok () := by
  have h := wp_sound (sync_all (M := M) w) he hr
  cases r with
  | ok a => exact .inr rfl
  | raised e =>
    obtain ⟨l, h⟩ := h
    exact .inl (List.append_cancel_left ((Lib.log_external hr).symm.trans h.log) ▸ h)
  | crashed =>
    obtain ⟨l, h⟩ := h
    exact .inl (List.append_cancel_left ((Lib.log_external hr).symm.trans h.log) ▸ h)

/-- C49, what holds: wherever `after_history_sync` stops, every queued message of the loaded backends has been worked on or is still
queued, with the exception of the messages of one backend.  Missing: this one backend, the one in progress, whose queue is deleted before
its messages are sent. -/
theorem C49_partial (M : Mgr) (w w' : World) (t : List Ev) (r : Res Exn Unit) (he : Exec (afterHistorySync M) t r) (hr : Lib.Runs w t w') :
    ∃ ns0, ∀ x, x.1 ∈ w.backends → Queued w.disk x → x.1 ≠ ns0 → (∃ r, (⟨.loadSession x.1 x.2.1 x.2.2, r⟩ : Ev) ∈ t) ∨ Queued w'.disk x := by
  rcases sync_ends M w w' t r he hr with h | rfl
  · obtain ⟨ns0, h⟩ := h.lost
    refine ⟨ns0, fun x h1 h2 h3 => ?_⟩
    rcases h x h1 h2 with ⟨r, h⟩ | h | h
    · exact .inl ⟨r, (List.mem_filter.1 h).1⟩
    · exact .inr h
    · exact absurd h h3
  · obtain ⟨xs, l, -, h2, h3, h4, -⟩ := C48_queues M w w' t he hr
    refine ⟨"", fun x hx hq _ => ?_⟩
    obtain ⟨r, h⟩ := replies_mem h3 ((h2 x).2 ⟨hx, hq⟩)
    exact .inl ⟨r, (List.mem_filter.1 (show _ ∈ t.filter _ from h4 ▸ List.mem_append_right _ h)).1⟩

/-- C50: while in synchronization mode, `decrypt` sends no message and deletes no pre key, and the mode stays on, however it ends. -/
theorem C50_decrypt (M : Mgr) (msg : Message) (w w' : World) (t : List Ev) (r) (he : Exec (decrypt M msg) t r) (hr : Lib.Runs w t w')
    (hs : w.sync = true) : (∀ m j r, (⟨.sendMessage m j, r⟩ : Ev) ∉ t) ∧ (∀ ns s r, (⟨.deletePreKey ns s, r⟩ : Ev) ∉ t) ∧ w'.sync = true := by
  obtain ⟨h1, l, h2, h3⟩ := (syncing_decrypt (M := M) w.log msg).run he hr ⟨hs, [], by simp, by simp⟩
  obtain rfl : _ = l := List.append_cancel_left ((Lib.log_external hr).symm.trans h2)
  refine ⟨fun m j r hm => ?_, fun ns s r hm => ?_, h1⟩
  · cases h3 _ (List.mem_filter.2 ⟨hm, rfl⟩)
  · cases h3 _ (List.mem_filter.2 ⟨hm, rfl⟩)

/-- C50: on leaving the mode, whatever happens, nothing is sent before the hidden pre keys of all loaded backends have been deleted. -/
theorem C50_leave (M : Mgr) (w w' : World) (t : List Ev) (r : Res Exn Unit) (he : Exec (afterHistorySync M) t r) (hr : Lib.Runs w t w')
    (u v : List Ev) (m : Message) (j : Jid) (x : Except Exn Unit) (ht : t = u ++ ⟨.sendMessage m j, x⟩ :: v) :
    ∀ ns ∈ w.backends, (⟨.deleteHidden ns, .ok ()⟩ : Ev) ∈ u := by
  intro ns hns
  have hf : (t.filter fun e => e.1.isExternal) = (u.filter fun e => e.1.isExternal) ++ ⟨.sendMessage m j, x⟩ :: (v.filter fun e => e.1.isExternal) := by
    rw [ht, List.filter_append, List.filter_cons_of_pos (by rfl)]
  suffices h : (⟨.deleteHidden ns, .ok ()⟩ : Ev) ∈ u.filter fun e => e.1.isExternal from (List.mem_filter.1 h).1
  rcases sync_ends M w w' t r he hr with h | rfl
  · exact h.hidden _ _ _ hf ⟨m, j, rfl⟩ ns hns
  · obtain ⟨xs, l, -, -, -, h4, -⟩ := C48_queues M w w' t he hr
    exact hides_first (h4.symm.trans hf) ⟨m, j, rfl⟩ ns hns


/-! ### Concrete runs -/

/-- Like `genuine`; in addition messages can be decrypted. -/
def chatty : World → (o : Op) → Except Exn o.Ret
  | _, .evalTrust _ => .ok .trusted
  | w, .buildPassive ns j d x e => friendly w (.buildPassive ns j d x e)
  | w, .decryptPlaintext ns c m => friendly w (.decryptPlaintext ns c m)
  | w, .hidePreKey ns s => friendly w (.hidePreKey ns s)
  | w, .deletePreKey ns s => friendly w (.deletePreKey ns s)
  | w, o => genuine w o

theorem chatty_ok (w : World) (o : Op) (e : Exn) (h : chatty w o = .error e) : e.isInternal = false := by
  cases o <;> simp only [chatty] at h <;> first
    | exact genuine_ok w _ e h
    | (cases h; done)

def Friendly.chatty : Friendly := ⟨Verif.chatty, chatty_ok⟩

/-- Two devices of "a" are known in both namespaces. -/
def World.met4 : World := (Friendly.genuine.run ((Call.updateDeviceList "o" "a" [(7, some "x"), (8, none)]).run Mgr.ex) World.met2).2.2

/-- A message of device `d` of "a", with a key exchange. -/
def firstMessage (ns : Ns) (d : DevId) : Message := ⟨ns, "a", d, ⟨false, 5⟩, [(⟨"me", 1, 3⟩, some ⟨[UInt8.ofNat d.toNat], 0⟩)]⟩

/-- Messages were received during history synchronization. -/
def World.inbox1 : World := (Friendly.chatty.run ((Call.decrypt (firstMessage "o" 7)).run Mgr.ex) World.met4).2.2
def World.inbox2 : World := (Friendly.chatty.run ((Call.decrypt (firstMessage "o" 8)).run Mgr.ex) World.inbox1).2.2
def World.inbox : World := (Friendly.chatty.run ((Call.decrypt (firstMessage "n" 8)).run Mgr.ex) World.inbox2).2.2

theorem World.inbox_hist : ∃ cs, Hist Lib World.fresh cs World.inbox := by
  obtain ⟨cs, h⟩ := World.met2_hist
  exact ⟨_, Friendly.chatty.hist (Friendly.chatty.hist (Friendly.chatty.hist (Friendly.genuine.hist h _ _) _ _) _ _) _ _⟩

theorem World.inbox_queued : Queued World.inbox.disk ("o", "a", 7) ∧ Queued World.inbox.disk ("o", "a", 8) ∧ Queued World.inbox.disk ("n", "a", 8) := by
  have h1 : World.inbox.disk (.queue "o") = some (.ofStrs ["a"]) := rfl
  have h2 : World.inbox.disk (.queueJid "o" "a") = some (.ofInts [7, 8]) := rfl
  have h3 : World.inbox.disk (.queue "n") = some (.ofStrs ["a"]) := rfl
  have h4 : World.inbox.disk (.queueJid "n" "a") = some (.ofInts [8]) := rfl
  exact ⟨⟨⟨_, h1, by simp⟩, _, h2, by decide⟩, ⟨⟨_, h1, by simp⟩, _, h2, by decide⟩, ⟨⟨_, h3, by simp⟩, _, h4, by decide⟩⟩

/-- Leaving the mode, where messages of namespace "o" cannot be sent. -/
def leaveRun := Friendly.chatty.run (afterHistorySync Mgr.ex) World.inbox

/-- C49 is false of the code: the first message of the second backend cannot be sent, and the second one is neither sent nor queued any
more. -/
theorem C49_refuted : ¬ C49_Claim := by
  intro h
  obtain ⟨cs, hh⟩ := World.inbox_hist
  have hr : leaveRun.2.1 = .raised .messageSendingFailed := by decide +kernel
  rcases h cs _ _ Mgr.ex leaveRun.1 _ hh (hr ▸ Friendly.chatty.exec (afterHistorySync Mgr.ex) World.inbox) (Friendly.chatty.runs _ _) ("o", "a", 8)
    (by decide +kernel) World.inbox_queued.2.1 with ⟨r, h⟩ | h
  · have : leaveRun.1.all (fun e => match e with | ⟨.loadSession ns _ d, _⟩ => decide (¬ (ns = "o" ∧ d = 8)) | _ => true) = true := by decide +kernel
    have := List.all_eq_true.1 this _ h
    simp at this
  · obtain ⟨⟨l, h, -⟩, -⟩ := h
    have : leaveRun.2.2.disk (.queue "o") = none := rfl
    rw [show (Friendly.chatty.run (afterHistorySync Mgr.ex) World.inbox).2.2.disk (.queue "o") = none from this] at h
    cases h


/-- Leaving the mode, where everything can be sent. -/
def sunny : World → (o : Op) → Except Exn o.Ret
  | _, .sendMessage _ _ => .ok ()
  | w, o => genuine w o

theorem sunny_ok (w : World) (o : Op) (e : Exn) (h : sunny w o = .error e) : e.isInternal = false := by
  cases o <;> simp only [sunny] at h <;> first
    | exact genuine_ok w _ e h
    | (cases h; done)

def Friendly.sunny : Friendly := ⟨Verif.sunny, sunny_ok⟩

def leaveRun' := Friendly.sunny.run (afterHistorySync Mgr.ex) World.inbox

theorem leaveRun'_exec : Exec (afterHistorySync Mgr.ex) leaveRun'.1 (.ok ()) := by
  have h : leaveRun'.2.1 = .ok () := by decide +kernel
  exact h ▸ Friendly.sunny.exec (afterHistorySync Mgr.ex) World.inbox

theorem leaveRun'_runs : Lib.Runs World.inbox leaveRun'.1 leaveRun'.2.2 := Friendly.sunny.runs _ _

/-- The hypotheses of C48 are met: in a reachable state, three messages are worked on. -/
theorem C48_example : ∃ (xs : List (Ns × Jid × DevId)) (l : List Ev), xs.Nodup ∧ ("o", "a", 7) ∈ xs ∧ ("o", "a", 8) ∈ xs ∧ ("n", "a", 8) ∈ xs ∧
    Replies Mgr.ex xs l ∧ (∀ e ∈ l, e ∈ leaveRun'.1) ∧ leaveRun'.1.any isSent = true := by
  obtain ⟨xs, l, h1, h2, h3, h4, -⟩ := C48_queues Mgr.ex _ _ _ leaveRun'_exec leaveRun'_runs
  obtain ⟨a, b, c⟩ := World.inbox_queued
  refine ⟨xs, l, h1, (h2 _).2 ⟨by decide +kernel, a⟩, (h2 _).2 ⟨by decide +kernel, b⟩, (h2 _).2 ⟨by decide +kernel, c⟩, h3, fun e he => ?_, by decide +kernel⟩
  exact (List.mem_filter.1 (show e ∈ leaveRun'.1.filter _ from h4 ▸ List.mem_append_right _ he)).1

/-- The hypotheses of `C49_partial` are met with an early end: the messages of the first backend are worked on. -/
theorem C49_example : ∃ t w' e, Exec (afterHistorySync Mgr.ex) t (.raised e) ∧ Lib.Runs World.inbox t w' ∧
    t.any (fun x => match x with | ⟨.loadSession ns _ d, _⟩ => decide (ns = "n" ∧ d = 8) | _ => false) = true := by
  have hr : leaveRun.2.1 = .raised .messageSendingFailed := by decide +kernel
  refine ⟨leaveRun.1, _, _, hr ▸ Friendly.chatty.exec (afterHistorySync Mgr.ex) World.inbox, Friendly.chatty.runs _ _, ?_⟩
  decide +kernel

/-- The hypotheses of C50 are met: a key exchange is received in synchronization mode in a reachable state, and on leaving the mode messages are sent. -/
theorem C50_example : World.inbox2.sync = true ∧
    (∃ a, (Friendly.chatty.run (decrypt Mgr.ex (firstMessage "n" 8)) World.inbox2).2.1 = .ok a) ∧
    (Friendly.chatty.run (decrypt Mgr.ex (firstMessage "n" 8)) World.inbox2).1.any isHidden = true ∧
    ∃ u m j x v, leaveRun'.1 = u ++ ⟨.sendMessage m j, x⟩ :: v ∧ ∀ ns ∈ ["n", "o"], (⟨.deleteHidden ns, .ok ()⟩ : Ev) ∈ u := by
  refine ⟨by decide +kernel, ⟨(some [5, 3], ⟨["n", "o"], [("n", true), ("o", true)], "a", 8, [8], "undecided", none⟩, ⟨3⟩), by decide +kernel⟩, by decide +kernel, ?_⟩
  have h : leaveRun'.1.any isSent = true := by decide +kernel
  obtain ⟨⟨o, x⟩, he, h⟩ := any_mem h
  unfold isSent at h
  split at h
  · rename_i m j x heq
    cases heq
    obtain ⟨u, v, h⟩ := List.append_of_mem he
    have hb : World.inbox.backends = ["n", "o"] := by decide +kernel
    exact ⟨u, m, j, _, v, h, hb ▸ C50_leave Mgr.ex _ _ _ _ leaveRun'_exec leaveRun'_runs u v m j _ h⟩
  · cases h

end Verif
