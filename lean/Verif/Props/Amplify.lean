import Verif.Props.Owed
import Verif.Props.KeyExchange
import Verif.Proofs.CallOps
/-
C108: the library sends no more messages of its own than it has received.
-/
namespace Verif
open Spec SM

/-- How many messages the call sends; attempts that fail count too. -/
def Spec.Running.sends (k : Running) : Nat := (k.trace.filter fun e => Op.sendsMessage e.1).length

/-- The call hands a received message to the library. -/
def Spec.Call.receives : Call → Bool
  | .decrypt _ => true
  | _ => false

/-- The application itself asks for messages to be sent. -/
def Spec.Call.orders : Call → Bool
  | .replaceSessions .. => true
  | _ => false

/-- The messages sent that the application did not ask for. -/
def Spec.unasked (ks : List Running) : Nat := ((ks.filter fun k => !Spec.Call.orders k.c).map (·.sends)).sum

/-- The messages received. -/
def Spec.received (ks : List Running) : Nat := (ks.filter fun k => Spec.Call.receives k.c).length

/-- No reply is put off. -/
def Spec.NothingQueued (m : Disk) : Prop := ∀ ns j, m (.queueJid ns j) = none

/-- The trust decision sends no messages. -/
def Spec.SendsNone (M : Mgr) : Prop := ∀ ds i t r, Exec (M.decide ds i) t r → ∀ e ∈ t, Op.sendsMessage e.1 = false

/-- C108, for calls that overlap in any way. -/
def C108_Claim : Prop :=
  ∀ (cs : List (Mgr × Call)) (w w' : World) (calls : List Running) (t : List Ev), Hist Lib World.fresh cs w → NothingQueued w.disk →
    (∀ k ∈ calls, k.c.asks → NoQueues k.M ∧ SendsNone k.M) → Shuffle (calls.map (·.trace)) t → Lib.Runs w t w' → unasked calls ≤ received calls

namespace Amplify

theorem length_le {α : Type} [DecidableEq α] {l m : List α} (hn : l.Nodup) (hs : ∀ a ∈ l, a ∈ m) : l.length ≤ m.length := by
  induction l generalizing m with
  | nil => simp
  | cons a l ih =>
    obtain ⟨h1, h2⟩ := List.nodup_cons.1 hn
    have h3 := ih (m := m.erase a) h2 fun b hb => (List.mem_erase_of_ne (by rintro rfl; exact h1 hb)).2 (hs b (.tail _ hb))
    have h4 := hs a List.mem_cons_self
    have h5 := List.length_erase_of_mem h4
    have h6 : 0 < m.length := List.length_pos_of_mem h4
    simp only [List.length_cons]
    omega

/-- The contract of storage for the queues; messages sent are counted. -/
def Tl : Sem LibSig Exn (Disk × Nat) where
  ok x e := Owe.Qs.ok x.1 e
  next x e := (Owe.Qs.next x.1 e, if Op.sendsMessage e.1 = true then x.2 + 1 else x.2)

/-- At most `b` messages were sent or are put off. -/
def Within (b : Nat) (x : Disk × Nat) : Prop :=
  ∃ Q : List (Ns × Jid × DevId), (∀ ns j l, x.1 (.queueJid ns j) = some (.list l) → ∀ d ∈ l.map JVal.asInt, (ns, j, d) ∈ Q) ∧ x.2 + Q.length ≤ b

theorem Within.mono {b c : Nat} {x : Disk × Nat} (h : Within b x) (hc : b ≤ c) : Within c x := by
  obtain ⟨Q, h1, h2⟩ := h
  exact ⟨Q, h1, by omega⟩

/-- The interaction neither sends nor changes what is put off. -/
def Calm (o : Op) : Prop := Owe.Still o ∧ Op.sendsMessage o = false

theorem Calm.next {o : Op} (h : Calm o) (x : Disk × Nat) (r) : Tl.next x ⟨o, r⟩ = x := by
  show (Owe.Qs.next x.1 ⟨o, r⟩, if Op.sendsMessage o = true then x.2 + 1 else x.2) = x
  rw [h.1, h.2]
  rfl

theorem pres_calm {α : Type} {b : Nat} {p : P α} (h : AllOps Calm p) : Pres Tl (Within b) p :=
  Pres.ofOps h fun o ho x r _ hw => by rw [ho.next]; exact hw

/-- At most one message is sent or put off. -/
def One {α : Type} (p : P α) : Prop := ∀ b x, Within b x → wp Tl p (fun _ => Within (b + 1)) x

theorem One.calm {α : Type} {p : P α} (h : AllOps Calm p) : One p := fun _ x hx =>
  wp_mono (pres_calm h x hx) fun _ _ h => h.mono (by omega)

theorem One.after {α β : Type} {p : P β} {f : β → P α} (h : AllOps Calm p) (hf : ∀ a, One (f a)) : One (p >>= f) := by
  intro b x hx
  rw [wp_bind]
  refine wp_mono (pres_calm h x hx) fun r x' h => ?_
  cases r with
  | ok a => exact hf a b x' h
  | raised e => exact h.mono (by omega)
  | crashed => exact h.mono (by omega)

theorem One.before {α β : Type} {p : P β} {f : β → P α} (h : One p) (hf : ∀ a, AllOps Calm (f a)) : One (p >>= f) := by
  intro b x hx
  rw [wp_bind]
  refine wp_mono (h b x hx) fun r x' h => ?_
  cases r with
  | ok a => exact pres_calm (hf a) x' h
  | raised e => exact h
  | crashed => exact h

/-- One message for each round of a loop. -/
theorem One.each {α : Type} {xs : List α} {f : α → P Unit} (hf : ∀ a, One (f a)) {b : Nat} {x : Disk × Nat} (hx : Within b x) :
    wp Tl (Prog.forEach xs f) (fun _ => Within (b + xs.length)) x := by
  induction xs generalizing b x with
  | nil => exact hx
  | cons a xs ih =>
    show wp Tl (f a >>= fun _ => Prog.forEach xs f) _ x
    rw [wp_bind]
    refine wp_mono (hf a b x hx) fun r x' h => ?_
    have e : b + (a :: xs).length = b + 1 + xs.length := by simp only [List.length_cons]; omega
    cases r with
    | ok _ => rw [e]; exact ih h
    | raised _ => exact h.mono (by omega)
    | crashed => exact h.mono (by omega)

theorem calm_key {o : Op} (h : Owe.Off o) (hs : Op.sendsMessage o = false) : Calm o := ⟨h.still, hs⟩

theorem calm_none {o : Op} (h : o.key = none) (hs : Op.sendsMessage o = false) : Calm o := calm_key (fun k hk => by rw [h] at hk; cases hk) hs

theorem calm_load (k : Key) : Calm (.load k) := ⟨fun m r => by cases r <;> rfl, rfl⟩

theorem calm_queue (ns : Ns) : ∀ {b : Nat} {x : Disk × Nat}, Within b x →
    (∀ v r, Within b (Tl.next x ⟨.store (.queue ns) v, r⟩)) ∧ ∀ r, Within b (Tl.next x ⟨.delete (.queue ns), r⟩) := by
  rintro b x ⟨Q, h1, h2⟩
  have key : ∀ v, Within b (x.1.upd (.queue ns) v, x.2) := fun v =>
    ⟨Q, fun ns' j l h => h1 ns' j l (by rw [← Disk.upd_of_ne (m := x.1) (k := Key.queue ns) (v := v) (fun h => by cases h)]; exact h), h2⟩
  exact ⟨fun v r => by cases r with | ok a => exact key _ | error e => exact ⟨Q, h1, h2⟩, fun r => by
    cases r with | ok a => exact key _ | error e => exact ⟨Q, h1, h2⟩⟩

variable {M : Mgr}

theorem one_send (ns : Ns) (s : Session) : One (sendEmptyMessage M ns s) := by
  unfold sendEmptyMessage
  refine One.after (.perform (calm_none rfl rfl)) fun _ => One.after (.perform (calm_none rfl rfl)) fun _ => ?_
  refine One.before (p := call _) (fun b x hx => ?_) fun _ => .perform (calm_none rfl rfl)
  have key : ∀ m j r, Within (b + 1) (Tl.next x ⟨.sendMessage m j, r⟩) := by
    intro m j r
    obtain ⟨Q, h1, h2⟩ := hx
    exact ⟨Q, h1, show x.2 + 1 + _ ≤ _ by omega⟩
  exact wp_perform.2 ⟨hx.mono (by omega), fun _ _ => key _ _ _, fun _ _ => key _ _ _⟩

/-- Loading a queue of a JID. -/
theorem wp_ids {ns : Ns} {j : Jid} {Q : Res Exn (Option (List Int)) → Disk × Nat → Prop} {x : Disk × Nat} (hc : Q .crashed x) (he : ∀ e, Q (.raised e) x)
    (h : ∀ o, (∀ d ∈ Maybe.maybe o [], ∃ l, x.1 (.queueJid ns j) = some (.list l) ∧ d ∈ l.map JVal.asInt) → Q (.ok o) x) :
    wp Tl (Sto.loadInts (.queueJid ns j)) Q x := by
  show wp Tl (call (.load (.queueJid ns j)) >>= fun v => Maybe.fmap chkInts v) Q x
  rw [wp_bind]
  refine wp_perform.2 ⟨hc, fun v hv => ?_, fun e _ => ?_⟩
  · have hv : v = x.1 (.queueJid ns j) := hv rfl
    show wp Tl (Maybe.fmap chkInts v) Q (Tl.next x ⟨.load (.queueJid ns j), .ok v⟩)
    rw [(calm_load _).next, wp_fmap]
    cases v with
    | none => exact h none fun d hd => by cases hd
    | some v =>
      simp only [fmapRes]
      cases hf : chkInts v with
      | error e => exact he e
      | ok b =>
        obtain ⟨l, rfl, rfl⟩ := ints_list hf
        exact h _ fun d hd => ⟨l, hv.symm, hd⟩
  · show Q (.raised e) (Tl.next x _)
    rw [(calm_load _).next]
    exact he e

theorem one_queueEmpty (s : Session) : One (queueEmpty M s) := by
  unfold queueEmpty
  refine One.after (by unfold Sto.loadStrs; lib_ops [calm_load]) fun o b x hx => ?_
  have tail : ∀ x, Within b x → wp Tl (do
      let ids := dedup (Maybe.maybe (← Sto.loadInts (.queueJid s.ns s.bareJid)) [])
      call (.store (.queueJid s.ns s.bareJid) (.ofInts (M.O.iter (setAdd ids s.deviceId))))) (fun _ => Within (b + 1)) x := by
    intro x hx
    have hx' : Within (b + 1) x := hx.mono (by omega)
    rw [wp_bind]
    refine wp_ids hx' (fun _ => hx') fun o ho => ?_
    rw [andThen_ok]
    refine wp_perform.2 ⟨hx', fun _ _ => ?_, fun _ _ => hx'⟩
    obtain ⟨Q, h1, h2⟩ := hx
    refine ⟨(s.ns, s.bareJid, s.deviceId) :: Q, fun ns j l hl d hd => ?_, show x.2 + (Q.length + 1) ≤ b + 1 by omega⟩
    replace hl : x.1.upd (.queueJid s.ns s.bareJid) (some (.ofInts (M.O.iter (setAdd (dedup (Maybe.maybe o [])) s.deviceId)))) (.queueJid ns j) = some (.list l) := hl
    by_cases hk : Key.queueJid ns j = .queueJid s.ns s.bareJid
    · rw [hk, Disk.upd_self] at hl
      injection hk with hk1 hk2
      subst hk1 hk2
      replace hl : JVal.list ((M.O.iter (setAdd (dedup (Maybe.maybe o [])) s.deviceId)).map .int) = .list l := by injection hl
      injection hl with hl
      subst hl
      rw [List.map_map] at hd
      obtain ⟨d', hd', rfl⟩ := List.mem_map.1 hd
      rw [SetOrder.mem_iter, mem_setAdd, mem_dedup] at hd'
      rcases hd' with hd' | rfl
      · obtain ⟨l', h3, h4⟩ := ho d' hd'
        exact .tail _ (h1 _ _ _ h3 d' h4)
      · exact List.mem_cons_self
    · rw [Disk.upd_of_ne hk] at hl
      exact .tail _ (h1 ns j l hl d hd)
  show wp Tl (call (.store (.queue s.ns) _) >>= fun _ => _) _ x
  rw [wp_bind]
  refine wp_perform.2 ⟨hx.mono (by omega), fun a _ => tail _ ((calm_queue s.ns hx).1 _ (.ok a)), fun e _ => ((calm_queue s.ns hx).1 _ (.error e)).mono (by omega)⟩

theorem one_decrypt (msg : Message) : One (decrypt M msg) := by
  unfold decrypt
  refine One.after (.perform (calm_none rfl rfl)) fun bs => ?_
  split
  · exact One.calm trivial
  · split
    · exact One.calm trivial
    · refine One.after ?_ fun dev => ?_
      · refine ops_findSender.mono fun o h => ?_
        cases o with
        | load k => exact calm_load k
        | store k v => cases k <;> first | (cases h; done) | exact calm_key (fun _ hk => by cases hk; rfl) rfl
        | _ => first | (cases h; done) | exact calm_none rfl rfl
      refine One.after ?_ fun y => ?_
      · unfold decryptContent keyMaterial handleKeyExchange decryptKeyMaterial plaintextOf
        lib_ops []
        all_goals exact calm_none rfl rfl
      obtain ⟨pt, s, km⟩ := y
      refine One.before ?_ fun _ => trivial
      unfold postDecrypt
      refine One.after (.perform (calm_none rfl rfl)) fun _ => One.after ?_ fun _ => ?_
      · unfold consumePreKey discardPreKey refillPreKeys
        lib_ops []
        all_goals exact calm_none rfl rfl
      unfold autoReply Prog.when
      split
      · refine One.after (.perform (calm_none rfl rfl)) fun b => ?_
        split
        · exact one_queueEmpty s
        · exact one_send _ s
      · exact One.calm trivial

theorem one_sendQueued (ns : Ns) (j : Jid) (d : DevId) : One (sendQueued M ns j d) := by
  unfold sendQueued
  refine One.after (.perform (calm_none rfl rfl)) fun s => ?_
  cases s with
  | none => exact One.calm trivial
  | some s => exact one_send ns s

/-- What is sent for a JID was put off before, and is not put off any more. -/
theorem pres_sendQueuedJid (b : Nat) (ns : Ns) (j : Jid) : Pres Tl (Within b) (sendQueuedJid M ns j) := by
  intro x hx
  unfold sendQueuedJid
  rw [wp_bind]
  refine wp_ids hx (fun _ => hx) fun o ho => ?_
  rw [andThen_ok]
  show wp Tl (call (.delete (.queueJid ns j)) >>= fun _ => _) _ x
  rw [wp_bind]
  refine wp_perform.2 ⟨hx, fun a _ => ?_, fun e _ => hx⟩
  rw [andThen_ok]
  generalize hids : dedup (Maybe.maybe o []) = ids
  have hmem : ∀ d ∈ ids, ∃ l, x.1 (.queueJid ns j) = some (.list l) ∧ d ∈ l.map JVal.asInt := fun d hd => ho d (by rw [← hids, mem_dedup] at hd; exact hd)
  have hnd : ids.Nodup := hids ▸ nodup_dedup _
  obtain ⟨Q, h1, h2⟩ := hx
  let here : Ns × Jid × DevId → Bool := fun y => decide (y.1 = ns ∧ y.2.1 = j)
  have h3 : ids.length ≤ (Q.filter here).length := by
    have := length_le (l := ids.map fun d => (ns, j, d)) (m := Q.filter here)
      (List.Pairwise.map _ (fun a b hab h => hab (by injection h with _ h; injection h)) hnd) (fun y hy => by
        obtain ⟨d, hd, rfl⟩ := List.mem_map.1 hy
        obtain ⟨l, h3, h4⟩ := hmem d hd
        exact List.mem_filter.2 ⟨h1 ns j l h3 d h4, decide_eq_true ⟨rfl, rfl⟩⟩)
    rwa [List.length_map] at this
  have h4 : Q.length = (Q.filter here).length + (Q.filter fun y => !here y).length := by
    clear h1 h2 h3
    induction Q with
    | nil => rfl
    | cons y Q ih => cases hy : here y <;> simp only [List.filter_cons, hy, List.length_cons, Bool.not_true, Bool.not_false, if_true] <;> simp <;> omega
  have h5 : Within (b - ids.length) (Tl.next x ⟨.delete (.queueJid ns j), .ok a⟩) := by
    refine ⟨Q.filter fun y => !here y, fun ns' j' l hl d hd => ?_, show x.2 + _ ≤ _ by omega⟩
    replace hl : x.1.upd (.queueJid ns j) none (.queueJid ns' j') = some (.list l) := hl
    by_cases hk : Key.queueJid ns' j' = .queueJid ns j
    · rw [hk, Disk.upd_self] at hl
      cases hl
    · rw [Disk.upd_of_ne hk] at hl
      exact List.mem_filter.2 ⟨h1 ns' j' l hl d hd, by
        show (!decide (ns' = ns ∧ j' = j)) = true
        rw [decide_eq_false (by rintro ⟨rfl, rfl⟩; exact hk rfl)]
        rfl⟩
  refine wp_mono (One.each (xs := M.O.iter ids) (one_sendQueued ns j) h5) fun _ x' h => h.mono ?_
  rw [SetOrder.length_iter]
  omega

theorem pres_after (b : Nat) : Pres Tl (Within b) (afterHistorySync M) := by
  unfold afterHistorySync
  refine (pres_calm (.perform (calm_none rfl rfl))).bind fun _ => ?_
  refine (pres_calm (.perform (calm_none rfl rfl))).bind fun bs => ?_
  refine (Pres.forEach fun ns _ => pres_calm (.perform (calm_none rfl rfl))).bind fun _ => ?_
  refine (pres_calm (.perform (calm_none rfl rfl))).bind fun bs => ?_
  refine Pres.forEach fun ns _ => ?_
  unfold sendQueuedBackend
  refine Pres.bind (pres_calm (by unfold Sto.loadStrs; lib_ops [calm_load])) fun o => ?_
  refine Pres.bind (p := call _) (fun x hx => ?_) fun _ => Pres.forEach fun j _ => pres_sendQueuedJid b ns j
  exact wp_perform.2 ⟨hx, fun a _ => (calm_queue ns hx).2 (.ok a), fun e _ => (calm_queue ns hx).2 (.error e)⟩

/-- Calls other than `decrypt`, `after_history_sync` and `replace_sessions` send nothing. -/
theorem silent_call (c : Call) (h1 : c ≠ .afterHistorySync) (h2 : ¬ ∃ msg, c = .decrypt msg) (h3 : Spec.Call.orders c = false)
    (hd : c.asks → SendsNone M) {t r} (he : Exec (c.run M) t r) : ∀ e ∈ t, Op.sendsMessage e.1 = false := by
  have info : ∀ {j o}, Foot.Info j o → Op.sendsMessage o = false := fun h => by cases h <;> rfl
  have upd : ∀ {M ns j o}, Foot.Update M ns j o → Op.sendsMessage o = false := fun h => by cases h <;> rfl
  have refr : ∀ {M ns j o}, Foot.Refresh M ns j o → Op.sendsMessage o = false := fun h => by cases h <;> first | rfl | exact upd ‹_›
  have pb : ∀ {M ns o}, Foot.PurgeBackend M ns o → Op.sendsMessage o = false := fun h => by cases h <;> first | rfl | exact info ‹_›
  have no_enc : ∀ {c : Call}, (∀ jids pt prio i, c ≠ .encrypt jids pt prio i) → (∀ o, CallOps M c o → Op.sendsMessage o = false) →
      AllOps (fun o => Op.sendsMessage o = false) (c.run M) := fun hc h => Call.allOps M _ hc (fun o h => by cases h <;> rfl) h
  have key : AllOps (fun o => Op.sendsMessage o = false) (c.run M) → ∀ e ∈ t, Op.sendsMessage e.1 = false := fun h => h.exec he
  cases c with
  | afterHistorySync => exact absurd rfl h1
  | decrypt msg => exact absurd ⟨msg, rfl⟩ h2
  | replaceSessions => cases h3
  | encrypt jids pt prio i =>
    have h := Rec.sound (φ := fun _ => True) (Call.pres M (.encrypt jids pt prio i) (N := Rec fun _ => True) (I := fun h => ∀ e ∈ h, Op.sendsMessage e.1 = false)
      (Pres.ofOps ops_ikp fun o ho w r _ hw e he => ?_) (fun _ ds i => Pres.ofOps (φ := fun o => Op.sendsMessage o = false) (AllOps.of_exec (fun o => ⟨.error .keyError⟩) (hd trivial ds i)) fun o ho w r _ hw e he => ?_)
      (fun o ho w r _ hw e he => ?_) [] (by simp)) he (fun _ _ => trivial)
    · simpa using h
    all_goals
      rcases List.mem_append.1 he with he | he
      · exact hw e he
      · rw [List.mem_singleton.1 he]
        first
          | exact ho
          | (cases ho <;> first | rfl | exact info ‹_›)
  | getIdentityKeyPair => exact key (no_enc nofun fun o h => h.elim)
  | create bs l f => exact key (no_enc nofun fun o h => by cases h <;> first | rfl | exact info ‹_› | exact refr ‹_› | exact pb ‹_›)
  | purgeBackend ns => exact key (no_enc nofun fun o h => pb h)
  | purgeBareJid jid => exact key (no_enc nofun fun o h => by cases h <;> rfl)
  | ensureDataConsistency =>
    refine key (no_enc nofun fun o h => ?_)
    rcases h with rfl | h
    · rfl
    · cases h <;> first | rfl | exact refr ‹_›
  | rotation p f r => exact key (no_enc nofun fun o h => by cases h <;> rfl)
  | updateDeviceList ns jid dl => exact key (no_enc nofun fun o h => upd h)
  | refreshDeviceList ns jid => exact key (no_enc nofun fun o h => refr h)
  | refreshDeviceLists jid =>
    refine key (no_enc nofun fun o h => ?_)
    rcases h with rfl | ⟨ns, h⟩
    · rfl
    · exact refr h
  | setTrust jid ik l => exact key (no_enc nofun fun o h => by cases h; rfl)
  | getSendingChainLength dev =>
    refine key (no_enc nofun fun o h => ?_)
    rcases h with rfl | ⟨ns, j, d, rfl⟩ <;> rfl
  | setOwnLabel l => exact key (no_enc nofun fun o h => by cases h <;> rfl)
  | getDeviceInformation jid => exact key (no_enc nofun fun o h => info h)
  | getOwnDeviceInformation => exact key (no_enc nofun fun o h => info h)
  | beforeHistorySync => exact key (no_enc nofun fun o h => by cases h; rfl)

/-- Counting does not restrict what can happen. -/
theorem tally {m m' : Disk} {t : List Ev} (n : Nat) (h : Owe.Qs.Runs m t m') :
    Tl.Runs (m, n) t (m', n + (t.filter fun e => Op.sendsMessage e.1).length) := by
  induction t generalizing m n with
  | nil => cases h; rfl
  | cons e t ih =>
    refine ⟨h.1, ?_⟩
    have h' := ih (if Op.sendsMessage e.1 = true then n + 1 else n) h.2
    have e2 : n + ((e :: t).filter fun e => Op.sendsMessage e.1).length =
        (if Op.sendsMessage e.1 = true then n + 1 else n) + (t.filter fun e => Op.sendsMessage e.1).length := by
      rw [List.filter_cons]
      split <;> simp only [List.length_cons] <;> omega
    rw [e2]
    exact h'

/-- Messages are received, and synchronization is ended, one after the other. -/
theorem main_within {ks : List Running} (hk : ∀ k ∈ ks, k.c = .afterHistorySync ∨ ∃ msg, k.c = .decrypt msg) {x x' : Disk × Nat} {b : Nat}
    (hr : Tl.Runs x (ks.map (·.trace)).flatten x') (hx : Within b x) : Within (b + received ks) x' := by
  induction ks generalizing x b with
  | nil => cases hr; exact hx
  | cons k ks ih =>
    rw [List.map_cons, List.flatten_cons] at hr
    obtain ⟨x1, hr1, hr2⟩ := Sem.runs_append.1 hr
    obtain ⟨M, c, t, r, he⟩ := k
    rcases hk _ List.mem_cons_self with hc | ⟨msg, hc⟩
    · cases hc
      have e : received (⟨M, .afterHistorySync, t, r, he⟩ :: ks) = received ks := rfl
      rw [e]
      exact ih (fun k hk' => hk k (.tail _ hk')) hr2 ((pres_after b).run he hr1 hx)
    · cases hc
      have e : received (⟨M, .decrypt msg, t, r, he⟩ :: ks) = received ks + 1 := rfl
      have h1 : Within (b + 1) x1 := wp_sound ((One.before (f := fun _ => pure ()) (one_decrypt msg) fun _ => trivial) b x hx) he hr1
      have := ih (fun k hk' => hk k (.tail _ hk')) hr2 h1
      rw [e]
      exact this.mono (by omega)

theorem unasked_main {ks : List Running} (hk : ∀ k ∈ ks, k.c = .afterHistorySync ∨ ∃ msg, k.c = .decrypt msg) :
    unasked ks = ((ks.map (·.trace)).flatten.filter fun e => Op.sendsMessage e.1).length := by
  induction ks with
  | nil => rfl
  | cons k ks ih =>
    have h1 : Spec.Call.orders k.c = false := by
      rcases hk k List.mem_cons_self with h | ⟨msg, h⟩ <;> rw [h] <;> rfl
    have h2 := ih fun k hk' => hk k (.tail _ hk')
    unfold unasked at h2 ⊢
    rw [List.filter_cons, if_pos (by rw [h1]; rfl), List.map_cons, List.sum_cons, h2, List.map_cons, List.flatten_cons, List.filter_append, List.length_append]
    rfl

theorem unasked_others {ks : List Running} (hk : ∀ k ∈ ks, Spec.Call.orders k.c = false → k.sends = 0) : unasked ks = 0 := by
  unfold unasked
  refine List.sum_eq_zero_iff_forall_eq_nat.2 fun n hn => ?_
  obtain ⟨k, h1, rfl⟩ := List.mem_map.1 hn
  obtain ⟨h2, h3⟩ := List.mem_filter.1 h1
  exact hk k h2 (by simpa using h3)

end Amplify

open Amplify in
/-- C108 holds if messages are received, and synchronization is ended, one after the other, whatever other calls overlap with this: the library
sends no more messages of its own than it has received.  Missing: calls of `decrypt` and `after_history_sync` that overlap. -/
theorem C108_partial {w w' : World} {main others : List Running} {t : List Ev} (h0 : NothingQueued w.disk)
    (hmain : ∀ k ∈ main, k.c = .afterHistorySync ∨ ∃ msg, k.c = .decrypt msg)
    (hoth : ∀ k ∈ others, k.c ≠ .afterHistorySync ∧ (∀ msg, k.c ≠ .decrypt msg) ∧ (k.c.asks → NoQueues k.M ∧ SendsNone k.M))
    (hsh : Shuffle ((main.map (·.trace)).flatten :: others.map (·.trace)) t) (hr : Lib.Runs w t w') :
    unasked (main ++ others) ≤ received (main ++ others) := by
  obtain ⟨m, h1, -⟩ := Owe.view (m := w.disk) (fun _ _ => rfl) hr
  have hne : ∀ k ∈ others, ¬ ∃ msg, k.c = .decrypt msg := fun k hk ⟨msg, h⟩ => (hoth k hk).2.1 msg h
  have h2 := Owe.thread (pre := []) hsh (fun v hv e he => by
    obtain ⟨k, hk, rfl⟩ := List.mem_map.1 hv
    exact (Owe.still_call k.c (hoth k hk).1 (hne k hk) fun h => ((hoth k hk).2.2 h).1).exec k.exec e he) h1
  obtain ⟨Q, -, h3⟩ := main_within (b := 0) hmain (tally 0 h2) ⟨[], fun ns j l hl => (by
    cases (h0 ns j).symm.trans hl), Nat.le_refl _⟩
  have h4 : unasked others = 0 := unasked_others fun k hk hc => by
    unfold Running.sends
    rw [List.filter_eq_nil_iff.2 fun e he => by
      rw [silent_call k.c (hoth k hk).1 (hne k hk) hc (fun h => ((hoth k hk).2.2 h).2) k.exec e he]; nofun]
    rfl
  have h5 : unasked (main ++ others) = unasked main + unasked others := by
    unfold unasked
    rw [List.filter_append, List.map_append, List.sum_append]
  have h6 : received main ≤ received (main ++ others) := by
    unfold received
    rw [List.filter_append, List.length_append]
    omega
  rw [h5, h4, unasked_main hmain]
  simp only [Nat.zero_add] at h3
  omega

/-! ### Where messages are sent twice -/

namespace Amplify

/-- Like `chatty`; in addition every message can be sent. -/
def merry : World → (o : Op) → Except Exn o.Ret
  | _, .sendMessage _ _ => .ok ()
  | w, o => chatty w o

theorem merry_ok (w : World) (o : Op) (e : Exn) (h : merry w o = .error e) : e.isInternal = false := by
  cases o <;> simp only [merry] at h <;> first
    | exact chatty_ok w _ e h
    | (cases h; done)

def progs : List (P Unit) :=
  [(Call.decrypt (firstMessage "o" 7)).run Mgr.ex, (Call.decrypt (firstMessage "o" 8)).run Mgr.ex, Call.afterHistorySync.run Mgr.ex,
    Call.beforeHistorySync.run Mgr.ex, Call.afterHistorySync.run Mgr.ex]

/-- A message is received.  While another one is received, synchronization ends.  Later there is another synchronization. -/
def plan : List Nat :=
  List.replicate 40 0 ++ List.replicate 23 1 ++ List.replicate 9 2 ++ List.replicate 3 1 ++ List.replicate 2 2 ++ List.replicate 1 1 ++
    List.replicate 20 2 ++ [3] ++ List.replicate 40 4

def overlap := sched (Lib.env merry) Lib.next plan progs World.met4

def count (t : List Ev) : Nat := (t.filter fun e => Op.sendsMessage e.1).length

theorem overlap_ok : SchedOk Lib progs World.met4 overlap := sched_ok Lib (Lib.env merry) (Lib.env_ok merry merry_ok) _ _ _

theorem met4_nothing : NothingQueued World.met4.disk := fun _ _ => rfl

end Amplify

open Amplify in
/-- C108 is false of the code: `after_history_sync` takes the queue for an account away while `decrypt` adds to it, having read it before.  The
reply sent is put off again, and sent again after the next synchronization: three messages are sent for two received. -/
theorem C108_refuted : ¬ C108_Claim := by
  intro h
  have c0 : overlap.2.1[0]?.any (Prog.isOk fun _ => true) = true := by decide +kernel
  have c1 : overlap.2.1[1]?.any (Prog.isOk fun _ => true) = true := by decide +kernel
  have c2 : overlap.2.1[2]?.any (Prog.isOk fun _ => true) = true := by decide +kernel
  have c3 : overlap.2.1[3]?.any (Prog.isOk fun _ => true) = true := by decide +kernel
  have c4 : overlap.2.1[4]?.any (Prog.isOk fun _ => true) = true := by decide +kernel
  have cs : overlap.1.map count = [0, 0, 1, 0, 2] := by decide +kernel
  have hx := overlap_ok
  generalize overlap = x at hx c0 c1 c2 c3 c4 cs
  obtain ⟨ts, y, t, w'⟩ := x
  match ts, hx.len with
  | [t0, t1, t2, t3, t4], _ =>
    obtain ⟨_, e0, -⟩ := hx.isOk 0 rfl rfl _ c0
    obtain ⟨_, e1, -⟩ := hx.isOk 1 rfl rfl _ c1
    obtain ⟨_, e2, -⟩ := hx.isOk 2 rfl rfl _ c2
    obtain ⟨_, e3, -⟩ := hx.isOk 3 rfl rfl _ c3
    obtain ⟨_, e4, -⟩ := hx.isOk 4 rfl rfl _ c4
    obtain ⟨hs, hh⟩ := World.met2_hist
    have := h _ _ w' [⟨Mgr.ex, .decrypt (firstMessage "o" 7), _, _, e0⟩, ⟨Mgr.ex, .decrypt (firstMessage "o" 8), _, _, e1⟩,
      ⟨Mgr.ex, .afterHistorySync, _, _, e2⟩, ⟨Mgr.ex, .beforeHistorySync, _, _, e3⟩, ⟨Mgr.ex, .afterHistorySync, _, _, e4⟩] t
      (Friendly.genuine.hist hh Mgr.ex (.updateDeviceList "o" "a" [(7, some "x"), (8, none)])) met4_nothing (fun k hk => by
        simp only [List.mem_cons, List.not_mem_nil, or_false] at hk
        rcases hk with rfl | rfl | rfl | rfl | rfl <;> exact fun h => h.elim) hx.shuffle hx.runs
    have cs : [count t0, count t1, count t2, count t3, count t4] = [0, 0, 1, 0, 2] := cs
    have e : unasked [⟨Mgr.ex, .decrypt (firstMessage "o" 7), _, _, e0⟩, ⟨Mgr.ex, .decrypt (firstMessage "o" 8), _, _, e1⟩,
      ⟨Mgr.ex, .afterHistorySync, _, _, e2⟩, ⟨Mgr.ex, .beforeHistorySync, _, _, e3⟩, ⟨Mgr.ex, .afterHistorySync, _, _, e4⟩] =
      [count t0, count t1, count t2, count t3, count t4].sum := rfl
    rw [e, cs] at this
    exact absurd (show 3 ≤ 2 from this) (by decide)

open Amplify in
/-- The hypotheses of `C108_partial` are met, and the bound is reached: two messages are received during synchronization, a device list of another
account is updated meanwhile, and two replies are sent afterwards. -/
theorem C108_example : ∃ (main others : List Running) (t : List Ev) (w' : World),
    (∀ k ∈ main, k.c = .afterHistorySync ∨ ∃ msg, k.c = .decrypt msg) ∧ others.map (·.c) = [.updateDeviceList "n" "b" [(1, none)]] ∧
    Shuffle ((main.map (·.trace)).flatten :: others.map (·.trace)) t ∧ Lib.Runs World.met4 t w' ∧ unasked (main ++ others) = 2 ∧
    received (main ++ others) = 2 := by
  let p : P Unit := (Call.decrypt (firstMessage "o" 7)).run Mgr.ex >>= fun _ => (Call.decrypt (firstMessage "o" 8)).run Mgr.ex >>= fun _ =>
    Call.afterHistorySync.run Mgr.ex
  let ps : List (P Unit) := [p, (Call.updateDeviceList "n" "b" [(1, none)]).run Mgr.ex]
  let is := (List.replicate 120 [0, 1]).flatten
  have hx := sched_ok Lib (Lib.env merry) (Lib.env_ok merry merry_ok) is ps World.met4
  have c1 : (sched (Lib.env merry) Lib.next is ps World.met4).2.1[0]?.any (Prog.isOk fun _ => true) = true := by decide +kernel
  have c2 : (sched (Lib.env merry) Lib.next is ps World.met4).2.1[1]?.any (Prog.isOk fun _ => true) = true := by decide +kernel
  have c3 : (sched (Lib.env merry) Lib.next is ps World.met4).1.map count = [2, 0] := by decide +kernel
  generalize sched (Lib.env merry) Lib.next is ps World.met4 = x at hx c1 c2 c3
  obtain ⟨ts, y, t, w'⟩ := x
  obtain ⟨t1, t2, rfl⟩ := list2 (l := ts) hx.len
  obtain ⟨_, e1, -⟩ := hx.isOk 0 rfl rfl _ c1
  obtain ⟨_, e2, -⟩ := hx.isOk 1 rfl rfl _ c2
  obtain ⟨u1, _, v1, rfl, g1, h1⟩ := exec_seq_ok.1 e1
  obtain ⟨u2, _, u3, rfl, g2, g3⟩ := exec_seq_ok.1 h1
  have hm : ∀ k ∈ ([⟨Mgr.ex, .decrypt (firstMessage "o" 7), _, _, g1⟩, ⟨Mgr.ex, .decrypt (firstMessage "o" 8), _, _, g2⟩,
      ⟨Mgr.ex, .afterHistorySync, _, _, g3⟩] : List Running), k.c = .afterHistorySync ∨ ∃ msg, k.c = .decrypt msg := by
    intro k hk
    simp only [List.mem_cons, List.not_mem_nil, or_false] at hk
    rcases hk with rfl | rfl | rfl
    · exact .inr ⟨_, rfl⟩
    · exact .inr ⟨_, rfl⟩
    · exact .inl rfl
  refine ⟨_, [⟨Mgr.ex, .updateDeviceList "n" "b" [(1, none)], _, _, e2⟩], t, w', hm, rfl, by simpa using hx.shuffle, hx.runs, ?_, rfl⟩
  have c3 : [count (u1 ++ (u2 ++ u3)), count t2] = [2, 0] := c3
  injection c3 with c3 c4
  injection c4 with c4
  show count u1 + (count u2 + (count u3 + (count t2 + 0))) = 2
  unfold count at *
  simp only [List.filter_append, List.length_append] at c3
  omega

end Verif
