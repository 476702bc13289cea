import Verif.Props.Sync
import Verif.Props.Commute
import Verif.Props.Decrypt
/-
Replies that are put off during history synchronization are sent when it ends (C85), also if calls overlap (C86).
-/
namespace Verif
open Spec SM

/-- The places with the queues of empty messages. -/
def Key.isQueue : Key → Bool
  | .queue _ | .queueJid _ _ => true
  | _ => false

/-- The trust decision does not touch the queues. -/
def Spec.NoQueues (M : Mgr) : Prop := ∀ ds i t r, Exec (M.decide ds i) t r → ∀ k, Touches t k → k.isQueue = false

namespace Owe

/-- The contract of storage, for the queues only. -/
def Qs : Sem LibSig Exn Disk where
  ok m
    | ⟨.load k, .ok v⟩ => k.isQueue = true → v = m k
    | _ => True
  next m
    | ⟨.store k v, .ok _⟩ => if k.isQueue = true then m.upd k (some v) else m
    | ⟨.delete k, .ok _⟩ => if k.isQueue = true then m.upd k none else m
    | _ => m

/-- The queues are the same. -/
def Same (m n : Disk) : Prop := ∀ k, k.isQueue = true → m k = n k

theorem Same.upd {m n : Disk} (h : Same m n) (k : Key) (v : Option JVal) : Same (m.upd k v) (n.upd k v) := by
  intro k' hk
  unfold Disk.upd
  split
  · rfl
  · exact h k' hk

theorem Same.skip {m n : Disk} (h : Same m n) {k : Key} (hk : ¬ k.isQueue = true) (v : Option JVal) : Same (m.upd k v) n := by
  intro k' hk'
  rw [Disk.upd_of_ne (by rintro rfl; exact hk hk')]
  exact h k' hk'

theorem step {w : World} {m : Disk} (h : Same w.disk m) {e : Ev} (hok : Lib.ok w e) : Qs.ok m e ∧ Same (Lib.next w e).disk (Qs.next m e) := by
  obtain ⟨o, r⟩ := e
  cases o with
  | load k =>
    cases r with
    | ok v => exact ⟨fun hk => (show v = w.disk k from hok).trans (h k hk), h⟩
    | error e => exact ⟨trivial, h⟩
  | store k v =>
    cases r with
    | ok a =>
      refine ⟨trivial, ?_⟩
      show Same (w.disk.upd k (some v)) (if _ then _ else _)
      split
      · exact h.upd k _
      · exact h.skip ‹_› _
    | error e => exact ⟨trivial, h⟩
  | delete k =>
    cases r with
    | ok a =>
      refine ⟨trivial, ?_⟩
      show Same (w.disk.upd k none) (if _ then _ else _)
      split
      · exact h.upd k _
      · exact h.skip ‹_› _
    | error e => exact ⟨trivial, h⟩
  | _ => exact ⟨trivial, h⟩

/-- What happens in storage happens to the queues. -/
theorem view {w w' : World} {t : List Ev} {m : Disk} (h : Same w.disk m) (hr : Lib.Runs w t w') : ∃ m', Qs.Runs m t m' ∧ Same w'.disk m' := by
  induction t generalizing w m with
  | nil => cases hr; exact ⟨m, rfl, h⟩
  | cons e t ih =>
    obtain ⟨h1, h2⟩ := step h hr.1
    obtain ⟨m', h3, h4⟩ := ih h2 hr.2
    exact ⟨m', ⟨h1, h3⟩, h4⟩

theorem queued_congr {m n : Disk} (h : Same m n) {x : Ns × Jid × DevId} : Queued m x ↔ Queued n x := by
  unfold Queued
  rw [h (.queue x.1) rfl, h (.queueJid x.1 x.2.1) rfl]

/-- The interaction has nothing to do with the queues. -/
def Off (o : Op) : Prop := ∀ k, o.key = some k → k.isQueue = false

theorem off_next {m : Disk} {e : Ev} (h : Off e.1) : Qs.ok m e ∧ Qs.next m e = m := by
  obtain ⟨o, r⟩ := e
  cases o with
  | load k =>
    cases r with
    | ok v => exact ⟨(fun hk => by rw [h k rfl] at hk; cases hk), rfl⟩
    | error e => exact ⟨trivial, rfl⟩
  | store k v =>
    cases r with
    | ok v => exact ⟨trivial, if_neg (by rw [h k rfl]; nofun)⟩
    | error e => exact ⟨trivial, rfl⟩
  | delete k =>
    cases r with
    | ok v => exact ⟨trivial, if_neg (by rw [h k rfl]; nofun)⟩
    | error e => exact ⟨trivial, rfl⟩
  | _ => exact ⟨trivial, rfl⟩

/-- The interaction leaves the queues as they are. -/
def Still (o : Op) : Prop := ∀ m r, Qs.next m ⟨o, r⟩ = m

theorem Off.still {o : Op} (h : Off o) : Still o := fun _ r => (off_next (e := ⟨o, r⟩) h).2

/-- In an interleaving with interactions that leave the queues as they are, the rest alone decides about the queues. -/
theorem thread {pre post : List (List Ev)} {u t : List Ev} (hs : Shuffle (pre ++ u :: post) t)
    (ho : ∀ v ∈ pre ++ post, ∀ e ∈ v, Still e.1) {m m' : Disk} (hr : Qs.Runs m t m') : Qs.Runs m u m' := by
  generalize hts : pre ++ u :: post = ts at hs
  induction hs generalizing pre post u m with
  | nil h =>
    subst hts
    rw [h u (by simp)]
    exact hr
  | @cons p q e v t hs ih =>
    obtain ⟨hok, hr⟩ := hr
    have hpq : ∀ (a b c d : List (List Ev)) (x y : List Ev), a ++ x :: b = c ++ y :: d →
        (a = c ∧ x = y ∧ b = d) ∨ (∃ k, a = c ++ y :: k ∧ d = k ++ x :: b) ∨ (∃ k, c = a ++ x :: k ∧ b = k ++ y :: d) := by
      intro a b c d x y h
      rcases List.append_eq_append_iff.1 h with ⟨k, h1, h2⟩ | ⟨k, h1, h2⟩
      · cases k with
        | nil => simp only [List.nil_append] at h2; cases h2; exact .inl ⟨by simpa using h1.symm, rfl, rfl⟩
        | cons z k => cases h2; exact .inr (.inr ⟨k, h1, rfl⟩)
      · cases k with
        | nil => simp only [List.nil_append] at h2; cases h2; exact .inl ⟨by simpa using h1, rfl, rfl⟩
        | cons z k => cases h2; exact .inr (.inl ⟨k, h1, rfl⟩)
    rcases hpq _ _ _ _ _ _ hts with ⟨rfl, rfl, rfl⟩ | ⟨k, rfl, rfl⟩ | ⟨k, rfl, rfl⟩
    · exact ⟨hok, ih ho hr rfl⟩
    · have hoff : Still e.1 := ho (e :: v) (by simp) e List.mem_cons_self
      rw [hoff m e.2] at hr
      refine ih (pre := p ++ v :: k) (post := post) (fun x hx e' he' => ?_) hr (by simp)
      simp only [List.append_assoc, List.cons_append, List.mem_append, List.mem_cons] at hx
      rcases hx with h | rfl | h | h
      · exact ho x (by simp [h]) e' he'
      · exact ho (e :: x) (by simp) e' (.tail _ he')
      · exact ho x (by simp [h]) e' he'
      · exact ho x (by simp [h]) e' he'
    · have hoff : Still e.1 := ho (e :: v) (by simp) e List.mem_cons_self
      rw [hoff m e.2] at hr
      refine ih (pre := pre) (post := k ++ v :: q) (fun x hx e' he' => ?_) hr (by simp)
      simp only [List.mem_append, List.mem_cons] at hx
      rcases hx with h | h | rfl | h
      · exact ho x (by simp [h]) e' he'
      · exact ho x (by simp [h]) e' he'
      · exact ho (e :: x) (by simp) e' (.tail _ he')
      · exact ho x (by simp [h]) e' he'

/-! ### Nothing is lost from the queues -/

theorem pres_off {α : Type} {I : Disk → Prop} {p : P α} (h : AllOps Off p) : Pres Qs I p :=
  Pres.ofOps h fun o ho w r _ hw => by rw [(off_next (e := ⟨o, r⟩) ho).2]; exact hw

theorem off_about {j : Jid} {o : Op} (h : Cmt.In (Cmt.About j) o) : Off o := by
  intro k hk
  have := h.2 k hk
  cases k <;> first | rfl | cases this

theorem off_none {o : Op} (h : Cmt.In (fun _ => False) o) : Off o := fun k hk => (h.2 k hk).elim

variable {M : Mgr}

theorem pres_queueEmpty (s : Session) (x : Ns × Jid × DevId) : Pres Qs (Queued · x) (queueEmpty M s) := by
  intro m hm
  have h1 : ∀ b, (∀ l, m (.queue s.ns) = some (.ofStrs l) → ∀ j ∈ l, j ∈ b) → Queued (m.upd (.queue s.ns) (some (.ofStrs b))) x := by
    intro b hb
    obtain ⟨⟨l, hl, hj⟩, h2⟩ := hm
    refine ⟨?_, by rw [Disk.upd_of_ne (fun h => by cases h)]; exact h2⟩
    by_cases hn : x.1 = s.ns
    · rw [hn] at hl ⊢
      exact ⟨b, Disk.upd_self, hb l hl _ hj⟩
    · rw [Disk.upd_of_ne (fun h => hn (Key.queue.inj h))]
      exact ⟨l, hl, hj⟩
  have h2 : ∀ (m : Disk) b, Queued m x → (∀ l, m (.queueJid s.ns s.bareJid) = some (.list l) → ∀ j ∈ l.map JVal.asInt, j ∈ b) →
      Queued (m.upd (.queueJid s.ns s.bareJid) (some (.ofInts b))) x := by
    intro m b hm hb
    obtain ⟨h2, ⟨l, hl, hj⟩⟩ := hm
    refine ⟨by rw [Disk.upd_of_ne (fun h => by cases h)]; exact h2, ?_⟩
    by_cases hn : x.1 = s.ns ∧ x.2.1 = s.bareJid
    · rw [hn.1, hn.2] at hl ⊢
      refine ⟨b.map .int, Disk.upd_self, ?_⟩
      have := hb l hl _ hj
      rw [List.map_map]
      exact List.mem_map.2 ⟨_, this, rfl⟩
    · rw [Disk.upd_of_ne (fun h => hn (by simpa using h))]
      exact ⟨l, hl, hj⟩
  have q_typed : ∀ {β : Type} {f : JVal → Except Exn β} {k : Key} (m : Disk) {Q : Option β → Disk → Prop}, k.isQueue = true → Queued m x →
      (m k = none → Q none m) → (∀ v b, m k = some v → f v = .ok b → Q (some b) m) →
      wp Qs (call (.load k) >>= fun v => Maybe.fmap f v) (ends Q fun _ => (Queued · x)) m := by
    intro β f k m Q hk hm h0 h
    rw [ends_bind]
    refine wp_perform.2 ⟨hm, fun v hv => ?_, fun e _ => hm⟩
    have hv : v = m k := hv hk
    show wp Qs (Maybe.fmap f v) _ m
    rw [wp_fmap]
    cases v with
    | none => exact h0 hv.symm
    | some v =>
      simp only [fmapRes]
      cases hf : f v with
      | error e => exact hm
      | ok b => exact h v b hv.symm hf
  suffices h : wp Qs (queueEmpty M s) (ends (fun _ => (Queued · x)) fun _ => (Queued · x)) m from wp_mono h fun r m' h => by cases r <;> exact h
  have fin : ∀ (m : Disk) (o : Option (List Int)), Queued m x → (∀ l, m (.queueJid s.ns s.bareJid) = some (.list l) → o = some (l.map JVal.asInt)) →
      wp Qs (call (.store (.queueJid s.ns s.bareJid) (.ofInts (M.O.iter (setAdd (dedup (Maybe.maybe o [])) s.deviceId)))))
        (ends (fun _ => (Queued · x)) fun _ => (Queued · x)) m := by
    intro m o hq ho
    refine wp_perform.2 ⟨hq, fun _ _ => ?_, fun e _ => hq⟩
    refine h2 m _ hq fun l hl j hj => ?_
    rw [ho l hl]
    simp only [SetOrder.mem_iter, mem_setAdd, Maybe.maybe, mem_dedup]
    first | exact .inl hj | exact .inr hj
  have go : ∀ o : Option (List String), (∀ l, m (.queue s.ns) = some (.ofStrs l) → o = some l) →
      wp Qs (do
        call (.store (.queue s.ns) (.ofStrs (M.O.iter (setAdd (dedup (Maybe.maybe o [])) s.bareJid))))
        let ids := dedup (Maybe.maybe (← Sto.loadInts (.queueJid s.ns s.bareJid)) [])
        call (.store (.queueJid s.ns s.bareJid) (.ofInts (M.O.iter (setAdd ids s.deviceId))))) (ends (fun _ => (Queued · x)) fun _ => (Queued · x)) m := by
    intro o ho
    rw [ends_bind]
    refine wp_perform.2 ⟨hm, fun _ _ => ?_, fun e _ => hm⟩
    have hq : Queued (m.upd (.queue s.ns) (some (.ofStrs (M.O.iter (setAdd (dedup (Maybe.maybe o [])) s.bareJid))))) x := by
      refine h1 _ fun l hl j hj => ?_
      rw [ho l hl]
      simp [mem_setAdd, Maybe.maybe, hj]
    show wp Qs _ _ (m.upd (.queue s.ns) (some (.ofStrs (M.O.iter (setAdd (dedup (Maybe.maybe o [])) s.bareJid)))))
    generalize m.upd (.queue s.ns) _ = m1 at hq
    rw [ends_bind]
    refine q_typed m1 rfl hq (fun h0 => fin m1 none hq fun l hl => by rw [h0] at hl; cases hl) fun v b hv hb => fin m1 _ hq fun l hl => ?_
    rw [hv] at hl
    cases hl
    obtain ⟨l', h3, rfl⟩ := ints_list hb
    cases h3
    rfl
  unfold queueEmpty
  rw [ends_bind]
  refine q_typed m rfl hm (fun h0 => go none fun l hl => by rw [h0] at hl; cases hl) fun v b hv hb => go _ fun l hl => ?_
  rw [hv] at hl
  cases hl
  have : (.ok l : Except Exn (List String)) = .ok b := (chkStrs_of l).symm.trans hb
  cases this
  rfl

theorem pres_decrypt (msg : Message) (x : Ns × Jid × DevId) : Pres Qs (Queued · x) (decrypt M msg) := by
  unfold decrypt
  refine (pres_off (.perform fun _ h => by cases h)).bind fun bs => ?_
  split
  · exact pres_off trivial
  · split
    · exact pres_off trivial
    · refine (pres_off ((Cmt.in_findSender M msg).mono fun _ => off_about)).bind fun dev => ?_
      refine (pres_off ((Cmt.in_content M msg dev _ _).mono fun _ => off_none)).bind fun y => ?_
      obtain ⟨pt, s, km⟩ := y
      refine Pres.bind ?_ fun _ => Pres.pure _
      unfold postDecrypt
      refine (pres_off (.perform fun _ h => by cases h)).bind fun _ => ?_
      refine (pres_off (.when fun _ => (Cmt.in_consume M msg.ns s).mono fun _ => off_none)).bind fun _ => ?_
      unfold autoReply Prog.when
      split
      · refine (pres_off (.perform fun _ h => by cases h)).bind fun b => ?_
        split
        · exact pres_queueEmpty s x
        · exact pres_off ((Cmt.in_send M msg.ns s).mono fun _ => off_none)
      · exact Pres.pure _

/-- Calls other than `decrypt` and `after_history_sync` leave the queues as they are. -/
theorem still_call (c : Call) (hc : c ≠ .afterHistorySync) (hdec : ¬ ∃ msg, c = .decrypt msg) (hd : c.asks → NoQueues M) :
    AllOps Still (c.run M) := by
  have key : ∃ K L : Key → Prop, (∀ ds i, AllOps (Wi K L) (M.decide ds i)) ∧ (c.asks → ∀ k, K k ∨ L k → k.isQueue = false) := by
    by_cases ha : c.asks
    · refine ⟨fun k => k.isQueue = false, fun k => k.isQueue = false, fun ds i => .of_exec (fun o => ⟨.error .keyError⟩) fun t r he e hm => ?_,
        fun _ k h => h.elim id id⟩
      obtain ⟨o, a⟩ := e
      cases o <;> first | trivial | exact hd ha ds i t r he _ ⟨_, hm, rfl⟩
    · exact ⟨fun _ => True, fun _ => True, fun ds i => .of_exec (fun o => ⟨.error .keyError⟩) fun t r he e hm => by
        obtain ⟨o, a⟩ := e; cases o <;> trivial, fun h => absurd h ha⟩
  obtain ⟨K, L, h1, h2⟩ := key
  have hl : ∀ {j k}, ListData j k → k.isQueue = false := by rintro j k (rfl | ⟨d, rfl | rfl | rfl⟩) <;> rfl
  have hi : ∀ {j k}, LookupData j k → k.isQueue = false := by rintro j k ⟨d, rfl | rfl⟩ <;> rfl
  have hs : ∀ k, MayStore M c k → k.isQueue = false := by
    intro k h
    cases c with
    | decrypt msg => exact absurd ⟨msg, rfl⟩ hdec
    | create =>
      rcases h with rfl | rfl | rfl | h | h | ⟨ik, rfl⟩ <;> first | rfl | exact hl h | exact hi h
    | encrypt => obtain ⟨j, -, h⟩ := h; exact hi h
    | getIdentityKeyPair => rcases h with rfl | rfl <;> rfl
    | purgeBackend => rcases h with h | rfl <;> first | rfl | exact hi h
    | setTrust | setOwnLabel => cases h; rfl
    | _ => first | exact hl h | exact hi h | exact h.elim
  have hdel : ∀ k, MayDelete c k → k.isQueue = false := by
    intro k h
    cases c with
    | purgeBareJid => rcases h with h | h | ⟨ik, rfl⟩ <;> first | rfl | exact hl h | exact hi h
    | afterHistorySync => exact absurd rfl hc
    | _ => exact h.elim
  refine (wi_call M K L h1 c).mono fun o ho m r => ?_
  cases o with
  | store k v =>
    have : k.isQueue = false := Or.elim ho (hs k) fun h => h2 h.1 k (.inl h.2)
    cases r with
    | ok a => exact if_neg (by rw [this]; nofun)
    | error e => rfl
  | delete k =>
    have : k.isQueue = false := Or.elim ho (hdel k) fun h => h2 h.1 k (.inr h.2)
    cases r with
    | ok a => exact if_neg (by rw [this]; nofun)
    | error e => rfl
  | _ => rfl

/-- Calls other than `after_history_sync` take nothing out of the queues. -/
theorem pres_call (c : Call) (hc : c ≠ .afterHistorySync) (hd : c.asks → NoQueues M) (x : Ns × Jid × DevId) : Pres Qs (Queued · x) (c.run M) := by
  by_cases hdec : ∃ msg, c = .decrypt msg
  · obtain ⟨msg, rfl⟩ := hdec
    exact (pres_decrypt msg x).bind fun _ => Pres.pure _
  · exact Pres.ofOps (still_call c hc hdec hd) fun o ho m r _ hm => by rw [ho m r]; exact hm

end Owe

/-- `decrypt` succeeded, and an empty message is due to device `x.2.2` of `x.2.1` in namespace `x.1`: the device of the session that gave the
key material. -/
def Spec.Owes (k : Running) (x : Ns × Jid × DevId) : Prop :=
  ∃ msg ekm kex s km, k.c = .decrypt msg ∧ k.res = .ok () ∧ keyForUs k.M msg = some (ekm, kex) ∧ (∃ g ∈ k.trace, GaveKM msg.ns g ekm s km) ∧
    ReplyDue kex s ∧ x = (s.ns, s.bareJid, s.deviceId)

namespace Owe

theorem gave_uses {ns ekm s km} {g : Ev} (h : GaveKM ns g ekm s km) : Op.usesSession g.1 = true := by
  rcases h with ⟨_, rfl⟩ | ⟨_, _, _, rfl⟩ <;> rfl

theorem gave_eq {ns ekm ekm' s s' km km'} {g : Ev} (h : GaveKM ns g ekm s km) (h' : GaveKM ns g ekm' s' km') : s = s' := by
  rcases h with ⟨_, rfl⟩ | ⟨_, _, _, rfl⟩ <;> rcases h' with ⟨_, h'⟩ | ⟨_, _, _, h'⟩ <;> cases h' <;> rfl

/-- What is owed has been queued or sent. -/
theorem owes_replied {k : Running} {x : Ns × Jid × DevId} (h : Owes k x) : ∃ ns s u rep, k.trace = u ++ rep ∧ Replied k.M ns s rep ∧ x = (s.ns, s.bareJid, s.deviceId) := by
  obtain ⟨msg, ekm, kex, s, km, hc, hres, hkey, ⟨g, hg, hgave⟩, hdue, hx⟩ := h
  obtain ⟨M, c, t, res, he⟩ := k
  simp only at hc hres hkey hg
  subst hc hres
  replace he := exec_seq_ok.1 he
  obtain ⟨t1, ⟨p, dev, km'⟩, t2, rfl, h1, h2⟩ := he
  obtain ⟨rfl, -⟩ := exec_pure.1 h2
  rw [List.append_nil] at *
  have honce := C41_once M msg t1 p dev km' h1
  obtain ⟨ekm', kex', s', pre, t2', t3, gu, rep, h⟩ := exec_decrypt_ok h1
  obtain ⟨g', hg', hgave'⟩ := h.keys.gave
  have hk := h.key
  rw [hkey] at hk
  cases hk
  have hmem' : g' ∈ t1 := by rw [h.eq]; simp [hg']
  obtain ⟨y, hy⟩ := List.length_eq_one_iff.1 honce
  have e1 : g ∈ t1.filter fun e => Op.usesSession e.1 := List.mem_filter.2 ⟨hg, gave_uses hgave⟩
  have e2 : g' ∈ t1.filter fun e => Op.usesSession e.1 := List.mem_filter.2 ⟨hmem', gave_uses hgave'⟩
  rw [hy, List.mem_singleton] at e1 e2
  subst e1 e2
  cases gave_eq hgave hgave'
  refine ⟨msg.ns, s, pre ++ (t2' ++ (t3 ++ (⟨.storeSession msg.ns s, .ok ()⟩ :: gu))), rep, ?_, (h.replied.resolve_right fun h' => h'.1 hdue).2, hx⟩
  show t1 ++ [] = _
  rw [List.append_nil, h.eq]; simp

theorem store_queue {m : Disk} {k : Key} {v : JVal} {a} (h : k.isQueue = true) : Qs.next m ⟨.store k v, .ok a⟩ = m.upd k (some v) := if_pos h
theorem load_queue {m : Disk} {k : Key} {a} : Qs.next m ⟨.load k, a⟩ = m := by cases a <;> rfl

/-- In synchronization mode it is in the queue. -/
theorem owes_queued {k : Running} {x : Ns × Jid × DevId} (h : Owes k x) {m m' : Disk} (hr : Qs.Runs m k.trace m')
    (hs : ∀ r, (⟨.getSync, r⟩ : Ev) ∈ k.trace → r = .ok true) : Queued m' x := by
  obtain ⟨ns, s, u, rep, ht, hrep, rfl⟩ := owes_replied h
  rw [ht] at hr hs
  obtain ⟨m1, -, hr⟩ := Sem.runs_append.1 hr
  cases hrep with
  | @queue o o' l l' h1 h2 _ _ _ _ =>
    obtain ⟨-, -, -, -, -, hr⟩ := hr
    cases hr
    refine ⟨⟨l, ?_, h1⟩, ⟨l'.map .int, ?_, ?_⟩⟩
    · rw [store_queue rfl, Disk.upd_of_ne (fun h => by cases h), load_queue, store_queue rfl, Disk.upd_self]
    · rw [store_queue rfl, Disk.upd_self]
      rfl
    · rw [List.map_map]
      exact List.mem_map.2 ⟨_, h2, rfl⟩
  | send =>
    cases hs _ (List.mem_append_right _ List.mem_cons_self)

/-- Calls of `decrypt`, one after the other. -/
theorem decs_queued {decs : List Running} (hd : ∀ k ∈ decs, ∃ msg, k.c = .decrypt msg) {m m' : Disk} (hr : Qs.Runs m (decs.map (·.trace)).flatten m')
    (hs : ∀ k ∈ decs, ∀ r, (⟨.getSync, r⟩ : Ev) ∈ k.trace → r = .ok true) :
    (∀ x, Queued m x → Queued m' x) ∧ ∀ k ∈ decs, ∀ x, Owes k x → Queued m' x := by
  induction decs generalizing m with
  | nil => cases hr; exact ⟨fun _ h => h, fun _ hm => absurd hm List.not_mem_nil⟩
  | cons k decs ih =>
    rw [List.map_cons, List.flatten_cons] at hr
    obtain ⟨m1, h1, h2⟩ := Sem.runs_append.1 hr
    obtain ⟨h3, h4⟩ := ih (fun k hk => hd k (.tail _ hk)) h2 fun k hk => hs k (.tail _ hk)
    obtain ⟨msg, hc⟩ := hd k List.mem_cons_self
    have hp := pres_call (M := k.M) k.c (by rw [hc]; nofun) (by rw [hc]; exact fun h => h.elim)
    refine ⟨fun x hx => h3 x ((hp x).run k.exec h1 hx), fun k' hk' x hx => ?_⟩
    rcases List.mem_cons.1 hk' with rfl | hk'
    · exact h3 x (owes_queued hx h1 (hs k' List.mem_cons_self))
    · exact h4 k' hk' x hx

end Owe

/-- C85: an empty message that falls due in synchronization mode is queued by the time `decrypt` returns. -/
theorem C85_queued {w w' : World} {k : Running} {x : Ns × Jid × DevId} (hs : w.sync = true) (hr : Lib.Runs w k.trace w') (ho : Owes k x) :
    Queued w'.disk x := by
  obtain ⟨m, h1, h2⟩ := Owe.view (m := w.disk) (fun _ _ => rfl) hr
  refine (Owe.queued_congr h2).2 (Owe.owes_queued ho h1 fun r hm => ?_)
  obtain ⟨msg, -, -, -, -, hc, -⟩ := ho
  have hst := Cmt.stay_call k.M true k.c (by rw [hc]; exact fun h => h) (by rw [hc]; exact fun h => h.elim) _ _ k.exec fun _ _ _ => rfl
  rw [Apt.getSync_of_runs (Cmt.keeps hst.1) hr hm, hs]

/-- It stays queued, whatever else is called before `after_history_sync`, and however this ends. -/
theorem C85_kept {w w' : World} {cs : List (Mgr × Call)} (hh : Hist Lib w cs w') (hc : ∀ c ∈ cs, c.2 ≠ .afterHistorySync)
    (hd : ∀ c ∈ cs, c.2.asks → NoQueues c.1) {x : Ns × Jid × DevId} (hq : Queued w.disk x) : Queued w'.disk x := by
  induction hh with
  | nil => exact hq
  | cons he hr _ ih =>
    refine ih (fun c h => hc c (.tail _ h)) (fun c h => hd c (.tail _ h)) ?_
    obtain ⟨m, h1, h2⟩ := Owe.view (fun _ _ => rfl) hr
    exact (Owe.queued_congr h2).2 ((Owe.pres_call _ (hc _ List.mem_cons_self) (hd _ List.mem_cons_self) x).run he h1 hq)

namespace Owe
theorem replies_split {M : Mgr} {xs : List (Ns × Jid × DevId)} {t : List Ev} (h : Replies M xs t) {x : Ns × Jid × DevId} (hx : x ∈ xs) :
    ∃ u l v, t = u ++ l ++ v ∧ Reply M x l := by
  induction h with
  | nil => cases hx
  | @snoc xs t y l h1 h2 ih =>
    rw [List.mem_append, List.mem_singleton] at hx
    rcases hx with hx | rfl
    · obtain ⟨u, l', v, rfl, h3⟩ := ih hx
      exact ⟨u, l', v ++ l, by simp, h3⟩
    · exact ⟨t, l, [], by simp, h2⟩
end Owe

/-- C85: if an empty message falls due in synchronization mode, then, whatever else is called until then, when `after_history_sync` has
succeeded with the backend loaded, the message has been sent: unless there is no session any more, it was encrypted with the stored session and
sent to the JID of the session, and the session was stored.  It is not queued any more. -/
theorem C85 {w w1 w2 w3 : World} {k : Running} {cs : List (Mgr × Call)} {x : Ns × Jid × DevId} {M : Mgr} {t : List Ev}
    (hs : w.sync = true) (hr : Lib.Runs w k.trace w1) (ho : Owes k x) (hh : Hist Lib w1 cs w2) (hc : ∀ c ∈ cs, c.2 ≠ .afterHistorySync)
    (hd : ∀ c ∈ cs, c.2.asks → NoQueues c.1) (he : Exec (afterHistorySync M) t (.ok ())) (hr' : Lib.Runs w2 t w3) (hb : x.1 ∈ w2.backends) :
    (∃ u l v, (t.filter fun e => e.1.isExternal) = u ++ l ++ v ∧ Reply M x l) ∧ ¬ Queued w3.disk x := by
  have hq := C85_kept hh hc hd (C85_queued hs hr ho)
  obtain ⟨xs, l, -, h2, h3, h4, h5, -⟩ := C48_queues M w2 w3 t he hr'
  obtain ⟨u, l', v, rfl, h6⟩ := Owe.replies_split h3 ((h2 x).2 ⟨hb, hq⟩)
  refine ⟨⟨_, l', v, by rw [h4, ← List.append_assoc, ← List.append_assoc], h6⟩, fun h => ?_⟩
  obtain ⟨⟨l, h, -⟩, -⟩ := h
  rw [h5 _ ⟨_, hb, .inl rfl⟩] at h
  cases h

/-- C86, for calls that overlap: what falls due in synchronization mode is queued in the end. -/
def C86_Claim : Prop :=
  ∀ (cs : List (Mgr × Call)) (w w' : World) (calls : List Running) (t : List Ev), Hist Lib World.fresh cs w → w.sync = true →
    (∀ k ∈ calls, ¬ k.c.modal ∧ (k.c.asks → Discreet k.M)) → Shuffle (calls.map (·.trace)) t → Lib.Runs w t w' →
    (∀ x, Queued w.disk x → Queued w'.disk x) ∧ ∀ k ∈ calls, ∀ x, Owes k x → Queued w'.disk x

/-- C86 holds if messages are decrypted one after the other, whatever other calls overlap with this.  Missing: calls of `decrypt` that overlap. -/
theorem C86_partial {w w' : World} {decs others : List Running} {t : List Ev} (hs : w.sync = true)
    (hdec : ∀ k ∈ decs, ∃ msg, k.c = .decrypt msg) (hoth : ∀ k ∈ others, ¬ k.c.modal ∧ (k.c.asks → Discreet k.M) ∧ ∀ msg, k.c ≠ .decrypt msg)
    (hsh : Shuffle ((decs.map (·.trace)).flatten :: others.map (·.trace)) t) (hr : Lib.Runs w t w') :
    (∀ x, Queued w.disk x → Queued w'.disk x) ∧ ∀ k ∈ decs, ∀ x, Owes k x → Queued w'.disk x := by
  have hin : ∀ k ∈ others, ∀ e ∈ k.trace, Cmt.In (Domain k.M true k.c) e.1 := fun k hk =>
    (Cmt.stay_call k.M true k.c (hoth k hk).1 (hoth k hk).2.1 _ _ k.exec fun _ _ _ => rfl).1
  have hind : ∀ k ∈ decs, ∀ e ∈ k.trace, Cmt.In (Domain k.M true k.c) e.1 := fun k hk => by
    obtain ⟨msg, hc⟩ := hdec k hk
    exact (Cmt.stay_call k.M true k.c (by rw [hc]; exact fun h => h) (by rw [hc]; exact fun h => h.elim) _ _ k.exec fun _ _ _ => rfl).1
  have hf : KeepsFields t := by
    refine Apt.keeps_of_shuffle hsh fun u hu => ?_
    rcases List.mem_cons.1 hu with rfl | hu
    · intro e he
      obtain ⟨v, hv, he⟩ := List.mem_flatten.1 he
      obtain ⟨k, hk, rfl⟩ := List.mem_map.1 hv
      exact (hind k hk e he).1
    · obtain ⟨k, hk, rfl⟩ := List.mem_map.1 hu
      exact Cmt.keeps (hin k hk)
  have hoff : ∀ k ∈ others, ∀ e ∈ k.trace, Owe.Off e.1 := by
    intro k hk e he key hkey
    have h := (hin k hk e he).2 key hkey
    obtain ⟨h1, -, h3⟩ := hoth k hk
    cases hc : k.c <;> rw [hc] at h h1 h3 <;> first
      | exact absurd trivial h1
      | exact absurd rfl (h3 _)
      | (rcases h with rfl | rfl <;> rfl)
      | exact h.elim
      | (cases h; rfl)
      | (obtain ⟨j, -, h⟩ := h; cases key <;> first | rfl | cases h)
      | (cases key <;> first | rfl | cases h)
  obtain ⟨m, h1, h2⟩ := Owe.view (m := w.disk) (fun _ _ => rfl) hr
  have h3 := Owe.thread (pre := []) hsh (fun v hv e he => by
    obtain ⟨k, hk, rfl⟩ := List.mem_map.1 hv
    exact (hoff k hk e he).still) h1
  obtain ⟨h4, h5⟩ := Owe.decs_queued hdec h3 fun k hk r hm => by
    rw [Apt.getSync_of_runs hf hr ((hsh.mem_iff _).2 ⟨_, List.mem_cons_self, List.mem_flatten.2 ⟨_, List.mem_map_of_mem hk, hm⟩⟩), hs]
  exact ⟨fun x hx => (Owe.queued_congr h2).2 (h4 x hx), fun k hk x hx => (Owe.queued_congr h2).2 (h5 k hk x hx)⟩


/-- Two messages from new devices are decrypted at the same time. -/
def pairRun := sched (Lib.env chatty) Lib.next ((List.replicate 60 [0, 1]).flatten)
  [(Call.decrypt (firstMessage "o" 7)).run Mgr.ex, (Call.decrypt (firstMessage "o" 8)).run Mgr.ex] World.met4

/-- A session with device `d` was built for its message. -/
def Owe.builds (d : DevId) (e : Ev) : Bool := match e with
  | ⟨.buildPassive ns _ _ _ ekm, .ok (s, _)⟩ => decide (ns = "o" ∧ ekm = ⟨"me", 1, 3⟩ ∧ s.ns = "o" ∧ s.bareJid = "a" ∧ s.deviceId = d)
  | _ => false

theorem Owe.owes {d : DevId} {t : List Ev} (he : Exec ((Call.decrypt (firstMessage "o" d)).run Mgr.ex) t (.ok ())) (hb : t.any (Owe.builds d) = true) :
    Owes ⟨Mgr.ex, _, t, _, he⟩ ("o", "a", d) := by
  obtain ⟨⟨o, r⟩, hm, h⟩ := List.any_eq_true.1 hb
  cases o <;> simp only [Owe.builds] at h <;> try (cases h; done)
  rename_i ns j d' x ekm
  cases r with
  | error e => cases h
  | ok y =>
    obtain ⟨s, km⟩ := y
    obtain ⟨rfl, rfl, h1, h2, h3⟩ := of_decide_eq_true h
    refine ⟨_, _, _, s, km, rfl, rfl, rfl, ⟨_, hm, .inr ⟨_, _, _, rfl⟩⟩, .inl rfl, ?_⟩
    rw [h1, h2, h3]

/-- C86 is false of the code: both calls load the queue before either of them stores it, and one of the messages is not queued. -/
theorem C86_refuted : ¬ C86_Claim := by
  intro h
  have hx := sched_ok Lib (Lib.env chatty) (Lib.env_ok chatty chatty_ok) ((List.replicate 60 [0, 1]).flatten)
    [(Call.decrypt (firstMessage "o" 7)).run Mgr.ex, (Call.decrypt (firstMessage "o" 8)).run Mgr.ex] World.met4
  have c1 : pairRun.2.1[0]?.any (Prog.isOk fun _ => true) = true := by decide +kernel
  have c2 : pairRun.2.1[1]?.any (Prog.isOk fun _ => true) = true := by decide +kernel
  have c3 : (match pairRun.2.2.2.disk (.queueJid "o" "a") with | some (.list l) => !(l.map JVal.asInt).contains 7 | _ => false) = true := by decide +kernel
  have c4 : (pairRun.1[0]?.any fun t => t.any (Owe.builds 7)) = true := by decide +kernel
  change SchedOk Lib _ _ pairRun at hx
  generalize pairRun = x at hx c1 c2 c3 c4
  obtain ⟨ts, y, t, w'⟩ := x
  obtain ⟨t1, t2, rfl⟩ := list2 (l := ts) hx.len
  obtain ⟨_, e1, -⟩ := hx.isOk 0 rfl rfl _ c1
  obtain ⟨_, e2, -⟩ := hx.isOk 1 rfl rfl _ c2
  obtain ⟨cs, hh⟩ := World.met2_hist
  have hq := (h _ _ w' [⟨Mgr.ex, .decrypt (firstMessage "o" 7), _, _, e1⟩, ⟨Mgr.ex, .decrypt (firstMessage "o" 8), _, _, e2⟩] t
    (Friendly.genuine.hist hh Mgr.ex (.updateDeviceList "o" "a" [(7, some "x"), (8, none)])) (by decide +kernel) (fun k hk => by
      simp only [List.mem_cons, List.not_mem_nil, or_false] at hk
      rcases hk with rfl | rfl <;> exact ⟨fun h => h, fun h => h.elim⟩) hx.shuffle hx.runs).2 _ List.mem_cons_self ("o", "a", 7) (Owe.owes e1 c4)
  obtain ⟨-, l, h1, h2⟩ := hq
  rw [show w'.disk (.queueJid "o" "a") = _ from h1] at c3
  simp only [Bool.not_eq_true', List.contains_eq_mem, decide_eq_false_iff_not] at c3
  exact c3 h2

/-- A message is received during history synchronization, then others, and then the mode is left: the hypotheses of C85 are met, and the reply is
sent. -/
theorem C85_example : ∃ (k : Running) (cs : List (Mgr × Call)) (w w1 w2 w3 : World) (t : List Ev), w.sync = true ∧ Lib.Runs w k.trace w1 ∧
    Owes k ("o", "a", 7) ∧ Hist Lib w1 cs w2 ∧ (∀ c ∈ cs, c.2 ≠ .afterHistorySync) ∧ cs.length = 2 ∧ (∀ c ∈ cs, c.2.asks → NoQueues c.1) ∧
    Exec (afterHistorySync Mgr.ex) t (.ok ()) ∧ Lib.Runs w2 t w3 ∧ "o" ∈ w2.backends ∧ t.any isSent = true := by
  have hres : (Friendly.chatty.run ((Call.decrypt (firstMessage "o" 7)).run Mgr.ex) World.met4).2.1 = .ok () := by decide +kernel
  have he := hres ▸ Friendly.chatty.exec ((Call.decrypt (firstMessage "o" 7)).run Mgr.ex) World.met4
  have hb : (Friendly.chatty.run ((Call.decrypt (firstMessage "o" 7)).run Mgr.ex) World.met4).1.any (Owe.builds 7) = true := by decide +kernel
  refine ⟨⟨_, _, _, _, he⟩, _, World.met4, World.inbox1, World.inbox, _, leaveRun'.1, by decide +kernel, Friendly.chatty.runs _ _, Owe.owes he hb,
    Friendly.chatty.hist (Friendly.chatty.hist (.nil _) Mgr.ex (.decrypt (firstMessage "o" 8))) Mgr.ex (.decrypt (firstMessage "n" 8)), ?_, rfl, ?_,
    leaveRun'_exec, leaveRun'_runs, by decide +kernel, by decide +kernel⟩
  · intro c hc
    simp only [List.nil_append, List.cons_append, List.mem_cons, List.not_mem_nil, or_false] at hc
    rcases hc with rfl | rfl <;> nofun
  · intro c hc
    simp only [List.nil_append, List.cons_append, List.mem_cons, List.not_mem_nil, or_false] at hc
    rcases hc with rfl | rfl <;> exact fun h => h.elim

/-- A message is decrypted in synchronization mode while a device list of another account is updated. -/
theorem C86_example : ∃ (k k' : Running) (t : List Ev) (w' : World), k.c = .decrypt (firstMessage "o" 7) ∧ Owes k ("o", "a", 7) ∧
    k'.c = .updateDeviceList "n" "b" [(1, none)] ∧ World.met4.sync = true ∧
    Shuffle (([k].map (·.trace)).flatten :: [k'].map (·.trace)) t ∧ Lib.Runs World.met4 t w' ∧ Queued w'.disk ("o", "a", 7) := by
  let ps : List (P Unit) := [(Call.decrypt (firstMessage "o" 7)).run Mgr.ex, (Call.updateDeviceList "n" "b" [(1, none)]).run Mgr.ex]
  let is := (List.replicate 60 [0, 1]).flatten
  have hx := sched_ok Lib (Lib.env chatty) (Lib.env_ok chatty chatty_ok) is ps World.met4
  have c1 : (sched (Lib.env chatty) Lib.next is ps World.met4).2.1[0]?.any (Prog.isOk fun _ => true) = true := by decide +kernel
  have c2 : (sched (Lib.env chatty) Lib.next is ps World.met4).2.1[1]?.any (Prog.isOk fun _ => true) = true := by decide +kernel
  have c4 : ((sched (Lib.env chatty) Lib.next is ps World.met4).1[0]?.any fun t => t.any (Owe.builds 7)) = true := by decide +kernel
  generalize sched (Lib.env chatty) Lib.next is ps World.met4 = x at hx c1 c2 c4
  obtain ⟨ts, y, t, w'⟩ := x
  obtain ⟨t1, t2, rfl⟩ := list2 (l := ts) hx.len
  obtain ⟨_, e1, -⟩ := hx.isOk 0 rfl rfl _ c1
  obtain ⟨_, e2, -⟩ := hx.isOk 1 rfl rfl _ c2
  have ho := Owe.owes e1 c4
  have hsync : World.met4.sync = true := by decide +kernel
  have hsh : Shuffle (([(⟨Mgr.ex, .decrypt (firstMessage "o" 7), _, _, e1⟩ : Running)].map (·.trace)).flatten ::
      [(⟨Mgr.ex, .updateDeviceList "n" "b" [(1, none)], _, _, e2⟩ : Running)].map (·.trace)) t := by
    simpa using hx.shuffle
  refine ⟨_, ⟨Mgr.ex, .updateDeviceList "n" "b" [(1, none)], _, _, e2⟩, t, w', rfl, ho, rfl, hsync, hsh, hx.runs, ?_⟩
  refine (C86_partial hsync (fun k hk => ?_) (fun k hk => ?_) hsh hx.runs).2 _ (List.mem_singleton.2 rfl) _ ho
  · cases List.mem_singleton.1 hk
    exact ⟨_, rfl⟩
  · cases List.mem_singleton.1 hk
    exact ⟨fun h => h, fun h => h.elim, nofun⟩

end Verif
