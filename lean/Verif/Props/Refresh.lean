import Verif.Props.Info
import Verif.Props.Decrypt
/-
When `decrypt` asks the server for the device list of the sender (C81).
-/
namespace Verif
open Spec SM Foot

/-- A download of a device list. -/
def Op.getsList : Op → Bool
  | .downloadList _ _ => true
  | _ => false

namespace SM
variable {M : Mgr} {msg : Message}

theorem noList_count {t : List Ev} (h : ∀ e ∈ t, Op.getsList e.1 = false) : t.countP (fun e => Op.getsList e.1) = 0 := by
  rw [List.countP_eq_zero]
  intro e he
  simp [h e he]

theorem noList_info {jid} {t : List Ev} {r} (h : Exec (getDeviceInformation M jid) t r) : ∀ e ∈ t, Op.getsList e.1 = false := fun e he => by
  have := (ops_getDeviceInformation M jid).exec h e he
  generalize e.1 = o at this
  cases this <;> rfl

theorem noList_update {ns jid dl} {t : List Ev} {r} (h : Exec (updateDeviceList M ns jid dl) t r) : ∀ e ∈ t, Op.getsList e.1 = false := fun e he => by
  have := (ops_updateDeviceList M ns jid dl).exec h e he
  generalize e.1 = o at this
  cases this <;> rfl

theorem noList_rest (dev ekm kex) : AllOps (fun o => Op.getsList o = false)
    (decryptContent M msg dev ekm kex >>= fun x => postDecrypt M msg.ns kex x.2.1 >>= fun _ => pure (x.1, dev, x.2.2)) := by
  have h3 : ∀ s, AllOps (fun o => Op.getsList o = false) (sendEmptyMessage M msg.ns s) := fun s =>
    (ops_sendEmptyMessage M msg.ns s).mono fun o h => by cases h <;> rfl
  generalize hφ : (fun o => Op.getsList o = false) = φ at *
  unfold decryptContent keyMaterial plaintextOf decryptKeyMaterial handleKeyExchange postDecrypt
    consumePreKey discardPreKey refillPreKeys autoReply queueEmpty
  lib_ops [h3]
  all_goals subst hφ; rfl

theorem pick_none {d : DevId} {devs : List DeviceInfo} (h : pickDevice M d devs = none) : ∀ dev ∈ devs, dev.deviceId ≠ d := by
  intro dev hd he
  have := List.find?_eq_none.1 h dev (SetOrder.mem_iter.2 hd)
  simp [he] at this

/-- Nothing that was called raised `SenderNotFound`. -/
def NoneRaised (t : List Ev) : Prop := ∀ x ∈ t, ∀ y, x.2 = .error y → y ≠ .senderNotFound

theorem core_sender : Core (· ≠ .senderNotFound) := by constructor <;> exact nofun

theorem sender_info {jid} {t : List Ev} (h : Exec (getDeviceInformation M jid) t (.raised .senderNotFound)) : ¬ NoneRaised t := fun hn =>
  (raises_getDeviceInformation (χ := fun _ y => y ≠ .senderNotFound) core_sender (fun _ _ h => h) jid).exec h hn rfl

theorem sender_refresh {ns jid} {t : List Ev} (h : Exec (refreshDeviceList M ns jid) t (.raised .senderNotFound)) : ¬ NoneRaised t := fun hn =>
  (raises_refreshDeviceList (χ := fun _ y => y ≠ .senderNotFound) core_sender (fun _ _ h => h) nofun nofun ns jid).exec h hn rfl

theorem raises_rest {χ : Op → Exn → Prop} {ρ : Exn → Prop} (hb : Core ρ) (h : ∀ o e, χ o e → ρ e) (h1 : ρ .senderDistrusted) (h2 : ρ .noSession)
    (h3 : ρ .publicDataInconsistency) (dev ekm kex) : Raises (S := LibSig) χ ρ (decryptContent M msg dev ekm kex >>= fun x =>
      postDecrypt M msg.ns kex x.2.1 >>= fun _ => pure (x.1, dev, x.2.2)) := by
  have g3 := @raises_sendEmptyMessage χ ρ M h
  unfold decryptContent keyMaterial decryptKeyMaterial handleKeyExchange plaintextOf postDecrypt consumePreKey discardPreKey
    autoReply queueEmpty refillPreKeys
  lib_raises hb, [g3]
  all_goals first | exact h _ _ (by assumption) | assumption

theorem sender_rest {dev ekm kex} {t : List Ev} (h : Exec (decryptContent M msg dev ekm kex >>= fun x => postDecrypt M msg.ns kex x.2.1 >>= fun _ =>
    pure (x.1, dev, x.2.2)) t (.raised .senderNotFound)) : ¬ NoneRaised t := fun hn =>
  (raises_rest (χ := fun _ y => y ≠ .senderNotFound) core_sender (fun _ _ h => h) nofun nofun nofun dev ekm kex).exec h hn rfl

/-- What `decrypt` does about device lists. -/
inductive ListRun (M : Mgr) (msg : Message) {α : Type} : List Ev → Res Exn α → Prop where
  | known {t r} (h : ∀ e ∈ t, Op.getsList e.1 = false) (hr : r = .raised .senderNotFound → ¬ NoneRaised t) : ListRun M msg t r
  | failed {t1 devs a t2 r} (h1 : Exec (getDeviceInformation M msg.bareJid) t1 (.ok devs)) (hd : ∀ dev ∈ devs, dev.deviceId ≠ msg.deviceId)
      (h2 : ∀ e ∈ t2, Op.getsList e.1 = false) (hr : r = .raised .senderNotFound → ¬ NoneRaised (t1 ++ ⟨.downloadList msg.ns msg.bareJid, a⟩ :: t2)) :
      ListRun M msg (t1 ++ ⟨.downloadList msg.ns msg.bareJid, a⟩ :: t2) r
  | missing {t1 devs l t2 t3 devs'} (h1 : Exec (getDeviceInformation M msg.bareJid) t1 (.ok devs)) (hd : ∀ dev ∈ devs, dev.deviceId ≠ msg.deviceId)
      (h2 : ∀ e ∈ t2, Op.getsList e.1 = false) (h3 : Exec (getDeviceInformation M msg.bareJid) t3 (.ok devs'))
      (hd' : ∀ dev ∈ devs', dev.deviceId ≠ msg.deviceId) :
      ListRun M msg (t1 ++ ⟨.downloadList msg.ns msg.bareJid, .ok l⟩ :: (t2 ++ t3)) (.raised .senderNotFound)

theorem NoneRaised.left {t t' : List Ev} (h : NoneRaised (t ++ t')) : NoneRaised t := fun x hx => h x (by simp [hx])
theorem NoneRaised.right {t t' : List Ev} (h : NoneRaised (t ++ t')) : NoneRaised t' := fun x hx => h x (by simp [hx])

theorem listRun_findSender {t : List Ev} {r} (h : Exec (findSender M msg) t r) : ListRun M msg t r := by
  unfold findSender at h
  rcases exec_seq.1 h with ⟨t1, devs, t2, rfl, h1, h2⟩ | ⟨e, h1, rfl⟩ | ⟨h1, rfl⟩
  rotate_left
  · exact .known (noList_info h1) fun hr => by cases hr; exact sender_info h1
  · exact .known (noList_info h1) nofun
  cases hp : pickDevice M msg.deviceId devs with
  | some dev =>
    simp only [hp] at h2
    obtain ⟨rfl, rfl⟩ := exec_pure.1 h2
    exact .known (by simpa using noList_info h1) nofun
  | none =>
    simp only [hp] at h2
    have hd := pick_none hp
    clear hp h
    rcases exec_seq.1 h2 with ⟨t3, _, t4, rfl, h3, h4⟩ | ⟨e, h3, rfl⟩ | ⟨h3, rfl⟩
    · unfold refreshDeviceList at h3
      obtain ⟨l, t5, rfl, h5⟩ := exec_call_bind_ok.1 h3
      rcases exec_seq.1 h4 with ⟨t6, devs', t7, rfl, h6, h7⟩ | ⟨e, h6, rfl⟩ | ⟨h6, rfl⟩
      · cases hp' : pickDevice M msg.deviceId devs' with
        | some dev =>
          simp only [hp'] at h7
          obtain ⟨rfl, rfl⟩ := exec_pure.1 h7
          refine .failed h1 hd (fun e he => ?_) nofun
          simp only [List.append_nil, List.append_eq, List.mem_append] at he
          exact he.elim (noList_update h5 e) (noList_info h6 e)
        | none =>
          simp only [hp'] at h7
          obtain ⟨rfl, rfl⟩ := exec_throw.1 h7
          simpa using ListRun.missing (l := l) h1 hd (noList_update h5) h6 (pick_none hp')
      · refine .failed h1 hd (fun e he => ?_) fun hr hn => ?_
        · simp only [List.append_eq, List.mem_append] at he
          exact he.elim (noList_update h5 e) (noList_info h6 e)
        · cases hr
          exact sender_info h6 fun x hx => hn x (by simp [hx])
      · refine .failed h1 hd (fun e he => ?_) nofun
        simp only [List.append_eq, List.mem_append] at he
        exact he.elim (noList_update h5 e) (noList_info h6 e)
    · have h3' := h3
      unfold refreshDeviceList at h3
      rcases exec_call_bind.1 h3 with ⟨rfl, hr⟩ | ⟨e', rfl, hr⟩ | ⟨l, t5, rfl, h5⟩
      · cases hr
      · exact .failed h1 hd (by simp) fun hr hn => by cases hr; exact sender_refresh h3' hn.right
      · exact .failed h1 hd (noList_update h5) fun hr hn => by cases hr; exact sender_refresh h3' hn.right
    · unfold refreshDeviceList at h3
      rcases exec_call_bind.1 h3 with ⟨rfl, hr⟩ | ⟨e, rfl, hr⟩ | ⟨l, t5, rfl, h5⟩
      · exact .known (by simpa using noList_info h1) nofun
      · cases hr
      · exact .failed h1 hd (noList_update h5) nofun

theorem listRun_decrypt {t : List Ev} {r} (h : Exec (decrypt M msg) t r) :
    (t = [] ∧ r = .crashed) ∨ (∃ e, t = [⟨.getBackends, .error e⟩] ∧ r = .raised e) ∨
      ∃ bs t', t = ⟨.getBackends, .ok bs⟩ :: t' ∧ ListRun M msg t' r := by
  unfold decrypt at h
  replace h := exec_call_bind.1 h; rcases h with h | h | ⟨bs, t', rfl, h⟩
  · exact .inl h
  · exact .inr (.inl h)
  refine .inr (.inr ⟨bs, t', rfl, ?_⟩)
  split at h
  · obtain ⟨rfl, rfl⟩ := exec_throw.1 h
    exact .known (by simp) (by simp)
  split at h
  · obtain ⟨rfl, rfl⟩ := exec_throw.1 h
    exact .known (by simp) (by simp)
  rename_i ekm kex hk
  rcases exec_seq.1 h with ⟨t1, dev, t2, rfl, h1, h2⟩ | ⟨e, h1, rfl⟩ | ⟨h1, rfl⟩
  · have hn := (noList_rest (M := M) (msg := msg) dev ekm kex).exec h2
    have hs : r = .raised .senderNotFound → ¬ NoneRaised t2 := fun hr => sender_rest (hr ▸ h2)
    cases listRun_findSender h1 with
    | known h hr => exact .known (fun e he => (List.mem_append.1 he).elim (h e) (hn e)) fun hr hx => hs hr hx.right
    | @failed s1 devs a s2 _ g1 gd g2 hr =>
      rw [List.append_assoc, List.cons_append]
      exact .failed g1 gd (fun e he => (List.mem_append.1 he).elim (g2 e) (hn e)) fun hr hx =>
        hs hr fun x hm => hx x (by simp [hm])
  · cases listRun_findSender h1 with
    | known h hr => exact .known h fun he => hr (by cases he; rfl)
    | failed g1 gd g2 hr => exact .failed g1 gd g2 fun he => hr (by cases he; rfl)
    | missing g1 gd g2 g3 gd' => exact .missing g1 gd g2 g3 gd'
  · cases listRun_findSender h1 with
    | known h hr => exact .known h nofun
    | failed g1 gd g2 hr => exact .failed g1 gd g2 nofun

end SM

/-- The device is not known: it is not on the stored device list, or its identity key is not stored and could not be obtained. -/
def Spec.NotFound (m : Disk) (s : List Ev) (j : Jid) (d : DevId) : Prop := ¬ Known m j d ∨ NoKey j m s d

/-- C81: `decrypt` downloads at most one device list, the one of the sender for the backend of the message. -/
theorem C81_once (M : Mgr) (msg : Message) (t : List Ev) (r) (he : Exec (decrypt M msg) t r) :
    t.countP (fun e => Op.getsList e.1) ≤ 1 ∧ ∀ e ∈ t, Op.getsList e.1 = true → e.1 = .downloadList msg.ns msg.bareJid := by
  rcases listRun_decrypt he with ⟨rfl, -⟩ | ⟨e, rfl, -⟩ | ⟨bs, t', rfl, h⟩
  · exact ⟨by simp, by simp⟩
  · exact ⟨by simp [Op.getsList], by simp [Op.getsList]⟩
  rw [List.countP_cons_of_neg (by simp [Op.getsList])]
  suffices h : t'.countP (fun e => Op.getsList e.1) ≤ 1 ∧ ∀ e ∈ t', Op.getsList e.1 = true → e.1 = .downloadList msg.ns msg.bareJid by
    refine ⟨h.1, fun e hm hg => ?_⟩
    rcases List.mem_cons.1 hm with rfl | hm
    · cases hg
    · exact h.2 e hm hg
  have fin : ∀ {t1 a t2}, (∀ e ∈ t1, Op.getsList e.1 = false) → (∀ e ∈ t2, Op.getsList e.1 = false) →
      (t1 ++ (⟨.downloadList msg.ns msg.bareJid, a⟩ : Ev) :: t2).countP (fun e => Op.getsList e.1) ≤ 1 ∧
        ∀ e ∈ t1 ++ (⟨.downloadList msg.ns msg.bareJid, a⟩ : Ev) :: t2, Op.getsList e.1 = true → e.1 = .downloadList msg.ns msg.bareJid := by
    intro t1 a t2 h1 h2
    refine ⟨?_, fun e hm hg => ?_⟩
    · rw [List.countP_append, List.countP_cons, noList_count h1, noList_count h2]
      split <;> simp
    · rcases List.mem_append.1 hm with hm | hm
      · rw [h1 e hm] at hg; cases hg
      rcases List.mem_cons.1 hm with rfl | hm
      · rfl
      · rw [h2 e hm] at hg; cases hg
  cases h with
  | known h _ => exact ⟨by rw [noList_count h]; exact Nat.zero_le _, fun e hm hg => by rw [h e hm] at hg; cases hg⟩
  | failed g1 gd g2 _ => exact fin (noList_info g1) g2
  | missing g1 gd g2 g3 gd' => exact fin (noList_info g1) fun e hm => (List.mem_append.1 hm).elim (g2 e) (noList_info g3 e)

theorem notFound_info {M : Mgr} {jid d} {t : List Ev} {w w' : World} {devs} (he : Exec (getDeviceInformation M jid) t (.ok devs))
    (hr : Lib.Runs w t w') (hd : ∀ dev ∈ devs, dev.deviceId ≠ d) : NotFound w.disk t jid d := by
  by_cases hk : Known w.disk jid d
  · rcases (C21_exact M jid t w w' devs he hr).2.2 d hk with ⟨dev, hm, h⟩ | h
    · exact absurd h (hd dev hm)
    · exact .inr h
  · exact .inl hk

theorem split_unique {α : Type} (p : α → Bool) {l1 l2 m1 m2 : List α} {a b : α} (h1 : ∀ x ∈ l1, p x = false) (h2 : ∀ x ∈ l2, p x = false)
    (hb : p b = true) (h : l1 ++ a :: l2 = m1 ++ b :: m2) : l1 = m1 := by
  induction l1 generalizing m1 with
  | nil =>
    cases m1 with
    | nil => rfl
    | cons x m1 =>
      simp only [List.nil_append, List.cons_append, List.cons.injEq] at h
      rw [h2 b (h.2 ▸ by simp)] at hb
      cases hb
  | cons y l1 ih =>
    cases m1 with
    | nil =>
      simp only [List.nil_append, List.cons_append, List.cons.injEq] at h
      rw [← h.1, h1 y (by simp)] at hb
      cases hb
    | cons x m1 =>
      simp only [List.cons_append, List.cons.injEq] at h
      rw [h.1, ih (fun x hx => h1 x (by simp [hx])) h.2]

/-- It does so only if it does not find the sender in what is stored. -/
theorem C81 (M : Mgr) (msg : Message) (t : List Ev) (r) (w w' : World) (he : Exec (decrypt M msg) t r) (hr : Lib.Runs w t w')
    (h : List Ev) (e : Ev) (h' : List Ev) (ht : t = h ++ e :: h') (hg : Op.getsList e.1 = true) :
    NotFound w.disk h msg.bareJid msg.deviceId := by
  subst ht
  rcases listRun_decrypt he with ⟨h0, -⟩ | ⟨x, h0, -⟩ | ⟨bs, t', h0, hl⟩
  · simp at h0
  · have hm : e ∈ [(⟨.getBackends, .error x⟩ : Ev)] := h0 ▸ by simp
    simp only [List.mem_singleton] at hm
    subst hm; cases hg
  have fin : ∀ {t1 a t2 devs}, Exec (getDeviceInformation M msg.bareJid) t1 (.ok devs) → (∀ dev ∈ devs, dev.deviceId ≠ msg.deviceId) →
      (∀ e ∈ t2, Op.getsList e.1 = false) → t' = t1 ++ (⟨.downloadList msg.ns msg.bareJid, a⟩ : Ev) :: t2 →
      NotFound w.disk h msg.bareJid msg.deviceId := by
    rintro t1 a t2 devs g1 gd g2 rfl
    obtain rfl : (⟨.getBackends, .ok bs⟩ :: t1 : List Ev) = h := split_unique (fun e : Ev => Op.getsList e.1)
      (fun x hx => (List.mem_cons.1 hx).elim (fun h => by rw [h]; rfl) (noList_info g1 x)) g2 hg (by simpa using h0.symm)
    obtain ⟨w1, h1, -⟩ := Sem.runs_append.1 hr
    obtain ⟨h2, h3⟩ := h1
    exact (notFound_info g1 h3 gd).imp_right fun h => h.mono fun e he => by simp [he]
  cases hl with
  | known h1 _ =>
    have hm : e ∈ (⟨.getBackends, .ok bs⟩ :: t' : List Ev) := h0 ▸ by simp
    rcases List.mem_cons.1 hm with rfl | hm
    · cases hg
    · rw [h1 e hm] at hg; cases hg
  | failed g1 gd g2 _ => exact fin g1 gd g2 rfl
  | missing g1 gd g2 g3 gd' => exact fin g1 gd (fun e hm => (List.mem_append.1 hm).elim (g2 e) (noList_info g3 e)) rfl

/-- And it reports that the sender was not found only after the device list was downloaded and the sender was not found after that. -/
theorem C81_reported (M : Mgr) (msg : Message) (t : List Ev) (w w' : World) (he : Exec (decrypt M msg) t (.raised .senderNotFound))
    (hr : Lib.Runs w t w') (hn : ∀ e ∈ t, ∀ x, e.2 = .error x → x ≠ .senderNotFound) :
    ∃ h l s w1, t = h ++ s ∧ (⟨.downloadList msg.ns msg.bareJid, .ok l⟩ : Ev) ∈ h ∧ Lib.Runs w h w1 ∧ Lib.Runs w1 s w' ∧
      NotFound w1.disk s msg.bareJid msg.deviceId := by
  rcases listRun_decrypt he with ⟨-, h⟩ | ⟨e, rfl, h⟩ | ⟨bs, t', rfl, h⟩
  · cases h
  · cases h; exact absurd rfl (hn ⟨.getBackends, .error .senderNotFound⟩ (by simp) _ rfl)
  have hn' : NoneRaised t' := fun x hx => hn x (by simp [hx])
  cases h with
  | known _ h => exact absurd hn' (h rfl)
  | failed _ _ _ h => exact absurd hn' (h rfl)
  | @missing t1 devs l t2 t3 devs' g1 gd g2 g3 gd' =>
    rw [show (⟨.getBackends, .ok bs⟩ :: (t1 ++ ⟨.downloadList msg.ns msg.bareJid, .ok l⟩ :: (t2 ++ t3)) : List Ev) =
      (⟨.getBackends, .ok bs⟩ :: (t1 ++ ⟨.downloadList msg.ns msg.bareJid, .ok l⟩ :: t2)) ++ t3 by simp] at hr ⊢
    obtain ⟨w1, h1, h2⟩ := Sem.runs_append.1 hr
    exact ⟨_, l, t3, w1, rfl, by simp, h1, h2, notFound_info g3 h2 gd'⟩

/-! ### Example: a message from a device nobody knows -/

def strangerMessage : Message := ⟨"n", "b", 9, ⟨false, 1⟩, [(⟨"me", 1, 1⟩, none)]⟩

/-- The device list is downloaded once, and the sender is reported as not found. -/
theorem C81_example : ∃ t w', Exec (decrypt Mgr.ex strangerMessage) t (.raised .senderNotFound) ∧ Lib.Runs World.started t w' ∧
    t.countP (fun e => Op.getsList e.1) = 1 ∧ (∀ e ∈ t, ∀ x, e.2 = .error x → x ≠ .senderNotFound) ∧
    ∃ h e h', t = h ++ e :: h' ∧ Op.getsList e.1 = true ∧ NotFound World.started.disk h "b" 9 := by
  have hres : (genuineRun (decrypt Mgr.ex strangerMessage) World.started).2.1 = .raised .senderNotFound := by decide +kernel
  have hexec := hres ▸ genuineRun_exec (decrypt Mgr.ex strangerMessage) World.started
  have hrun := genuineRun_runs (decrypt Mgr.ex strangerMessage) World.started
  have hc : (genuineRun (decrypt Mgr.ex strangerMessage) World.started).1.countP (fun e => Op.getsList e.1) = 1 := by decide +kernel
  have hx : (genuineRun (decrypt Mgr.ex strangerMessage) World.started).1.all
      (fun e => match e.2 with | .error x => decide (x ≠ .senderNotFound) | .ok _ => true) = true := by decide +kernel
  refine ⟨_, _, hexec, hrun, hc, fun e he x hex => ?_, ?_⟩
  · have := List.all_eq_true.1 hx e he
    rw [hex] at this
    simpa using this
  · obtain ⟨e, he, hg⟩ := List.countP_pos_iff.1 (by rw [hc]; exact Nat.one_pos)
    obtain ⟨h, h', ht⟩ := List.append_of_mem he
    exact ⟨h, e, h', ht, hg, C81 _ _ _ _ _ _ hexec hrun h e h' ht hg⟩

end Verif
