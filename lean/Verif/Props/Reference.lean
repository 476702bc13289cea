import Verif.Model.Reference
import Verif.Props.BlindEncrypt
import Verif.Props.Intact
import Verif.Props.Stock
import Verif.Props.Commute
import Verif.Props.Ratchet
import Verif.Props.Exceptions
import Verif.Props.Storage
import Verif.Props.Passed
import Verif.Props.Outward
import Verif.Proofs.Account
import Verif.Spec.Fleet
/-
The implementation of the abstract parts of the library that comes with its tests meets the assumptions made in other theorems
(C94-C97).
-/
namespace Verif
open SM Spec

namespace Spec

/-- The interaction replaces or removes the bundle of device `d` of `j` for `ns`. -/
def Rewrites (own : Jid) (ns : Ns) (j : Jid) (d : DevId) : Op → Prop
  | .uploadBundle b => b.ns = ns ∧ b.bareJid = j ∧ b.deviceId = d
  | .deleteBundle n d' => n = ns ∧ j = own ∧ d' = d
  | _ => False

/-- After the history `h` of an account, `b` is the bundle of device `d` of `j` for `ns`: it was uploaded, and not replaced or deleted since. -/
def Stands (own : Jid) (h : List Ev) (ns : Ns) (j : Jid) (d : DevId) (b : Bundle) : Prop :=
  (b.ns = ns ∧ b.bareJid = j ∧ b.deviceId = d) ∧ ∃ u r v, h = u ++ ⟨.uploadBundle b, r⟩ :: v ∧ ∀ e ∈ v, ¬ Rewrites own ns j d e.1

/-- After the history `h`, `dl` is the device list for `ns`. -/
def ListStands (h : List Ev) (ns : Ns) (dl : DevList) : Prop :=
  ∃ u r v, h = u ++ ⟨.uploadList ns dl, r⟩ :: v ∧ ∀ e ∈ v, ∀ dl', e.1 ≠ .uploadList ns dl'

/-- The methods for servers answer as documented: downloads give what was uploaded (session_manager.py:798-823, 868-899), with `missing` for a
bundle that does not exist; whether deleting a bundle that does not exist raises is `gone` (session_manager.py:825-845). -/
def ServesAs (missing : Exn) (gone : Except Exn Unit) (own : Jid) (h : List Ev) (e : Ev) : Prop :=
  (∀ ns j d x, e = ⟨.downloadBundle ns j d, x⟩ →
    (∃ b, Stands own h ns j d b ∧ x = .ok b) ∨ ((∀ b, ¬ Stands own h ns j d b) ∧ x = .error missing)) ∧
  (∀ ns x, e = ⟨.downloadList ns own, x⟩ → (∃ dl, ListStands h ns dl ∧ x = .ok dl) ∨ ((∀ dl, ¬ ListStands h ns dl) ∧ x = .ok [])) ∧
  (∀ ns d x, e = ⟨.deleteBundle ns d, x⟩ → x = .ok () ∧ (∃ b, Stands own h ns own d b) ∨ x = gone ∧ ∀ b, ¬ Stands own h ns own d b) ∧
  (∀ b x, e = ⟨.uploadBundle b, x⟩ → x = .ok ()) ∧ (∀ ns dl x, e = ⟨.uploadList ns dl, x⟩ → x = .ok ()) ∧ ∀ m j x, e = ⟨.sendMessage m j, x⟩ → x = .ok ()

end Spec

namespace Ref
variable {M : Mgr}

/-! ### Trust -/

/-- The levels; unknown names never evaluate successfully. -/
def level (name : String) : TrustLevel :=
  match levelOf name with
  | some .trusted => .trusted
  | some .distrusted => .distrusted
  | some .undecided | none => .undecided

theorem evaluate_level {dev : DeviceInfo} {l : TrustLevel} (h : evaluate dev = .ok l) : l = level dev.trustLevelName := by
  unfold evaluate at h
  unfold level
  split at h <;> cases h <;> simp [*]

theorem evaluate_ok_iff {dev : DeviceInfo} {l : TrustLevel} :
    evaluate dev = .ok l ↔ ∃ lv : Level, dev.trustLevelName = lv.name ∧
      l = match lv with | .trusted => .trusted | .undecided => .undecided | .distrusted => .distrusted := by
  unfold evaluate
  cases hl : levelOf dev.trustLevelName with
  | none =>
    refine ⟨nofun, ?_⟩
    rintro ⟨lv, h, -⟩
    rw [h] at hl
    cases lv <;> exact absurd hl (by decide)
  | some lv =>
    have hname := List.find?_some hl
    simp only [decide_eq_true_eq] at hname
    constructor
    · intro h
      refine ⟨lv, hname.symm, ?_⟩
      cases lv <;> cases h <;> rfl
    · rintro ⟨lv', h, rfl⟩
      rw [← hname] at h
      cases lv <;> cases lv' <;> first | rfl | exact absurd h (by decide)

/-- The decision only stores trust levels. -/
theorem ops_decide (ds : List DeviceInfo) (i : Option String) :
    AllOps (fun o : Op => ∃ dev ∈ ds, o = .store (.trust dev.bareJid dev.identityKey) (.str "TRUSTED")) ((mgr M).decide ds i) :=
  .forEach fun dev hd => ⟨⟨dev, SetOrder.mem_iter.1 hd, rfl⟩, fun r => by cases r <;> trivial⟩

theorem app_decide {X : Exn → Prop} (ds : List DeviceInfo) (i : Option String) : AppProg (mgr M) X ((mgr M).decide ds i) :=
  .forEach fun dev _ => .call (.setTrust dev.bareJid dev.identityKey "TRUSTED") rfl

/-- What the decision does to the storage. -/
theorem wp_decide (ds : List DeviceInfo) (i : Option String) (w : World) :
    wp Lib ((mgr M).decide ds i) (ends
      (fun _ w' => ∀ k, w'.disk k = if ∃ dev ∈ ds, k = .trust dev.bareJid dev.identityKey then some (.str "TRUSTED") else w.disk k)
      (fun _ w' => ∃ done : List DeviceInfo, (∀ dev ∈ done, dev ∈ ds) ∧
        ∀ k, w'.disk k = if ∃ dev ∈ done, k = .trust dev.bareJid dev.identityKey then some (.str "TRUSTED") else w.disk k)) w := by
  show wp Lib (Prog.forEach (M.O.iter ds) _) _ _
  refine ends_forEach (fun done _ w' => (∀ dev ∈ done, dev ∈ ds) ∧
    ∀ k, w'.disk k = if ∃ dev ∈ done, k = .trust dev.bareJid dev.identityKey then some (.str "TRUSTED") else w.disk k)
    ⟨by simp, by simp⟩ ?_ ?_
  · rintro done d rest w1 hsplit ⟨h1, h2⟩
    have hd : d ∈ ds := by rw [← SetOrder.mem_iter (O := M.O), hsplit]; simp
    refine Lib.store (fun _ _ => ⟨done, h1, h2⟩) ?_
    refine ⟨fun dev hdev => ?_, fun k => ?_⟩
    · rcases List.mem_append.1 hdev with h | h
      · exact h1 dev h
      · cases List.mem_singleton.1 h; exact hd
    · by_cases hk : k = .trust d.bareJid d.identityKey
      · subst hk
        rw [if_pos ⟨d, by simp, rfl⟩]
        exact Disk.upd_self
      · refine (Disk.upd_of_ne hk).trans ?_
        rw [h2]
        simp [hk, or_and_right, exists_or]
  · rintro w' ⟨_, h⟩ k
    rw [h]
    simp

theorem exec_decide {ds : List DeviceInfo} {i : Option String} {t : List Ev} {r : Res Exn Unit} (he : Exec ((mgr M).decide ds i) t r) :
    ∀ e ∈ t, ∃ dev ∈ ds, e.1 = .store (.trust dev.bareJid dev.identityKey) (.str "TRUSTED") := (ops_decide ds i).exec he

theorem decisive (hu : M.undecided = "UNDECIDED") : Decisive level (mgr M) where
  undecided := by rw [show (mgr M).undecided = "UNDECIDED" from hu]; rfl
  keeps ds i t r w w' he hr j ik h := by
    have key : ∀ done : List DeviceInfo, (∀ k, w'.disk k = if ∃ dev ∈ done, k = .trust dev.bareJid dev.identityKey then some (.str "TRUSTED") else w.disk k) →
        Decided level w'.disk j ik := by
      intro done hd
      obtain ⟨s, h1, h2⟩ := h
      by_cases hk : ∃ dev ∈ done, Key.trust j ik = .trust dev.bareJid dev.identityKey
      · exact ⟨"TRUSTED", by rw [hd, if_pos hk], by decide⟩
      · exact ⟨s, by rw [hd, if_neg hk, h1], h2⟩
    have := wp_sound (wp_decide ds i w) he hr
    cases r with
    | ok => exact key ds this
    | raised => obtain ⟨done, _, h⟩ := this; exact key done h
    | crashed => obtain ⟨done, _, h⟩ := this; exact key done h
  decides ds i t w w' he hr dev hd :=
    ⟨"TRUSTED", by rw [wp_sound (wp_decide ds i w) he hr, if_pos ⟨dev, hd, rfl⟩], by decide⟩
  quiet ds i t he := by
    apply Classical.byContradiction
    intro hno
    have hR : Raises (S := LibSig) Decide.Quiet (· ≠ .stillUndecided) ((mgr M).decide ds i) := .forEach fun _ _ => .perform fun _ h => h
    exact hR.exec he (Decide.quiet_of hno) rfl

theorem raises_decide {ds : List DeviceInfo} {i : Option String} {t : List Ev} {e : Exn} (he : Exec ((mgr M).decide ds i) t (.raised e)) : ErrIn t e := by
  apply Classical.byContradiction
  intro hno
  have hR : Raises (S := LibSig) (fun _ e' => e' ≠ e) (· ≠ e) ((mgr M).decide ds i) := .forEach fun _ _ => .perform fun _ h => h
  exact hR.exec he (fun x hx y hy hye => hno ⟨x, hx, by rw [hy, hye]⟩) rfl

end Ref

/-! ### C94 -/

/-- All that is assumed anywhere about the trust decision of an application. -/
structure Spec.Exemplary (lvl : String → TrustLevel) (M : Mgr) : Prop where
  decisive : Decisive lvl M
  quiet : CallbackQuiet M.decide
  fair : CallbackFair M
  viaApi : ViaApi M
  careful : Careful M
  retains : RetainsAll M
  modest : Modest M
  handsOff : HandsOff M
  apart : Apart M
  discreet : Discreet M

/-- C94.  The trust decision of the reference implementation meets everything that is assumed anywhere about trust decisions. -/
theorem C94 (M : Mgr) (hu : M.undecided = "UNDECIDED") : Exemplary Ref.level (Ref.mgr M) where
  decisive := Ref.decisive hu
  quiet ds i t r he e hm := by
    obtain ⟨dev, _, h⟩ := Ref.exec_decide he e hm
    rw [h]
    exact ⟨rfl, nofun⟩
  fair ds i t e he := .inr (Ref.raises_decide he)
  viaApi ds i := Ref.app_decide ds i
  careful X _ ds i := Ref.app_decide ds i
  retains ds i := by
    show AppBy _ _ (Prog.forEach _ _)
    generalize M.O.iter ds = l
    induction l with
    | nil => exact .ret ()
    | cons d l ih =>
      show AppBy _ _ (Prog.bind (SM.setTrust d.bareJid d.identityKey Ref.Level.trusted.name) _)
      rw [← Prog.tryElse_id (SM.setTrust d.bareJid d.identityKey Ref.Level.trusted.name), Prog.tryElse_bind]
      exact .api (.setTrust d.bareJid d.identityKey "TRUSTED") _ _ ⟨rfl, nofun⟩ (fun e => .raise e) fun _ => ih
  modest ds i t r he e hm := by
    obtain ⟨dev, _, h⟩ := Ref.exec_decide he e hm
    rw [h]
    exact ⟨nofun, nofun⟩
  handsOff dev ds i := by
    show Decision _ (Prog.forEach _ _)
    generalize M.O.iter ds = l
    induction l with
    | nil => exact .ret ()
    | cons d l ih =>
      show Decision _ (Prog.bind (SM.setTrust d.bareJid d.identityKey Ref.Level.trusted.name) _)
      rw [← Prog.tryElse_id (SM.setTrust d.bareJid d.identityKey Ref.Level.trusted.name), Prog.tryElse_bind]
      exact .api (.setTrust d.bareJid d.identityKey "TRUSTED") _ _ rfl (fun e => .raise e) fun _ => ih
  apart ds i := (Ref.ops_decide ds i).mono fun o ⟨dev, _, h⟩ => by subst h; exact ⟨rfl, rfl, nofun⟩
  discreet ds i t r he := by
    refine ⟨fun e hm => ?_, fun k ⟨e, hm, hk⟩ => ?_⟩
    · obtain ⟨dev, _, h⟩ := Ref.exec_decide he e hm
      rw [h]; rfl
    · obtain ⟨dev, hd, h⟩ := Ref.exec_decide he e hm
      rw [h] at hk
      cases hk
      exact ⟨dev, hd, rfl⟩

/-- C94, the decision itself: exactly the devices it was given are trusted afterwards, nothing else changes. -/
theorem C94_decision (M : Mgr) (ds : List DeviceInfo) (i : Option String) (t : List Ev) (w w' : World) (he : Exec ((Ref.mgr M).decide ds i) t (.ok ()))
    (hr : Lib.Runs w t w') (k : Key) :
    w'.disk k = if ∃ dev ∈ ds, k = .trust dev.bareJid dev.identityKey then some (.str "TRUSTED") else w.disk k :=
  wp_sound (Ref.wp_decide ds i w) he hr k

/-- C94, encrypting: the reference implementation never fails with `StillUndecided`, key material is handed out only for
devices with the level "TRUSTED", and a device that can be addressed and got nothing has the level "DISTRUSTED", or its identity key could not be found out. -/
theorem C94_encrypt (M : Mgr) (hu : M.undecided = "UNDECIDED") (jids : List Jid) (pt : Dict Ns Bytes) (prio : Option (List Ns)) (i : Option String)
    (t : List Ev) (r : Res Exn (Dict Message PlainKM × List EncError)) (w w' : World)
    (he : Exec (encrypt (Ref.mgr M) jids pt prio i) t r) (hr : Lib.Runs w t w') (hb : w.backends.Nodup)
    (hv : ∀ dev x, (⟨.evalTrust dev, x⟩ : Ev) ∈ t → x = Ref.evaluate dev) :
    (¬ ErrIn t .stillUndecided → r ≠ .raised .stillUndecided) ∧
    Guarded (fun h e => Op.handsOut e.1 = true → ∃ (dev : DeviceInfo) (ns : Ns) (m : PlainKM), HandsOut h e ns dev.bareJid dev.deviceId m ∧
      LastEval h dev .trusted ∧ dev.trustLevelName = "TRUSTED") t ∧
    ∀ msgs errs, r = .ok (msgs, errs) → Addressed t → ∀ j d, j ∈ jids ∨ j = M.ownJid → ¬ (j = M.ownJid ∧ d = M.ownDev) →
      Reachable w.disk (prio.getD w.backends) j d → (∀ x ∈ msgs, keysFor x.1 j d = []) → errorsFor errs j d = [] →
      (∃ dev, dev.bareJid = j ∧ dev.deviceId = d ∧ dev.trustLevelName = "DISTRUSTED" ∧ LastEval t dev .distrusted) ∨ Keyless t j d := by
  have hM := C94 M hu
  have hs : ∀ e ∈ t, ∀ bs, e.1 ≠ .setBackends bs := by
    have := (SM.ops_encrypt (Ref.mgr M) (fun o => ∀ bs, o ≠ .setBackends bs)
      (fun ds i => (Ref.ops_decide ds i).mono fun o ⟨_, _, h⟩ => by subst h; exact nofun) jids pt prio i).exec he
    rintro e hm bs hbs
    rcases this e hm with h | h
    · rw [hbs] at h
      cases h with
      | info _ h => cases h
    · exact h bs hbs
  have hbs := lib_backends hr hs
  have hb1 : BackendsOnce t := fun bs h => by rw [hbs bs h]; exact hb
  have name : ∀ {dev l}, LastEval t dev l → Ref.evaluate dev = .ok l := by
    rintro dev l ⟨u, v, rfl, _⟩
    exact (hv dev (.ok l) (by simp)).symm
  refine ⟨fun hq => C93 Ref.level _ hM.decisive jids pt prio i t r w w' he hr (fun dev _ h => Ref.evaluate_level (hv dev _ h).symm) hq, ?_, ?_⟩
  · intro h1 e h2 ht hh
    obtain ⟨dev, ns, m, h3, h4⟩ := C27_only_trusted _ jids pt prio i t r hM.quiet he hb1 h1 e h2 ht hh
    refine ⟨dev, ns, m, h3, h4, ?_⟩
    obtain ⟨u, v, hu', _⟩ := h4
    obtain ⟨lv, h5, h6⟩ := Ref.evaluate_ok_iff.1 (hv dev (.ok .trusted) (by rw [ht, hu']; simp)).symm
    cases lv <;> first | exact h5 | cases h6
  · rintro msgs errs rfl hA j d hj hown hd hk her
    rcases C92_accounted _ jids pt prio i t w w' msgs errs hM.quiet he hr hb hs hA j d hj hown hd with ⟨dev, rfl, rfl, _, h⟩ | ⟨dev, l, rfl, rfl, h1, h2, _⟩ | ⟨h, _⟩
    · rcases h with ⟨⟨x, hx, ⟨k, hk'⟩, _⟩, _⟩ | ⟨_, e, h⟩
      · rw [hk x hx] at hk'; cases hk'
      · rw [her] at h; cases h
    · obtain ⟨lv, h5, h6⟩ := Ref.evaluate_ok_iff.1 (name h1)
      cases lv with
      | trusted => exact absurd h6 h2
      | undecided =>
        subst h6
        rcases (C28_undecided_blocks _ jids pt prio i t _ hM.quiet he hb1 (fun dev l l' h h' => by
          have := (hv _ _ h).trans (hv _ _ h').symm
          cases this; rfl) dev h1).2 with h | h | ⟨y, h, _⟩ <;> cases h
      | distrusted => subst h6; exact .inl ⟨dev, rfl, rfl, h5, h1⟩
    · exact .inr h

/-! ### C95: the servers -/

namespace Ref

/-- What the servers have about one account. -/
def Cloud.account (c : Cloud) (own : Jid) : Account where
  lists ns := (c.lists ns own).getD []
  bundles ns d := c.bundles ns own d

/-- Backends label the bundles they return with what they were asked for. -/
def Labelled (t : List Ev) : Prop := ∀ ns j d b, (⟨.getBundle ns j d, .ok b⟩ : Ev) ∈ t → b.ns = ns ∧ b.bareJid = j ∧ b.deviceId = d

theorem online_step {own : Jid} {c : Cloud} {e : Ev} (h : (Hosted own).ok c e)
    (hl : ∀ ns j d b, e = ⟨.getBundle ns j d, .ok b⟩ → b.ns = ns ∧ b.bareJid = j ∧ b.deviceId = d) :
    (Online own).ok (c.account own) e ∧ (Online own).next (c.account own) e = ((Hosted own).next c e).account own := by
  obtain ⟨o, r⟩ := e
  cases o
  case downloadList ns j =>
    cases (show r = _ from h _ rfl)
    refine ⟨?_, rfl⟩
    rintro rfl
    rfl
  case downloadBundle ns j d =>
    have hr : r = _ := h _ rfl
    cases hb : c.bundles ns j d with
    | none => rw [hb] at hr; subst hr; exact ⟨trivial, rfl⟩
    | some b =>
      rw [hb] at hr
      subst hr
      refine ⟨?_, rfl⟩
      rintro rfl
      exact hb
  case deleteBundle ns d =>
    have hr : r = _ := h _ rfl
    cases hb : c.bundles ns own d with
    | none =>
      rw [hb] at hr
      subst hr
      refine ⟨trivial, ?_⟩
      show c.account own = _
      unfold Cloud.account Hosted after
      congr 1
      funext n d'
      dsimp only
      split
      · rename_i hx
        obtain ⟨rfl, -, rfl⟩ := hx
        exact hb
      · rfl
    | some b =>
      rw [hb] at hr
      subst hr
      refine ⟨trivial, ?_⟩
      unfold Cloud.account Hosted after Online
      simp
  case uploadBundle b =>
    cases (show r = _ from h _ rfl)
    refine ⟨trivial, ?_⟩
    unfold Cloud.account Hosted after Online
    dsimp only
    split
    · rename_i hb
      simp [hb]
    · rename_i hb
      have : ¬ own = b.bareJid := fun h => hb h.symm
      simp [this]
  case uploadList ns dl =>
    cases (show r = _ from h _ rfl)
    refine ⟨trivial, ?_⟩
    unfold Cloud.account Hosted after Online
    dsimp only
    congr 1
    funext n
    by_cases hn : n = ns <;> simp [hn]
  case getBundle ns j d =>
    cases r with
    | error => exact ⟨trivial, rfl⟩
    | ok b => exact ⟨hl ns j d b rfl, rfl⟩
  all_goals exact ⟨by cases r <;> trivial, by cases r <;> rfl⟩

/-- The servers of the reference implementation behave as assumed of servers. -/
theorem online_of_hosted {own : Jid} {c c' : Cloud} {t : List Ev} (hr : (Hosted own).Runs c t c') (hl : Labelled t) :
    (Online own).Runs (c.account own) t (c'.account own) := by
  induction t generalizing c with
  | nil => cases hr; rfl
  | cons e t ih =>
    obtain ⟨h1, h2⟩ := online_step hr.1 fun ns j d b h => hl ns j d b (by simp [h])
    exact ⟨h1, h2 ▸ ih hr.2 fun ns j d b h => hl ns j d b (by simp [h])⟩

theorem ownIs_part {M : Mgr} {c : Call} {u v : List Ev} {d : DevId} (h : OwnIs M c u d) : OwnIs M c (u ++ v) d := by
  cases c <;> first
    | exact h
    | exact h.imp (fun h => by simp [h]) fun ⟨x, hx, hd⟩ => ⟨x, by simp [hx], hd⟩

/-- What one account does to the servers, if it uploads and deletes bundles of the devices `D` only, and sends messages in their name. -/
theorem touched {own : Jid} {D : DevId → Prop} {t : List Ev} {s s' : Cloud} (hr : (Hosted own).Runs s t s')
    (h1 : ∀ e ∈ t, ∀ b, e.1 = .uploadBundle b → b.bareJid = own ∧ D b.deviceId) (h2 : ∀ e ∈ t, ∀ ns d, e.1 = .deleteBundle ns d → D d)
    (h3 : ∀ e ∈ t, ∀ m j, e.1 = .sendMessage m j → m.bareJid = own ∧ D m.deviceId) :
    (∀ ns j, j ≠ own → s'.lists ns j = s.lists ns j) ∧ (∀ ns j d, ¬ (j = own ∧ D d) → s'.bundles ns j d = s.bundles ns j d) ∧
    ∃ q, s'.queue = s.queue ++ q ∧ ∀ x ∈ q, x.2.bareJid = own ∧ D x.2.deviceId := by
  induction t generalizing s with
  | nil => cases hr; exact ⟨fun _ _ _ => rfl, fun _ _ _ _ => rfl, [], by simp, by simp⟩
  | cons e t ih =>
    obtain ⟨k1, k2, q, k3, k4⟩ := ih hr.2 (fun e h => h1 e (by simp [h])) (fun e h => h2 e (by simp [h])) (fun e h => h3 e (by simp [h]))
    obtain ⟨o, r⟩ := e
    have h1 := h1 _ (.head _)
    have h2 := h2 _ (.head _)
    have h3 := h3 _ (.head _)
    dsimp only at h1 h2 h3
    refine ⟨fun ns j hj => (k1 ns j hj).trans ?_, fun ns j d hd => (k2 ns j d hd).trans ?_, ?_⟩
    · cases o <;> first
        | rfl
        | (show (if _ then _ else _) = _
           rw [if_neg fun h => hj h.2])
    · cases o <;> first
        | rfl
        | (show (if _ then _ else _) = _
           refine if_neg fun h => hd ?_
           first
             | (obtain ⟨-, rfl, rfl⟩ := h; exact h1 _ rfl)
             | (obtain ⟨-, rfl, rfl⟩ := h; exact ⟨rfl, h2 _ _ rfl⟩))
    · by_cases hm : ∃ m j, o = .sendMessage m j
      · obtain ⟨m, j, rfl⟩ := hm
        refine ⟨(j, m) :: q, k3.trans ?_, fun x hx => ?_⟩
        · show (s.queue ++ [(j, m)]) ++ q = _
          simp
        · rcases List.mem_cons.1 hx with rfl | hx
          · exact h3 m j rfl
          · exact k4 x hx
      · refine ⟨q, k3.trans ?_, k4⟩
        congr 1
        cases o <;> first
          | rfl
          | exact absurd ⟨_, _, rfl⟩ hm

end Ref

/-- C95.  Accounts that share the servers of the reference implementation leave each other's data alone: whatever a manager is called for, device
lists of other accounts and bundles of other devices stay as they are, and messages are only added, in the name of the own device. -/
theorem C95 (M : Mgr) (c : Call) (t : List Ev) (r : Res Exn Unit) (s s' : Ref.Cloud) (he : Exec (c.run (Ref.mgr M)) t r)
    (hr : (Ref.Hosted M.ownJid).Runs s t s') (hl : Ref.Labelled t) :
    (∀ ns j, j ≠ M.ownJid → s'.lists ns j = s.lists ns j) ∧
    (∀ ns j d, ¬ (j = M.ownJid ∧ OwnIs M c t d) → s'.bundles ns j d = s.bundles ns j d) ∧
    ∃ q, s'.queue = s.queue ++ q ∧ ∀ x ∈ q, x.2.bareJid = M.ownJid ∧ OwnIs M c t x.2.deviceId := by
  have own : ∀ h d, OwnIs (Ref.mgr M) c h d → OwnIs M c h d := fun h d hd => by cases c <;> exact hd
  have g1 := C74 (Ref.mgr M) c (fun ds i t r hx h1 e h2 ht => by
    obtain ⟨dev, _, ho⟩ := Ref.exec_decide hx e (by rw [ht]; simp)
    rw [OwnBundles, ho]
    exact ⟨nofun, nofun⟩) he
  have g2 := C75 (Ref.mgr M) c (fun ds i t r hx h1 e h2 ht => by
    obtain ⟨dev, _, ho⟩ := Ref.exec_decide hx e (by rw [ht]; simp)
    rw [OnlyEmpty, ho]
    exact nofun) he
  refine Ref.touched (D := OwnIs M c t) hr ?_ ?_ ?_
  · intro e hm b hb
    obtain ⟨u, v, rfl⟩ := List.append_of_mem hm
    obtain ⟨ns, d, k1, k2⟩ := (g1 u e v rfl).1 b hb
    obtain ⟨-, k3, k4⟩ := hl ns _ d b (List.mem_append_left _ k2)
    exact ⟨k3, k4 ▸ Ref.ownIs_part (own _ _ k1)⟩
  · intro e hm ns d hb
    obtain ⟨u, v, rfl⟩ := List.append_of_mem hm
    exact Ref.ownIs_part (own _ _ ((g1 u e v rfl).2 ns d hb))
  · intro e hm m j hb
    obtain ⟨u, v, rfl⟩ := List.append_of_mem hm
    obtain ⟨k1, k2, -⟩ := g2 u e v rfl m j hb
    exact ⟨k1, Ref.ownIs_part (own _ _ k2)⟩

/-- C95, the own account: the servers behave as C90 assumes. -/
theorem C95_online (own : Jid) (t : List Ev) (s s' : Ref.Cloud) (hr : (Ref.Hosted own).Runs s t s') (hl : Ref.Labelled t) :
    (Online own).Runs (s.account own) t (s'.account own) := Ref.online_of_hosted hr hl

/-! ### C96: the servers over time -/

namespace Ref

def Cloud.empty : Cloud := ⟨fun _ _ _ => none, fun _ _ => none, []⟩

theorem last_snoc {P Q : Ev → Prop} {h : List Ev} {e : Ev} : (∃ u x v, h ++ [e] = u ++ x :: v ∧ P x ∧ ∀ y ∈ v, ¬ Q y) ↔
    P e ∨ ((∃ u x v, h = u ++ x :: v ∧ P x ∧ ∀ y ∈ v, ¬ Q y) ∧ ¬ Q e) := by
  constructor
  · rintro ⟨u, x, v, h1, h2, h3⟩
    rcases List.eq_nil_or_concat v with rfl | ⟨v, y, rfl⟩
    · have := List.append_inj' h1 rfl
      simp only [List.cons.injEq, and_true] at this
      exact .inl (this.2 ▸ h2)
    · have h4 : h ++ [e] = (u ++ x :: v) ++ [y] := by simpa using h1
      have := List.append_inj' h4 rfl
      simp only [List.cons.injEq, and_true] at this
      obtain ⟨rfl, rfl⟩ := this
      exact .inr ⟨⟨u, x, v, rfl, h2, fun z hz => h3 z (by simp [hz])⟩, h3 e (by simp)⟩
  · rintro (h1 | ⟨⟨u, x, v, rfl, h2, h3⟩, h4⟩)
    · exact ⟨h, e, [], rfl, h1, by simp⟩
    · refine ⟨u, x, v ++ [e], by simp, h2, fun y hy => ?_⟩
      rcases List.mem_append.1 hy with hy | hy
      · exact h3 y hy
      · cases List.mem_singleton.1 hy; exact h4

theorem stands_snoc {own : Jid} {h : List Ev} {e : Ev} {ns : Ns} {j : Jid} {d : DevId} {b : Bundle} :
    Stands own (h ++ [e]) ns j d b ↔
      (b.ns = ns ∧ b.bareJid = j ∧ b.deviceId = d) ∧ e.1 = .uploadBundle b ∨ (Stands own h ns j d b ∧ ¬ Rewrites own ns j d e.1) := by
  have conv : ∀ h, (∃ u r v, h = u ++ (⟨.uploadBundle b, r⟩ : Ev) :: v ∧ ∀ e ∈ v, ¬ Rewrites own ns j d e.1) ↔
      ∃ u x v, h = u ++ x :: v ∧ x.1 = .uploadBundle b ∧ ∀ e ∈ v, ¬ Rewrites own ns j d e.1 := by
    intro h
    constructor
    · rintro ⟨u, r, v, h1, h2⟩; exact ⟨u, _, v, h1, rfl, h2⟩
    · rintro ⟨u, ⟨o, r⟩, v, h1, h2, h3⟩; cases h2; exact ⟨u, r, v, h1, h3⟩
  unfold Stands
  rw [conv, conv, last_snoc (P := fun x => x.1 = .uploadBundle b) (Q := fun x => Rewrites own ns j d x.1)]
  constructor
  · rintro ⟨h1, h2 | ⟨h2, h3⟩⟩
    · exact .inl ⟨h1, h2⟩
    · exact .inr ⟨⟨h1, h2⟩, h3⟩
  · rintro (⟨h1, h2⟩ | ⟨⟨h1, h2⟩, h3⟩)
    · exact ⟨h1, .inl h2⟩
    · exact ⟨h1, .inr ⟨h2, h3⟩⟩

theorem listStands_snoc {h : List Ev} {e : Ev} {ns : Ns} {dl : DevList} :
    ListStands (h ++ [e]) ns dl ↔ e.1 = .uploadList ns dl ∨ (ListStands h ns dl ∧ ∀ dl', e.1 ≠ .uploadList ns dl') := by
  have conv : ∀ h, ListStands h ns dl ↔ ∃ u x v, h = u ++ x :: v ∧ x.1 = .uploadList ns dl ∧ ∀ e ∈ v, ¬ ∃ dl', e.1 = .uploadList ns dl' := by
    intro h
    constructor
    · rintro ⟨u, r, v, h1, h2⟩; exact ⟨u, _, v, h1, rfl, fun e he ⟨dl', h⟩ => h2 e he dl' h⟩
    · rintro ⟨u, ⟨o, r⟩, v, h1, h2, h3⟩; cases h2; exact ⟨u, r, v, h1, fun e he dl' h => h3 e he ⟨dl', h⟩⟩
  rw [conv, conv, last_snoc (P := fun x => x.1 = .uploadList ns dl) (Q := fun x => ∃ dl', x.1 = .uploadList ns dl')]
  simp

/-- The dictionaries have what the history says. -/
structure Fits (own : Jid) (h : List Ev) (s : Cloud) : Prop where
  bundles : ∀ ns j d b, s.bundles ns j d = some b ↔ Stands own h ns j d b
  lists : ∀ ns dl, s.lists ns own = some dl ↔ ListStands h ns dl

theorem fits_step {own : Jid} {h : List Ev} {s : Cloud} (hf : Fits own h s) (e : Ev) : Fits own (h ++ [e]) ((Hosted own).next s e) := by
  obtain ⟨o, r⟩ := e
  refine ⟨fun ns j d b => ?_, fun ns dl => ?_⟩
  · rw [stands_snoc]
    have quiet : ∀ {s' : Cloud}, s'.bundles = s.bundles → (∀ b, o ≠ .uploadBundle b) → (∀ n d, o ≠ .deleteBundle n d) →
        (s'.bundles ns j d = some b ↔ (b.ns = ns ∧ b.bareJid = j ∧ b.deviceId = d) ∧ o = .uploadBundle b ∨ (Stands own h ns j d b ∧ ¬ Rewrites own ns j d o)) := by
      intro s' hs h1 h2
      rw [hs, hf.bundles]
      constructor
      · refine fun hb => .inr ⟨hb, fun hR => ?_⟩
        cases o <;> first
          | exact hR
          | exact h1 _ rfl
          | exact h2 _ _ rfl
      · rintro (⟨_, hb⟩ | ⟨hb, _⟩)
        · exact absurd hb (h1 b)
        · exact hb
    cases o
    case uploadBundle b0 =>
      show (if _ then _ else _) = _ ↔ _
      dsimp only
      split
      · rename_i hc
        obtain ⟨rfl, rfl, rfl⟩ := hc
        constructor
        · rintro ⟨⟩; exact .inl ⟨⟨rfl, rfl, rfl⟩, rfl⟩
        · rintro (⟨_, hb⟩ | ⟨_, hb⟩)
          · cases hb; rfl
          · exact absurd ⟨rfl, rfl, rfl⟩ hb
      · rename_i hc
        rw [hf.bundles]
        constructor
        · exact fun hb => .inr ⟨hb, fun ⟨h1, h2, h3⟩ => hc ⟨h1.symm, h2.symm, h3.symm⟩⟩
        · rintro (⟨⟨h1, h2, h3⟩, hb⟩ | ⟨hb, _⟩)
          · cases hb; exact absurd ⟨h1.symm, h2.symm, h3.symm⟩ hc
          · exact hb
    case deleteBundle n d0 =>
      show (if _ then _ else _) = _ ↔ _
      dsimp only
      split
      · rename_i hc
        obtain ⟨rfl, rfl, rfl⟩ := hc
        refine ⟨nofun, ?_⟩
        rintro (⟨_, hb⟩ | ⟨_, hb⟩)
        · cases hb
        · exact absurd ⟨rfl, rfl, rfl⟩ hb
      · rename_i hc
        rw [hf.bundles]
        constructor
        · exact fun hb => .inr ⟨hb, fun ⟨h1, h2, h3⟩ => hc ⟨h1.symm, h2, h3.symm⟩⟩
        · rintro (⟨_, hb⟩ | ⟨hb, _⟩)
          · cases hb
          · exact hb
    all_goals exact quiet rfl nofun nofun
  · rw [listStands_snoc]
    have quiet : ∀ {s' : Cloud}, s'.lists = s.lists → (∀ n l, o ≠ .uploadList n l) →
        (s'.lists ns own = some dl ↔ o = .uploadList ns dl ∨ (ListStands h ns dl ∧ ∀ dl', o ≠ .uploadList ns dl')) := by
      intro s' hs h1
      rw [hs, hf.lists]
      constructor
      · exact fun hb => .inr ⟨hb, fun dl' => h1 ns dl'⟩
      · rintro (hb | ⟨hb, _⟩)
        · exact absurd hb (h1 _ _)
        · exact hb
    cases o
    case uploadList n l =>
      show (if _ then _ else _) = _ ↔ _
      dsimp only
      split
      · rename_i hc
        obtain ⟨rfl, -⟩ := hc
        constructor
        · rintro ⟨⟩; exact .inl rfl
        · rintro (hb | ⟨_, hb⟩)
          · cases hb; rfl
          · exact absurd rfl (hb l)
      · rename_i hc
        rw [hf.lists]
        constructor
        · refine fun hb => .inr ⟨hb, fun dl' hx => hc ?_⟩
          cases hx
          exact ⟨rfl, rfl⟩
        · rintro (hb | ⟨hb, _⟩)
          · cases hb; exact absurd ⟨rfl, rfl⟩ hc
          · exact hb
    all_goals exact quiet rfl nofun

theorem fits_runs {own : Jid} {h t : List Ev} {s s' : Cloud} (hf : Fits own h s) (hr : (Hosted own).Runs s t s') {u v : List Ev} {e : Ev}
    (ht : t = u ++ e :: v) : ∃ s1, Fits own (h ++ u) s1 ∧ (Hosted own).ok s1 e := by
  induction u generalizing h s t with
  | nil => subst ht; exact ⟨s, by simpa using hf, hr.1⟩
  | cons x u ih =>
    subst ht
    obtain ⟨s1, h1, h2⟩ := ih (fits_step hf x) hr.2 rfl
    exact ⟨s1, by simpa using h1, h2⟩

theorem fits_empty (own : Jid) : Fits own [] Cloud.empty := by
  refine ⟨fun ns j d b => ⟨nofun, ?_⟩, fun ns dl => ⟨nofun, ?_⟩⟩
  · rintro ⟨_, u, r, v, h, _⟩; simp at h
  · rintro ⟨u, r, v, h, _⟩; simp at h

end Ref

/-- The claim of C96: the methods for servers behave as documented. -/
def C96_Claim : Prop := ∀ (own : Jid) (t : List Ev) (s : Ref.Cloud), (Ref.Hosted own).Runs .empty t s → Guarded (ServesAs .bundleNotFound (.ok ()) own) t

/-- C96, up to bundles that do not exist: for those, `BundleDownloadFailed` is raised in place of `BundleNotFound`, and deleting them raises. -/
theorem C96_partial (own : Jid) (t : List Ev) (s : Ref.Cloud) (hr : (Ref.Hosted own).Runs .empty t s) :
    Guarded (ServesAs .bundleDownloadFailed (.error .bundleDeletionFailed) own) t := by
  intro u e v ht
  obtain ⟨s1, hf, hok⟩ := Ref.fits_runs (Ref.fits_empty own) hr ht
  rw [List.nil_append] at hf
  refine ⟨?_, ?_, ?_, ?_, ?_, ?_⟩
  · rintro ns j d x rfl
    have hx : x = _ := hok _ rfl
    cases hb : s1.bundles ns j d with
    | none => rw [hb] at hx; exact .inr ⟨fun b h => (by rw [(hf.bundles ..).2 h] at hb; cases hb), hx⟩
    | some b => rw [hb] at hx; exact .inl ⟨b, (hf.bundles ..).1 hb, hx⟩
  · rintro ns x rfl
    have hx : x = _ := hok _ rfl
    cases hb : s1.lists ns own with
    | none => rw [hb] at hx; exact .inr ⟨fun b h => (by rw [(hf.lists ..).2 h] at hb; cases hb), hx⟩
    | some b => rw [hb] at hx; exact .inl ⟨b, (hf.lists ..).1 hb, hx⟩
  · rintro ns d x rfl
    have hx : x = _ := hok _ rfl
    cases hb : s1.bundles ns own d with
    | none => rw [hb] at hx; exact .inr ⟨hx, fun b h => (by rw [(hf.bundles ..).2 h] at hb; cases hb)⟩
    | some b => rw [hb] at hx; exact .inl ⟨hx, b, (hf.bundles ..).1 hb⟩
  · rintro b x rfl; exact hok _ rfl
  · rintro ns dl x rfl; exact hok _ rfl
  · rintro m j x rfl; exact hok _ rfl

theorem C96_refuted : ¬ C96_Claim := by
  intro h
  have := (h "me" [⟨.deleteBundle "n" 1, .error .bundleDeletionFailed⟩] .empty ⟨by rintro r ⟨⟩; rfl, by
    show _ = _
    unfold Ref.Hosted Ref.after Ref.Cloud.empty
    simp⟩ [] _ [] rfl).2.2.1 "n" 1 _ rfl
  rcases this with ⟨h, _⟩ | ⟨h, _⟩ <;> cases h

/-- C96, a consequence: purging a backend that has no bundle on the server, e.g. for the second time, never succeeds with the reference implementation. -/
theorem C96_purge (M : Mgr) (ns : Ns) (t : List Ev) (r : Res Exn Unit) (s s' : Ref.Cloud) (he : Exec (purgeBackend M ns) t r)
    (hr : (Ref.Hosted M.ownJid).Runs s t s') (hb : s.bundles ns M.ownJid M.ownDev = none) : r ≠ .ok () := by
  let I : Ref.Cloud → Prop := fun s => s.bundles ns M.ownJid M.ownDev = none
  let Φ : Op → Prop := fun o => ∀ b, o ≠ .uploadBundle b
  have keep : ∀ {α : Type} {p : P α}, AllOps Φ p → ∀ s, I s → wp (Ref.Hosted M.ownJid) p (ends (fun _ => I) fun _ _ => True) s := by
    intro α p hp s hs
    refine wp_mono (Pres.ofOps (N := Ref.Hosted M.ownJid) (I := I) hp (fun o ho s r _ hs => ?_) s hs) fun r s' h => ?_
    · cases o <;> first
        | exact hs
        | exact absurd rfl (ho _)
        | (show (if _ then _ else _) = _
           split
           · rfl
           · exact hs)
    · cases r <;> first | exact h | trivial
  have hw : wp (Ref.Hosted M.ownJid) (purgeBackend M ns) (ends (fun _ _ => False) fun _ _ => True) s := by
    have hpre : purgeBackend M ns = (do
        let dl ← call (.downloadList ns M.ownJid)
        Prog.when (M.ownDev ∈ Dict.keys dl) do
          call (.uploadList ns (Dict.erase dl M.ownDev))
        let (device, _) ← getOwnDeviceInformation M
        call (.store (.devActive M.ownJid M.ownDev) (.ofBools (device.active.erase ns)))
        call (.store (.devNamespaces M.ownJid M.ownDev) (.ofStrs (M.O.iter (setDiff device.namespaces [ns]))))
        let bs ← call .getBackends
        call (.setBackends (setDiff bs [ns]))
        Prog.when (ns ∈ bs) do
          call (.purge ns)) >>= fun _ => call (.deleteBundle ns M.ownDev) := by
      simp only [purgeBackend, Prog.bind_assoc']
    rw [hpre, ends_bind]
    have hinfo : AllOps Φ (getOwnDeviceInformation M) := (ops_getOwnDeviceInformation M).mono fun o h => by cases h <;> exact nofun
    refine ends_mono (keep ?_ s hb) (fun _ s1 h1 => ?_) fun _ _ _ => trivial
    · lib_ops [hinfo]
      all_goals (rename_i h; cases h)
    · refine wp_perform.2 ⟨trivial, fun a ha => ?_, fun _ _ => trivial⟩
      have := ha _ rfl
      have h1 : s1.bundles ns M.ownJid M.ownDev = none := h1
      rw [h1] at this
      cases this
  rintro rfl
  exact wp_sound hw he hr

/-! ### C97: the storage -/

namespace Ref

theorem raw_of_mem {w : RawW} {e : Event RawSig Exn} (h : InMemory.ok w e) : RawKV.ok w e ∧ InMemory.next w e = RawKV.next w e := by
  obtain ⟨o, r⟩ := e
  cases o <;> first
    | (cases (show r = _ from h); exact ⟨trivial, rfl⟩)
    | (cases (show r = _ from h); exact ⟨rfl, rfl⟩)
    | exact ⟨trivial, rfl⟩

theorem runs_raw {w w' : RawW} {t : List (Event RawSig Exn)} (h : InMemory.Runs w t w') : RawKV.Runs w t w' := by
  induction t generalizing w with
  | nil => exact h
  | cons e t ih =>
    obtain ⟨h1, h2⟩ := raw_of_mem h.1
    exact ⟨h1, h2 ▸ ih h.2⟩

/-- Where storage access does not fail, it is answered. -/
def Answered (u : List Ev) : Prop := ∀ e ∈ u, e.1.isStorage = true → ∃ a, e.2 = .ok a

theorem impl_answered (o : Op) (ho : o.isStorage = true) (w : RawW) : wp InMemory (Storage.impl true o) (fun r _ => ∀ e, r ≠ .raised e) w := by
  cases o <;> first
    | (cases ho; done)
    | skip
  case load k =>
    show wp InMemory (Storage.load true k) _ w
    unfold Storage.load
    simp only [if_true]; wpsimp
    refine ⟨nofun, fun a ha => ?_, fun e h => ?_⟩
    · cases a with
      | some m => wpsimp; exact nofun
      | none =>
        wpsimp
        refine ⟨nofun, fun a ha => ⟨nofun, fun _ _ => nofun, fun e h => ?_⟩, fun e h => ?_⟩ <;> cases (show _ = _ from h)
    · cases (show _ = _ from h)
  case store k v =>
    show wp InMemory (Storage.store true k v) _ w
    unfold Storage.store
    simp only [if_true]; wpsimp
    refine ⟨nofun, fun a ha => ⟨nofun, fun _ _ => nofun, fun e h => ?_⟩, fun e h => ?_⟩ <;> cases (show _ = _ from h)
  case delete k =>
    show wp InMemory (Storage.delete true k) _ w
    unfold Storage.delete
    simp only [if_true]; wpsimp
    refine ⟨nofun, fun a ha => ⟨nofun, fun _ _ => nofun, fun e h => ?_⟩, fun e h => ?_⟩ <;> cases (show _ = _ from h)

/-- Refinement of a whole program, as for C01, without failures of the storage. -/
theorem compile_answered {α : Type} (p : P α) (w : RawW) (h : List (Event RawSig Exn)) (hc : Coherent true w) :
    wp (InMemory.prod (.hist RawSig Exn)) (Storage.compile true p) (fun r s =>
      (r ≠ .crashed → Coherent true s.1) ∧
      ∃ u r', Exec p u r' ∧ KV.Runs w.disk u s.1.disk ∧ Answered u ∧ rawOther s.2 = rawOther h ++ libOther u ∧
        (r ≠ .crashed → r' = r)) (w, h) := by
  have spec : ∀ (o : Op) (w : RawW) (h : List (Event RawSig Exn)), Coherent true w → wp (InMemory.prod (.hist RawSig Exn)) (Storage.impl true o) (fun r s =>
      match r with
      | .ok a => Coherent true s.1 ∧ KV.ok w.disk ⟨o, .ok a⟩ ∧ s.1.disk = KV.next w.disk ⟨o, .ok a⟩ ∧
          rawOther s.2 = rawOther h ++ libOther [⟨o, .ok a⟩]
      | .raised e => o.isStorage = false ∧ Coherent true s.1 ∧ KV.ok w.disk ⟨o, .error e⟩ ∧ s.1.disk = KV.next w.disk ⟨o, .error e⟩ ∧
          rawOther s.2 = rawOther h ++ libOther [⟨o, .error e⟩]
      | .crashed => rawOther s.2 = rawOther h ∧ (s.1.disk = w.disk ∨ ∃ a, KV.ok w.disk ⟨o, .ok a⟩ ∧
          s.1.disk = KV.next w.disk ⟨o, .ok a⟩ ∧ libOther [⟨o, .ok a⟩] = [])) (w, h) := by
    intro o w h hc
    refine wp_iff.2 fun t r s he hr => ?_
    obtain ⟨hr1, hr2⟩ := Sem.runs_prod.1 hr
    have h1 := wp_sound (impl_spec true o w h hc) he (w' := s) (Sem.runs_prod.2 ⟨runs_raw hr1, hr2⟩)
    cases r with
    | ok a => exact h1
    | crashed => exact h1
    | raised e =>
      refine ⟨?_, h1⟩
      cases ho : o.isStorage
      · rfl
      · exact absurd rfl (wp_sound (impl_answered o ho w) he hr1 e)
  induction p generalizing w h with
  | ret a => exact ⟨fun _ => hc, [], _, .ret a, rfl, (fun _ h => absurd h List.not_mem_nil), (List.append_nil _).symm, fun _ => rfl⟩
  | raise e => exact ⟨fun _ => hc, [], _, .raise e, rfl, (fun _ h => absurd h List.not_mem_nil), (List.append_nil _).symm, fun _ => rfl⟩
  | op o k ih =>
    simp only [Storage.compile, wp_tryElse]
    refine wp_mono (spec o w h hc) ?_
    rintro r ⟨w', h'⟩ hr
    have step : ∀ x : Except Exn o.Ret, (o.isStorage = true → ∃ a, x = .ok a) → Coherent true w' → KV.ok w.disk ⟨o, x⟩ → w'.disk = KV.next w.disk ⟨o, x⟩ →
        rawOther h' = rawOther h ++ libOther [⟨o, x⟩] →
        wp (InMemory.prod (.hist RawSig Exn)) (Storage.compile true (k x)) (fun r s =>
          (r ≠ .crashed → Coherent true s.1) ∧
          ∃ u r', Exec (.op o k) u r' ∧ KV.Runs w.disk u s.1.disk ∧ Answered u ∧ rawOther s.2 = rawOther h ++ libOther u ∧
            (r ≠ .crashed → r' = r)) (w', h') := by
      intro x hx hc' hok hd ho
      refine wp_mono (ih x w' h' hc') ?_
      rintro r s ⟨h1, u, r', he, hruns, hans, hoth, hres⟩
      refine ⟨h1, ⟨o, x⟩ :: u, r', Exec.op (S := LibSig) (o := o) (k := k) x he, ⟨hok, by rw [← hd]; exact hruns⟩, ?_, ?_, hres⟩
      · intro e hm hs
        rcases List.mem_cons.1 hm with rfl | hm
        · exact hx hs
        · exact hans e hm hs
      · rw [hoth, ho, libOther_cons ⟨o, x⟩ u, List.append_assoc]
    cases r with
    | ok a => exact step (.ok a) (fun _ => ⟨a, rfl⟩) hr.1 hr.2.1 hr.2.2.1 hr.2.2.2
    | raised e => exact step (.error e) (fun hs => by rw [hr.1] at hs; cases hs) hr.2.1 hr.2.2.1 hr.2.2.2.1 hr.2.2.2.2
    | crashed =>
      refine ⟨fun hn => absurd rfl hn, ?_⟩
      rcases hr with ⟨ho, hd | ⟨a, hok, hd, hl⟩⟩
      · exact ⟨[], _, .crash o k, hd, (fun _ h => absurd h List.not_mem_nil), ho.trans (List.append_nil _).symm, fun hn => absurd rfl hn⟩
      · obtain ⟨r', u, he, hu⟩ : ∃ r' : Res Exn α, ∃ u, Exec (k (.ok a)) u r' ∧ u = [] := by
          generalize k (.ok a) = q
          cases q with
          | ret a => exact ⟨_, [], .ret a, rfl⟩
          | raise e => exact ⟨_, [], .raise e, rfl⟩
          | op o k => exact ⟨_, [], .crash o k, rfl⟩
        subst hu
        refine ⟨[⟨o, .ok a⟩], r', Exec.op (S := LibSig) (o := o) (k := k) (.ok a) he, ⟨hok, hd⟩, ?_, ?_, fun hn => absurd rfl hn⟩
        · intro e hm _
          cases List.mem_singleton.1 hm
          exact ⟨a, rfl⟩
        · rw [hl, List.append_nil]; exact ho

end Ref

/-- C97.  On the in-memory storage of the reference implementation, with the cache it enables, the library runs as on a plain map that never fails. -/
theorem C97 {α : Type} (p : P α) (m : Disk) (w' : RawW) (t : List (Event RawSig Exn)) (r : Res Exn α)
    (he : Exec (Storage.compile true p) t r) (hr : Ref.InMemory.Runs ⟨m, fun _ => none⟩ t w') :
    ∃ u r', Exec p u r' ∧ KV.Runs m u w'.disk ∧ (∀ e ∈ u, e.1.isStorage = true → ∃ a, e.2 = .ok a) ∧ rawOther t = libOther u ∧ (r ≠ .crashed → r' = r) := by
  have h := wp_sound (Ref.compile_answered p ⟨m, fun _ => none⟩ [] (fun _ _ _ h => by cases h)) he (w' := (w', t))
    (Sem.runs_prod.2 ⟨hr, Sem.runs_hist.2 (by simp)⟩)
  exact h.2

/-- C97, the calls of a `Storage`: every call returns, with the value stored last. -/
theorem C97_calls (cs : List StCall) (m : Disk) (t : List (Event RawSig Exn)) (h : List Observed) (w' : RawW)
    (he : Exec (runCalls true cs) t (.ok h)) (hr : Ref.InMemory.Runs ⟨m, fun _ => none⟩ t w') :
    Explains m h ∧ h.map (·.1) = cs ∧ ∀ x ∈ h, ∃ v, x.2 = .ok v := by
  obtain ⟨h1, h2⟩ := C01_cache_transparent true cs m t h w' he (Ref.runs_raw hr)
  refine ⟨h1, h2, ?_⟩
  have key : ∀ (cs : List StCall) (w : RawW), wp Ref.InMemory (runCalls true cs) (fun r _ => ∀ h, r = .ok h → ∀ x ∈ h, ∃ v, x.2 = .ok v) w := by
    intro cs
    induction cs with
    | nil => intro w h hh; cases hh; simp
    | cons c cs ih =>
      intro w
      have next : ∀ (w' : RawW) (v : Option JVal), wp Ref.InMemory (runCalls true cs >>= fun rest => pure ((c, .ok v) :: rest))
          (fun r _ => ∀ h, r = .ok h → ∀ x ∈ h, ∃ v, x.2 = .ok v) w' := by
        intro w' v
        rw [wp_bind]
        refine wp_mono (ih w') fun r w'' hh => ?_
        cases r with
        | ok rest =>
          intro h hx x hm
          cases hx
          rcases List.mem_cons.1 hm with rfl | hm
          · exact ⟨v, rfl⟩
          · exact hh rest rfl x hm
        | raised => intro h hx; cases hx
        | crashed => intro h hx; cases hx
      simp only [runCalls, wp_bind, wp_tryElse]
      cases c with
      | load k =>
        refine wp_mono (Ref.impl_answered (.load k) rfl w) fun r w' hr => ?_
        cases r with
        | ok a => have := next w' a; rw [wp_bind] at this; exact this
        | raised e => exact absurd rfl (hr e)
        | crashed => intro h hx; cases hx
      | store k v =>
        simp only [wp_bind]
        refine wp_mono (Ref.impl_answered (.store k v) rfl w) fun r w' hr => ?_
        cases r with
        | ok a => have := next w' none; rw [wp_bind] at this; exact this
        | raised e => exact absurd rfl (hr e)
        | crashed => intro h hx; cases hx
      | delete k =>
        simp only [wp_bind]
        refine wp_mono (Ref.impl_answered (.delete k) rfl w) fun r w' hr => ?_
        cases r with
        | ok a => have := next w' none; rw [wp_bind] at this; exact this
        | raised e => exact absurd rfl (hr e)
        | crashed => intro h hx; cases hx
  exact wp_sound (key cs _) he hr h rfl

/-! ### Examples -/

namespace Ref

/-- Answers of a world around servers like these. -/
def env (f : World → (o : Op) → Except Exn o.Ret) (own : Jid) (x : World × Cloud) (o : Op) : Except Exn o.Ret :=
  (reply own x.2 o).getD (Lib.env f x.1 o)

theorem env_ok (f : World → (o : Op) → Except Exn o.Ret) (hf : ∀ w o e, f w o = .error e → e.isInternal = false) (own : Jid) (x : World × Cloud) (o : Op) :
    (Lib.prod (Hosted own)).ok x ⟨o, env f own x o⟩ := by
  refine ⟨?_, fun r hr => ?_⟩
  · cases hx : reply own x.2 o with
    | none => rw [env, hx]; exact Lib.env_ok f hf x.1 o
    | some r =>
      rw [env, hx]
      cases o <;> first
        | (cases hx; done)
        | skip
      all_goals
        rw [Lib.ok_ext rfl]
        intro e he
        cases hx
        dsimp only [Option.getD_some] at he
      all_goals first
        | (cases he; done)
        | (split at he <;> cases he; rfl)
        | (unfold evaluate at he
           split at he <;> cases he
           rfl)
  · show env f own x o = r
    rw [env, hr]
    rfl

/-- The friendly world, without sessions, in which messages can be encrypted. -/
def kindly : World → (o : Op) → Except Exn o.Ret
  | _, .loadSession _ _ _ => .ok none
  | w, .encryptPlaintext n p => polite w (.encryptPlaintext n p)
  | w, o => genuine w o

theorem kindly_ok (w : World) (o : Op) (e : Exn) (h : kindly w o = .error e) : e.isInternal = false := by
  cases o <;> first
    | (cases h; done)
    | (cases h; rfl)
    | (simp only [kindly, genuine] at h; split at h <;> cases h; rfl)

/-- A run with these servers in it. -/
def run {α : Type} (own : Jid) (p : P α) (x : World × Cloud) := runProg (env kindly own) (Lib.prod (Hosted own)).next 600 p x

theorem run_exec {α : Type} (own : Jid) (p : P α) (x : World × Cloud) : Exec p (run own p x).1 (run own p x).2.1 := runProg_exec ..
theorem run_runs {α : Type} (own : Jid) (p : P α) (x : World × Cloud) :
    Lib.Runs x.1 (run own p x).1 (run own p x).2.2.1 ∧ (Hosted own).Runs x.2 (run own p x).1 (run own p x).2.2.2 :=
  Sem.runs_prod.1 (runProg_runs (Lib.prod (Hosted own)) (env kindly own) (env_ok kindly kindly_ok own) 600 p x)

theorem run_labelled {α : Type} (own : Jid) (p : P α) (x : World × Cloud) : Labelled (run own p x).1 := by
  intro ns j d b h
  obtain ⟨w, hw⟩ := runProg_answers _ _ _ _ _ _ h
  cases hw
  exact ⟨rfl, rfl, rfl⟩

/-- Another account, "a", with one device. -/
def Cloud.other : Cloud where
  bundles ns j d := if ns = "n" ∧ j = "a" ∧ d = 7 then some ⟨"n", "a", 7, [7], 0⟩ else none
  lists ns j := if ns = "n" ∧ j = "a" then some [(7, none)] else none
  queue := []

/-- The first start of a manager. -/
def started := run "me" (create (mgr Mgr.btbv) ["n"] none 5) (World.fresh, .other)
/-- The device list of "a" arrives. -/
def refreshed := run "me" (refreshDeviceList (mgr Mgr.btbv) "n" "a") started.2.2
/-- A message for "a". -/
def greeted := run "me" (encrypt (mgr Mgr.btbv) ["a"] [("n", [1])] none none) refreshed.2.2
/-- The backend is removed. -/
def purged := run "me" (purgeBackend (mgr Mgr.btbv) "n") started.2.2
/-- And again. -/
def purgedAgain := run "me" (purgeBackend (mgr Mgr.btbv) "n") purged.2.2

end Ref

/-- A first message, to a device nobody has decided about: it is trusted, and gets a key. -/
theorem C94_example :
    Exec (encrypt (Ref.mgr Mgr.btbv) ["a"] [("n", [1])] none none) Ref.greeted.1
      (.ok ([(⟨"n", "me", 1, ⟨false, 1⟩, [(⟨"a", 7, 1⟩, some ⟨[7], 0⟩)]⟩, ⟨1⟩)], [])) ∧
    Lib.Runs Ref.refreshed.2.2.1 Ref.greeted.1 Ref.greeted.2.2.1 ∧ Ref.refreshed.2.2.1.backends.Nodup ∧
    (∀ dev x, (⟨.evalTrust dev, x⟩ : Ev) ∈ Ref.greeted.1 → x = Ref.evaluate dev) ∧
    Ref.refreshed.2.2.1.disk (.trust "a" [7]) = none ∧ Ref.greeted.2.2.1.disk (.trust "a" [7]) = some (.str "TRUSTED") := by
  have hr : Ref.greeted.2.1 = .ok ([(⟨"n", "me", 1, ⟨false, 1⟩, [(⟨"a", 7, 1⟩, some ⟨[7], 0⟩)]⟩, ⟨1⟩)], []) := by decide +kernel
  refine ⟨hr ▸ Ref.run_exec .., (Ref.run_runs ..).1, by decide +kernel, fun dev x hx => ?_, by decide +kernel, by rfl⟩
  obtain ⟨w, hw⟩ := runProg_answers _ _ _ _ _ _ hx
  exact hw

/-- The first start next to another account: the own list and bundle appear, the data of the other account stays. -/
theorem C95_example :
    Exec (create (Ref.mgr Mgr.btbv) ["n"] none 5) Ref.started.1 (.ok 1) ∧ (Ref.Hosted "me").Runs .other Ref.started.1 Ref.started.2.2.2 ∧
    Ref.Labelled Ref.started.1 ∧ Ref.started.2.2.2.lists "n" "me" = some [(1, none)] ∧
    Ref.started.2.2.2.bundles "n" "me" 1 = some ⟨"n", "me", 1, [1, 2, 3], 0⟩ ∧ Ref.started.2.2.2.lists "n" "a" = some [(7, none)] := by
  have hr : Ref.started.2.1 = .ok 1 := by decide +kernel
  exact ⟨hr ▸ Ref.run_exec .., (Ref.run_runs "me" _ (World.fresh, .other)).2, Ref.run_labelled _ _ _, by decide +kernel, by decide +kernel, by decide +kernel⟩

/-- Purging works, purging again does not. -/
theorem C96_example :
    Exec (purgeBackend (Ref.mgr Mgr.btbv) "n") Ref.purged.1 (.ok ()) ∧ Ref.purged.2.2.2.lists "n" "me" = some [] ∧
    Ref.purged.2.2.2.bundles "n" "me" 1 = none ∧
    Exec (purgeBackend (Ref.mgr Mgr.btbv) "n") Ref.purgedAgain.1 (.raised .bundleDeletionFailed) ∧
    (Ref.Hosted "me").Runs Ref.purged.2.2.2 Ref.purgedAgain.1 Ref.purgedAgain.2.2.2 := by
  have h1 : Ref.purged.2.1 = .ok () := by decide +kernel
  have h2 : Ref.purgedAgain.2.1 = .raised .bundleDeletionFailed := by decide +kernel
  exact ⟨h1 ▸ Ref.run_exec .., by decide +kernel, by decide +kernel, h2 ▸ Ref.run_exec .., (Ref.run_runs ..).2⟩

/-- Calls on the in-memory storage. -/
theorem C97_example : ∃ t h w', Exec (runCalls true [.load .ownDeviceId, .store .ownDeviceId (.int 7), .load .ownDeviceId,
      .delete .ownDeviceId, .load .ownDeviceId]) t (.ok h) ∧
    Ref.InMemory.Runs ⟨fun _ => none, fun _ => none⟩ t w' ∧
    h.map (·.2) = [.ok none, .ok none, .ok (some (.int 7)), .ok none, .ok none] :=
  let f := fun o : Op => (.error (.app 0) : Except Exn o.Ret)
  ⟨_, _, _, runProg_exec (RawKV.env f) Ref.InMemory.next 20 _ ⟨fun _ => none, fun _ => none⟩,
    runProg_runs Ref.InMemory (RawKV.env f) (fun w o => by cases o <;> first | trivial | rfl) 20 _ ⟨fun _ => none, fun _ => none⟩, rfl⟩

end Verif
