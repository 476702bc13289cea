import Verif.Props.Pinned
/-
Trust levels belong to pairs of JID and identity key, and start undecided.
-/
namespace Verif
open SM Spec Foot

/-- The trust decision callback of `M` does not touch the trust of `(j, ik)`, whatever it is answered. -/
def Spec.LeavesTrust (M : Mgr) (j : Jid) (ik : Bytes) : Prop :=
  ∀ ds i, AllOps (fun o : Op => o ≠ .delete (.trust j ik) ∧ ∀ v, o ≠ .store (.trust j ik) v) (M.decide ds i)

namespace TrustKept
variable {M : Mgr} {j : Jid} {ik : Bytes} {Q : Option JVal → Prop}

/-- What is said about the stored trust of `(j, ik)`. -/
def At (j : Jid) (ik : Bytes) (Q : Option JVal → Prop) (w : World) : Prop := Q (w.disk (.trust j ik))

theorem keep {φ : Op → Prop} (h1 : ∀ v, ¬ φ (.store (.trust j ik) v)) (h2 : ¬ φ (.delete (.trust j ik))) : OpsKeep (At j ik Q) φ := place_keep _ Q h1 h2

theorem parts : Parts (At j ik Q) M where
  quiet := keep (by rintro v (⟨_, h⟩ | ⟨_, _, h⟩) <;> cases h) (by rintro (⟨_, h⟩ | ⟨_, _, h⟩) <;> cases h)
  info jid := (keep (φ := Info jid) nofun nofun).pres (SM.ops_getDeviceInformation' M jid)
  update ns jid dl := (keep (φ := Update M ns jid) nofun nofun).pres (SM.ops_updateDeviceList M ns jid dl)

theorem ownParts : OwnParts (At j ik Q) M :=
  ⟨fun a => (keep (φ := fun o => o = .store (.devActive M.ownJid M.ownDev) (.ofBools a)) nofun nofun).pres (.perform rfl),
   fun l => (keep (φ := fun o => o = .store (.devNamespaces M.ownJid M.ownDev) (.ofStrs l)) nofun nofun).pres (.perform rfl)⟩

theorem ikp : Pres Lib (At j ik Q) IdentityKeyPair.get :=
  pres_ikp fun w w' hw h => by unfold At; rw [h.frame (.trust j ik) nofun nofun]; exact hw

theorem purge {jid : Jid} (h : jid = j → Q none) : Pres Lib (At j ik Q) (SM.purgeBareJid M jid) := by
  refine Pres.ofOps (SM.ops_purgeBareJid M jid) fun o ho w r hok hw => ?_
  by_cases hd : o = .delete (.trust j ik)
  · subst hd
    cases ho
    cases r with
    | error e => exact hw
    | ok a =>
      show Q (w.disk.upd (.trust j ik) none (.trust j ik))
      rw [Disk.upd_self]
      exact h rfl
  · refine keep (φ := fun o' => o' = o) ?_ (fun h => hd h.symm) o rfl w r hok hw
    rintro v rfl
    cases ho

theorem call {c : Call} (hc : ∀ bs l f, c ≠ .create bs l f) (hp : c = .purgeBareJid j → Q none) (hs : ∀ l, c ≠ .setTrust j ik l)
    (happ : LeavesTrust M j ik) : Pres Lib (At j ik Q) (c.run M) := by
  refine parts.call c ?_
  cases c with
  | getIdentityKeyPair => exact ikp
  | create bs l f => exact (hc _ _ _ rfl).elim
  | purgeBackend ns => exact ownParts
  | purgeBareJid jid => exact purge fun h => hp (by rw [h])
  | setTrust j' ik' l =>
    refine (keep (φ := fun o => o = .store (.trust j' ik') (.str l)) ?_ nofun).pres (.perform rfl)
    intro v h; cases h; exact hs l rfl
  | setOwnLabel l => exact (keep (φ := fun o => o = .store (.devLabel M.ownJid M.ownDev) (.ofOptStr l)) nofun nofun).pres (.perform rfl)
  | encrypt => exact fun ds i => (keep (φ := fun o => o ≠ .delete (.trust j ik) ∧ ∀ v, o ≠ .store (.trust j ik) v) (fun v h => h.2 v rfl) fun h => h.1 rfl).pres (happ ds i)
  | _ => trivial

theorem storeOwnDevice (label : Option String) (k : Bytes) (bs : List Ns) (h : Q (some (.str M.undecided))) :
    Pres Lib (At j ik Q) (SM.storeOwnDevice M label k bs) := by
  refine Pres.ofOps (SM.ops_storeOwnDevice M label k bs) fun o ho w r hok hw => ?_
  by_cases hd : ∃ v, o = .store (.trust j ik) v
  · obtain ⟨v, rfl⟩ := hd
    cases ho
    cases r with
    | error e => exact hw
    | ok a =>
      show Q (w.disk.upd (.trust M.ownJid ik) (some (.str M.undecided)) (.trust M.ownJid ik))
      rw [Disk.upd_self]
      exact h
  · refine keep (φ := fun o' => o' = o) (fun v h => hd ⟨v, h.symm⟩) ?_ o rfl w r hok hw
    rintro rfl
    cases ho

theorem create (h : Q (some (.str M.undecided))) (bs : List Ns) (label : Option String) (fuel : Nat) :
    Pres Lib (At j ik Q) (SM.create M bs label fuel) :=
  Parts.create (fun _ => parts) (fun _ => ownParts) ikp bs label fuel
    (fun d' k bs => storeOwnDevice (M := { M with ownDev := d' }) label k bs h)

theorem create_again (bs : List Ns) (label : Option String) (fuel : Nat) :
    Pres Lib (fun w => At j ik Q w ∧ IdSet w) (SM.create M bs label fuel) :=
  Parts.create_again (fun _ => parts.and (.ofWrites idSet_quiet idSet_writes)) (fun _ => ownParts.and (.ofWrites idSet_writes))
    (ikp.and idSet_ikp) (fun _ h => h.2) bs label fuel

end TrustKept

/-! ### C25 -/

/-- The stored trust of a pair changes only by setting it or purging the JID. -/
theorem C25_kept (own : Jid) (x : XEdDSA) (s0 s s' : Use) (cs cs' : List (Mgr × Call)) (j : Jid) (ik : Bytes) (hnew : New s0)
    (h : Life own x s0 cs s) (hm : s.mgrs ≠ []) (h' : Life own x s cs' s') (happ : ∀ c ∈ cs ++ cs', ViaApi c.1)
    (hl : ∀ c ∈ cs', LeavesTrust c.1 j ik) (hp : ∀ c ∈ cs', c.2 ≠ .purgeBareJid j) (hs : ∀ c ∈ cs', ∀ l, c.2 ≠ .setTrust j ik l) :
    s'.world.disk (.trust j ik) = s.world.disk (.trust j ik) := by
  have h1 := inUse_life h (fun c hc => happ c (by simp [hc])) (inUse_new hnew)
  have happ' : ∀ c ∈ cs', ViaApi c.1 := fun c hc => happ c (by simp [hc])
  have hid : IdSet s.world := by
    rcases h1 with h1 | ⟨dev, h1, -⟩
    · exact (hm h1.2).elim
    · unfold IdSet; rw [h1]; nofun
  generalize hv : s.world.disk (.trust j ik) = v
  clear happ h h1 hm
  induction h' with
  | nil => exact hv
  | @cons s s1 s2 c cs hst _ ih =>
    have key : TrustKept.At j ik (fun v' => v' = v) s1.world ∧ IdSet s1.world := by
      have hq : TrustKept.At j ik (fun v' => v' = v) s.world := hv
      have hl := hl _ (.head _)
      have hp := hp _ (.head _)
      have hs := hs _ (.head _)
      have happ := happ' _ (.head _)
      clear ih
      cases hst with
      | ikp M he hr =>
        exact ⟨wp_sound (TrustKept.call (c := .getIdentityKeyPair) nofun nofun nofun hl _ hq) he hr, wp_sound (idSet_ikp.bind (fun _ => Pres.pure _) _ hid) he hr⟩
      | create M bs label fuel hj hx he hr => exact wp_sound (TrustKept.create_again bs label fuel _ ⟨hq, hid⟩) he hr
      | call M c hM hc he hr =>
        refine ⟨wp_sound (TrustKept.call hc (fun h => (hp h).elim) hs hl _ hq) he hr, ?_⟩
        cases hw : s.world.disk .ownDeviceId with
        | none => exact (hid hw).elim
        | some v =>
          have h3 : IdIs (some v) _ := wp_sound (idIs_call (v := some v) hc happ _ hw) he hr
          exact fun h => by cases h.symm.trans h3
    exact ih (fun c hc => hl c (.tail _ hc)) (fun c hc => hp c (.tail _ hc)) (fun c hc => hs c (.tail _ hc))
      (fun c hc => happ' c (.tail _ hc)) key.2 key.1

/-- Setting trust changes nothing but the trust of the pair. -/
theorem C25_frame (M : Mgr) (j : Jid) (ik : Bytes) (level : String) (t : List Ev) (r : Res Exn Unit) (w w' : World)
    (he : Exec ((Call.setTrust j ik level).run M) t r) (hr : Lib.Runs w t w') :
    (∀ k, k ≠ .trust j ik → w'.disk k = w.disk k) ∧ (w'.disk (.trust j ik) = w.disk (.trust j ik) ∨ w'.disk (.trust j ik) = some (.str level)) ∧
      (r = .ok () → w'.disk (.trust j ik) = some (.str level)) := by
  have : wp Lib ((Call.setTrust j ik level).run M) (fun r w' => (∀ k, k ≠ .trust j ik → w'.disk k = w.disk k) ∧
      (w'.disk (.trust j ik) = w.disk (.trust j ik) ∨ w'.disk (.trust j ik) = some (.str level)) ∧
      (r = .ok () → w'.disk (.trust j ik) = some (.str level))) w := by
    rw [wp_ends]
    refine Lib.store (fun x _ => ?_) ?_
    · cases x <;> exact ⟨fun _ _ => rfl, .inl rfl, nofun⟩
    · exact ⟨fun k hk => Disk.upd_of_ne hk, .inr Disk.upd_self, fun _ => Disk.upd_self⟩
  exact wp_sound this he hr

/-- After `set_trust`, and until trust is set again for the pair or the JID is purged, all devices of the JID with this identity key are
reported with the level that was set. -/
theorem C25 (own : Jid) (x : XEdDSA) (s0 s s' : Use) (cs cs' : List (Mgr × Call)) (j : Jid) (ik : Bytes) (level : String) (hnew : New s0)
    (h : Life own x s0 cs s) (M : Mgr) (hM : M ∈ s.mgrs) (t : List Ev) (w1 : World)
    (he : Exec ((Call.setTrust j ik level).run M) t (.ok ())) (hr : Lib.Runs s.world t w1)
    (h' : Life own x ⟨w1, s.mgrs⟩ cs' s') (happ : ∀ c ∈ cs ++ (M, .setTrust j ik level) :: cs', ViaApi c.1)
    (hl : ∀ c ∈ cs', LeavesTrust c.1 j ik) (hp : ∀ c ∈ cs', c.2 ≠ .purgeBareJid j) (hs : ∀ c ∈ cs', ∀ l, c.2 ≠ .setTrust j ik l)
    (M' : Mgr) (t' : List Ev) (w' : World) (devs : List DeviceInfo)
    (he' : Exec (SM.getDeviceInformation M' j) t' (.ok devs)) (hr' : Lib.Runs s'.world t' w') (dev : DeviceInfo) (hd : dev ∈ devs)
    (hk : dev.identityKey = ik) : dev.trustLevelName = level := by
  have hlife : Life own x s0 (cs ++ [(M, .setTrust j ik level)]) ⟨w1, s.mgrs⟩ := h.snoc (.call M _ hM nofun he hr)
  have h1 := C25_kept own x s0 ⟨w1, s.mgrs⟩ s' _ cs' j ik hnew hlife (by rintro hn; rw [show s.mgrs = [] from hn] at hM; cases hM) h'
    (by simpa using happ) hl hp hs
  have h2 := (C25_frame M j ik level t _ _ _ he hr).2.2 rfl
  have h3 := (describes_info he' hr' dev hd).level
  rw [hk, h1] at h3
  simp only at h3
  rw [h2] at h3
  rcases h3 with h3 | ⟨h3, -⟩
  · cases h3; rfl
  · cases h3

/-! ### C26 -/

/-- A pair whose trust was never set is reported with the undecided level. -/
theorem C26 (own : Jid) (x : XEdDSA) (s0 s : Use) (cs : List (Mgr × Call)) (j : Jid) (ik : Bytes) (u : String) (hnew : New s0)
    (h : Life own x s0 cs s) (hl : ∀ c ∈ cs, LeavesTrust c.1 j ik) (hs : ∀ c ∈ cs, ∀ l, c.2 ≠ .setTrust j ik l)
    (hu : ∀ c ∈ cs, c.1.undecided = u) (M : Mgr) (hM : M.undecided = u) (t : List Ev) (w' : World) (devs : List DeviceInfo)
    (he : Exec (SM.getDeviceInformation M j) t (.ok devs)) (hr : Lib.Runs s.world t w') (dev : DeviceInfo) (hd : dev ∈ devs)
    (hk : dev.identityKey = ik) : dev.trustLevelName = u := by
  have h1 : TrustKept.At j ik (fun v => v = none ∨ v = some (.str u)) s.world := by
    have h0 : TrustKept.At j ik (fun v => v = none ∨ v = some (.str u)) s0.world := by
      left
      cases hv : s0.world.disk (.trust j ik) with
      | none => rfl
      | some v => rcases hnew.disk _ v hv with h | h <;> cases h
    clear hnew he hr
    induction h with
    | nil => exact h0
    | @cons s s1 s2 c cs hst _ ih =>
      refine ih (fun c hc => hl c (.tail _ hc)) (fun c hc => hs c (.tail _ hc)) (fun c hc => hu c (.tail _ hc)) ?_
      have hl := hl _ (.head _)
      have hs := hs _ (.head _)
      have hu := hu _ (.head _)
      clear ih
      cases hst with
      | ikp M he hr => exact wp_sound (TrustKept.call (c := .getIdentityKeyPair) nofun nofun nofun hl _ h0) he hr
      | create M bs label fuel hj hx he hr => exact wp_sound (TrustKept.create (.inr (by rw [← hu])) bs label fuel _ h0) he hr
      | call M c hM hc he hr => exact wp_sound (TrustKept.call hc (fun _ => .inl rfl) hs hl _ h0) he hr
  have h3 := (describes_info he hr dev hd).level
  rw [hk] at h3
  rcases h1 with h1 | h1 <;> rw [h1] at h3 <;> rcases h3 with h3 | ⟨h3, h4⟩
  · cases h3
  · exact h4.trans hM
  · cases h3; rfl
  · cases h3

/-! ### Examples -/

/-- Trust was set. -/
def Use.decided : Use := Friendly.genuine.use Mgr.ex (.setTrust "a" [7] "trusted") Use.met

/-- Afterwards the device list changes, trust is set for another key, and the library is started again. -/
def Use.decided2 : Use := Friendly.genuine.again Mgr.ex ["n", "o"] none (Friendly.genuine.use Mgr.ex (.setTrust "a" [8] "distrusted")
  (Friendly.genuine.use Mgr.ex (.updateDeviceList "o" "a" [(8, none)]) Use.decided))

theorem leaves_ex (j : Jid) (ik : Bytes) : LeavesTrust Mgr.ex j ik := fun _ _ => trivial

/-- The device is reported with the level that was set, the other one with its own. -/
theorem C25_example : ∃ cs t w' cs' t' w'' d7 d8, Life "me" Mgr.ex.x Use.fresh cs Use.met ∧
    Exec ((Call.setTrust "a" [7] "trusted").run Mgr.ex) t (.ok ()) ∧ Lib.Runs Use.met.world t w' ∧
    Life "me" Mgr.ex.x ⟨w', Use.met.mgrs⟩ cs' Use.decided2 ∧ cs'.length = 3 ∧
    Exec (SM.getDeviceInformation Mgr.ex "a") t' (.ok [d8, d7]) ∧ Lib.Runs Use.decided2.world t' w'' ∧
    d7.identityKey = [7] ∧ d7.trustLevelName = "trusted" ∧ d8.identityKey = [8] ∧ d8.trustLevelName = "distrusted" := by
  have hr1 : (Friendly.genuine.run ((Call.setTrust "a" [7] "trusted").run Mgr.ex) Use.met.world).2.1 = .ok () := by decide +kernel
  have he1 := hr1 ▸ Friendly.genuine.exec ((Call.setTrust "a" [7] "trusted").run Mgr.ex) Use.met.world
  have h := Friendly.genuine.lifeAgain (Friendly.genuine.life (Friendly.genuine.life (.nil Use.decided) (M := Mgr.ex) (c := .updateDeviceList "o" "a" [(8, none)])
    (by simp [Use.decided, Use.met, Friendly.use, Use.started]) nofun) (M := Mgr.ex) (c := .setTrust "a" [8] "distrusted")
      (by simp [Use.decided, Use.met, Friendly.use, Use.started]) nofun)
    (M := Mgr.ex) (own := "me") (x := Mgr.ex.x) rfl rfl ["n", "o"] none
  have hr : (Friendly.genuine.run (getDeviceInformation Mgr.ex "a") Use.decided2.world).2.1 =
      .ok [⟨["o"], [("o", true)], "a", 8, [8], "distrusted", none⟩, ⟨["n"], [("n", true)], "a", 7, [7], "trusted", some "x"⟩] := by decide +kernel
  have he := hr ▸ Friendly.genuine.exec (getDeviceInformation Mgr.ex "a") Use.decided2.world
  have hlife := C25 "me" Mgr.ex.x _ _ _ _ _ "a" [7] "trusted" fresh_new met_life Mgr.ex (by simp [Use.met, Friendly.use, Use.started]) _ _ he1
    (Friendly.genuine.runs _ _) h (by simp [ViaApi] <;> exact fun _ _ => .ret ()) (by simp [leaves_ex]) (by simp) (by simp) Mgr.ex _ _ _ he
    (Friendly.genuine.runs _ _) _ (.tail _ (.head _)) rfl
  exact ⟨_, _, _, _, _, _, _, _, met_life, he1, Friendly.genuine.runs _ _, h, rfl, he, Friendly.genuine.runs _ _, rfl, hlife, rfl, rfl⟩

/-- A device that was met is reported as undecided. -/
theorem C26_example : ∃ cs t w' dev, Life "me" Mgr.ex.x Use.fresh cs Use.met ∧ Exec (SM.getDeviceInformation Mgr.ex "a") t (.ok [dev]) ∧
    Lib.Runs Use.met.world t w' ∧ dev.identityKey = [7] ∧ dev.trustLevelName = Mgr.ex.undecided := by
  have hr : (Friendly.genuine.run (getDeviceInformation Mgr.ex "a") Use.met.world).2.1 =
      .ok [⟨["n"], [("n", true)], "a", 7, [7], "undecided", some "x"⟩] := by decide +kernel
  have he := hr ▸ Friendly.genuine.exec (getDeviceInformation Mgr.ex "a") Use.met.world
  exact ⟨_, _, _, _, met_life, he, Friendly.genuine.runs _ _, rfl,
    C26 "me" Mgr.ex.x _ _ _ "a" [7] Mgr.ex.undecided fresh_new met_life (by simp [leaves_ex]) (by simp) (by simp) Mgr.ex rfl _ _ _ he
      (Friendly.genuine.runs _ _) _ (.head _) rfl⟩

end Verif
