import Verif.Props.Blind
import Verif.Props.Decisive
/-
The example's trust system within `encrypt` (C78).
-/
namespace Verif
open SM Spec

/-- The stored trust level of the identity key `ik` of `j` is one of BTBV's, and not "undecided". -/
def Spec.Settled (m : Disk) (j : Jid) (ik : Bytes) : Prop :=
  ∃ s, m (.trust j ik) = some (.str s) ∧ (s = "TRUSTED" ∨ s = "BLINDLY_TRUSTED" ∨ s = "DISTRUSTED")

/-- What is expected of the two methods that the application implements: they do not withdraw decisions, the prompt decides about all
devices it is given, and they do not raise `StillUndecided` themselves. -/
structure Spec.Sensible (A : BTBV.App) : Prop where
  notify : ∀ ds i t r w w', Exec (A.notify ds i) t r → Lib.Runs w t w' → ∀ j ik, Settled w.disk j ik → Settled w'.disk j ik
  prompt : ∀ ds i t r w w', Exec (A.prompt ds i) t r → Lib.Runs w t w' → ∀ j ik, Settled w.disk j ik → Settled w'.disk j ik
  decides : ∀ ds i t w w', Exec (A.prompt ds i) t (.ok ()) → Lib.Runs w t w' → ∀ dev ∈ ds, Settled w'.disk dev.bareJid dev.identityKey
  notify_quiet : ∀ ds i t, Exec (A.notify ds i) t (.raised .stillUndecided) → ErrIn t .stillUndecided
  prompt_quiet : ∀ ds i t, Exec (A.prompt ds i) t (.raised .stillUndecided) → ErrIn t .stillUndecided

namespace Blindly
variable {M : Mgr} {A : BTBV.App}

open Decide

theorem raises_makeTrustDecision (hA : Sensible A) (ds : List DeviceInfo) (i : Option String) :
    Raises (S := LibSig) Quiet (· ≠ .stillUndecided) (BTBV.makeTrustDecision M A ds i) := by
  unfold BTBV.makeTrustDecision BTBV.sortJids BTBV.trustBlindly SM.setTrust
  have g1 := @raises_getDeviceInformation Quiet (· ≠ .stillUndecided) M still_basic.toCore (fun _ _ h => h)
  have g2 := fun ds i => raises_of (hA.notify_quiet ds i)
  have g3 := fun ds i => raises_of (hA.prompt_quiet ds i)
  have hall : ∀ (l : List DeviceInfo) (e : Exn), BTBV.allBlind l = .error e → e ≠ .stillUndecided := by
    intro l e he
    induction l with
    | nil => cases he
    | cons d l ih =>
      unfold BTBV.allBlind at he
      split at he
      · cases he; nofun
      · split at he
        · exact ih he
        · cases he
  lib_raises still_basic, [g1, g2, g3]
  all_goals exact hall _ _ (by assumption) (by assumption)

theorem settled_blinds {bl : List DeviceInfo} {t : List Ev} (h : ∀ e ∈ t, Blinds bl e) {w w' : World} (hr : Lib.Runs w t w') {j : Jid} {ik : Bytes}
    (hs : Settled w.disk j ik) : Settled w'.disk j ik := by
  induction t generalizing w with
  | nil => cases hr; exact hs
  | cons e t ih =>
    refine ih (fun x hx => h x (.tail _ hx)) hr.2 ?_
    obtain ⟨o, x⟩ := e
    obtain ⟨dev, hd, he⟩ := h _ (.head _)
    dsimp only at he
    subst he
    cases x with
    | error e => exact hs
    | ok a =>
      by_cases hk : Key.trust j ik = .trust dev.bareJid dev.identityKey
      · exact ⟨_, (congrArg (Lib.next w _).disk hk).trans Disk.upd_self, .inr (.inl rfl)⟩
      · obtain ⟨s, h1, h2⟩ := hs
        exact ⟨s, (Disk.upd_of_ne hk).trans h1, h2⟩

/-- After a decision, every device it was about is settled. -/
theorem settles (hu : M.undecided = "UNDECIDED") (hA : Sensible A) {und : List DeviceInfo} {i : Option String} {t : List Ev} {r : Res Exn Unit}
    {w w' : World} (he : Exec (BTBV.makeTrustDecision M A und i) t r) (hr : Lib.Runs w t w') :
    (∀ j ik, Settled w.disk j ik → Settled w'.disk j ik) ∧ (r = .ok () → ∀ dev ∈ und, Settled w'.disk dev.bareJid dev.identityKey) := by
  obtain ⟨t1, w1, hr1, hseen, h⟩ := C66 M hu A und i t r w w' he hr
  have k1 : ∀ j ik, Settled w.disk j ik → Settled w1.disk j ik := by
    rintro j ik ⟨s, h1, h2⟩
    exact ⟨s, (hseen (.trust j ik) fun _ _ => ⟨nofun, nofun⟩).trans h1, h2⟩
  rcases h with ⟨rfl, hne⟩ | ⟨bl, mn, t2, w2, t3, rfl, hr2, hbl, hmn, hfr, hst, h3⟩
  · cases Sem.runs_det hr hr1
    exact ⟨k1, fun h => absurd h hne⟩
  · obtain ⟨w1', hr1', hr'⟩ := Sem.runs_append.1 hr
    cases Sem.runs_det hr1 hr1'
    obtain ⟨w2', hr2', hr3⟩ := Sem.runs_append.1 hr'
    cases Sem.runs_det hr2 hr2'
    have k2 : ∀ j ik, Settled w1.disk j ik → Settled w2.disk j ik := fun j ik h => settled_blinds hst hr2 h
    rcases h3 with ⟨rfl, hne⟩ | ⟨hb, ha⟩
    · cases hr3
      exact ⟨fun j ik h => k2 _ _ (k1 _ _ h), fun h => absurd h hne⟩
    · have hb' : ∀ dev ∈ bl, Settled w2.disk dev.bareJid dev.identityKey := fun dev hd => ⟨_, hb dev hd, .inr (.inl rfl)⟩
      cases ha with
      | stopped h1 h2 hne => exact ⟨fun j ik h => hA.notify _ _ _ _ _ _ h2 hr3 _ _ (k2 _ _ (k1 _ _ h)), fun h => absurd h hne⟩
      | @going t4 t5 _ h1 h2 =>
        obtain ⟨w3, hr4, hr5⟩ := Sem.runs_append.1 hr3
        have k3 : ∀ j ik, Settled w2.disk j ik → Settled w3.disk j ik := by
          rcases h1 with ⟨_, rfl⟩ | ⟨_, h1⟩
          · cases hr4; exact fun _ _ h => h
          · exact hA.notify _ _ _ _ _ _ h1 hr4
        have k4 : ∀ j ik, Settled w3.disk j ik → Settled w'.disk j ik := by
          rcases h2 with ⟨_, rfl, _⟩ | ⟨_, h2⟩
          · cases hr5; exact fun _ _ h => h
          · exact hA.prompt _ _ _ _ _ _ h2 hr5
        refine ⟨fun j ik h => k4 _ _ (k3 _ _ (k2 _ _ (k1 _ _ h))), fun hok dev hd => ?_⟩
        by_cases hbd : Blind w1.disk dev.bareJid
        · exact k4 _ _ (k3 _ _ (hb' dev ((hbl dev).2 ⟨hd, hbd⟩)))
        · have hm := (hmn dev).2 ⟨hd, hbd⟩
          rcases h2 with ⟨h2, _⟩ | ⟨_, h2⟩
          · rw [h2] at hm; cases hm
          · subst hok
            exact hA.decides _ _ _ _ _ h2 hr5 dev hm

/-- The trust levels of BTBV; names that are not known never evaluate successfully. -/
def level (name : String) : TrustLevel :=
  match BTBV.levelOf name with
  | some .trusted | some .blindlyTrusted => .trusted
  | some .distrusted => .distrusted
  | some .undecided | none => .undecided

theorem evaluate_level {dev : DeviceInfo} {l : TrustLevel} (h : BTBV.evaluate dev = .ok l) : l = level dev.trustLevelName := by
  unfold BTBV.evaluate at h
  unfold level
  split at h <;> cases h <;> simp [*]

theorem settled_iff {m : Disk} {j : Jid} {ik : Bytes} : Settled m j ik ↔ Decided level m j ik := by
  constructor
  · rintro ⟨s, h, rfl | rfl | rfl⟩ <;> exact ⟨_, h, by decide⟩
  · rintro ⟨s, h, hl⟩
    refine ⟨s, h, ?_⟩
    unfold level at hl
    cases hs : BTBV.levelOf s with
    | none => rw [hs] at hl; exact absurd rfl hl
    | some l =>
      have hname := List.find?_some hs
      simp only [decide_eq_true_eq] at hname
      subst hname
      cases l
      · exact .inl rfl
      · exact .inr (.inl rfl)
      · rw [hs] at hl; exact absurd rfl hl
      · exact .inr (.inr rfl)

/-- The decisions of BTBV are as documented, if the application is sensible. -/
theorem decisive (hu : M.undecided = "UNDECIDED") (hA : Sensible A) : Decisive level (BTBV.mgr M A) where
  undecided := by rw [show (BTBV.mgr M A).undecided = "UNDECIDED" from hu]; rfl
  keeps ds i t r w w' he hr j ik h := settled_iff.1 ((settles hu hA he hr).1 j ik (settled_iff.2 h))
  decides ds i t w w' he hr dev hd := settled_iff.1 ((settles hu hA he hr).2 rfl dev hd)
  quiet ds i t he := by
    apply Classical.byContradiction
    intro hno
    exact (raises_makeTrustDecision (M := M) hA ds i).exec he (quiet_of hno) rfl

end Blindly

/-! ### C78 -/

/-- C78.  With the BTBV manager and a sensible application, `encrypt` never ends with `StillUndecided`. -/
theorem C78 (M : Mgr) (hu : M.undecided = "UNDECIDED") (A : BTBV.App) (hA : Sensible A) (jids : List Jid) (pt : Dict Ns Bytes) (prio : Option (List Ns))
    (i : Option String) (t : List Ev) (r : Res Exn (Dict Message PlainKM × List EncError)) (w w' : World)
    (he : Exec (encrypt (BTBV.mgr M A) jids pt prio i) t r) (hr : Lib.Runs w t w')
    (hv : ∀ dev x, (⟨.evalTrust dev, x⟩ : Ev) ∈ t → x = BTBV.evaluate dev) (hq : ¬ ErrIn t .stillUndecided) :
    r ≠ .raised .stillUndecided :=
  C93 Blindly.level _ (Blindly.decisive hu hA) jids pt prio i t r w w' he hr (fun dev _ h => Blindly.evaluate_level (hv dev _ h).symm) hq

/-- The decisions of BTBV are quiet if the methods of the application are. -/
theorem Blindly.quiet {M : Mgr} {A : BTBV.App} (hn : CallbackQuiet A.notify) (hp : CallbackQuiet A.prompt) : CallbackQuiet (BTBV.mgr M A).decide := by
  intro ds i t r he
  let φ : Op → Prop := fun o => Op.encrypts o = false ∧ ∀ dev, o ≠ .evalTrust dev
  have of : ∀ {p : P Unit}, (∀ t r, Exec p t r → ∀ e ∈ t, φ e.1) → AllOps φ p := by
    intro p
    induction p with
    | ret => intro _; trivial
    | raise => intro _; trivial
    | op o k ih =>
      intro h
      have some : ∀ q : P Unit, ∃ r, Exec q [] r := fun q => by cases q <;> exact ⟨_, by constructor⟩
      obtain ⟨r0, h0⟩ := some (k (.error (.app 0)))
      exact ⟨h _ _ (.op (.error (.app 0)) h0) ⟨o, .error (.app 0)⟩ (by simp), fun r => ih r fun t r' h' e he => h _ _ (.op r h') e (by simp [he])⟩
  have hinfo : ∀ jid, AllOps φ (getDeviceInformation M jid) := fun jid =>
    (ops_getDeviceInformation M jid).mono fun o h => by cases h <;> exact ⟨rfl, nofun⟩
  have h1 := fun ds i => of (hn ds i)
  have h2 := fun ds i => of (hp ds i)
  have : AllOps φ (BTBV.makeTrustDecision M A ds i) := by
    unfold BTBV.makeTrustDecision BTBV.sortJids BTBV.trustBlindly SM.setTrust
    lib_ops [hinfo, h1, h2]
    exact ⟨rfl, nofun⟩
  exact this.exec he

/-- C78, keys: with the BTBV manager, key material is handed to backends only for devices that were trusted, by hand or blindly. -/
theorem C78_keys (M : Mgr) (A : BTBV.App) (hn : CallbackQuiet A.notify) (hp : CallbackQuiet A.prompt) (jids : List Jid) (pt : Dict Ns Bytes)
    (prio : Option (List Ns)) (i : Option String) (t : List Ev) (r : Res Exn (Dict Message PlainKM × List EncError))
    (he : Exec (encrypt (BTBV.mgr M A) jids pt prio i) t r) (hb : BackendsOnce t)
    (hv : ∀ dev x, (⟨.evalTrust dev, x⟩ : Ev) ∈ t → x = BTBV.evaluate dev) :
    Guarded (fun h e => Op.handsOut e.1 = true → ∃ (dev : DeviceInfo) (ns : Ns) (m : PlainKM), HandsOut h e ns dev.bareJid dev.deviceId m ∧
      LastEval h dev .trusted ∧ (dev.trustLevelName = "TRUSTED" ∨ dev.trustLevelName = "BLINDLY_TRUSTED")) t := by
  intro h1 e h2 ht hh
  obtain ⟨dev, ns, m, h3, h5⟩ := C27_only_trusted _ jids pt prio i t r (Blindly.quiet hn hp) he hb h1 e h2 ht hh
  refine ⟨dev, ns, m, h3, h5, ?_⟩
  obtain ⟨u, v, rfl, _⟩ := h5
  have h4 := hv dev (.ok .trusted) (by rw [ht]; simp)
  unfold BTBV.evaluate at h4
  cases hl : BTBV.levelOf dev.trustLevelName with
  | none => rw [hl] at h4; cases h4
  | some l =>
    have hname := List.find?_some hl
    simp only [decide_eq_true_eq] at hname
    rw [hl] at h4
    rw [← hname]
    cases l
    · exact .inl rfl
    · exact .inr rfl
    · cases h4
    · cases h4

/-! ### Examples -/

theorem appYes_sensible : Sensible appYes := by
  have hw : ∀ (ds : List DeviceInfo) (w : World), wp Lib (Prog.forEach ds fun dev => SM.setTrust dev.bareJid dev.identityKey "TRUSTED")
      (ends (fun _ w' => (∀ j ik, Settled w.disk j ik → Settled w'.disk j ik) ∧ ∀ dev ∈ ds, Settled w'.disk dev.bareJid dev.identityKey)
        fun _ w' => ∀ j ik, Settled w.disk j ik → Settled w'.disk j ik) w := by
    intro ds w
    refine ends_forEach (fun done _ w' => (∀ j ik, Settled w.disk j ik → Settled w'.disk j ik) ∧ ∀ dev ∈ done, Settled w'.disk dev.bareJid dev.identityKey)
      ⟨fun _ _ h => h, by simp⟩ ?_ fun _ h => h
    rintro done d rest w1 _ ⟨h1, h2⟩
    refine Lib.store (fun _ _ => h1) ?_
    have keep : ∀ j ik, Settled w1.disk j ik → Settled (w1.disk.upd (.trust d.bareJid d.identityKey) (some (.str "TRUSTED"))) j ik := by
      rintro j ik ⟨s, h3, h4⟩
      by_cases hk : Key.trust j ik = .trust d.bareJid d.identityKey
      · exact ⟨"TRUSTED", by rw [hk]; exact Disk.upd_self, .inl rfl⟩
      · exact ⟨s, (Disk.upd_of_ne hk).trans h3, h4⟩
    refine ⟨fun j ik h => keep j ik (h1 j ik h), fun dev hd => ?_⟩
    rcases List.mem_append.1 hd with hd | hd
    · exact keep _ _ (h2 dev hd)
    · cases List.mem_singleton.1 hd
      exact ⟨"TRUSTED", Disk.upd_self, .inl rfl⟩
  refine ⟨?_, ?_, ?_, ?_, ?_⟩
  · intro ds i t r w w' he hr
    cases he <;> (cases hr; exact fun _ _ h => h)
  · intro ds i t r w w' he hr
    have := wp_sound (hw ds w) he hr
    cases r with
    | ok => exact this.1
    | raised => exact this
    | crashed => exact this
  · intro ds i t w w' he hr
    exact (wp_sound (hw ds w) he hr).2
  · intro ds i t he; cases he
  · intro ds i t he
    apply Classical.byContradiction
    intro hno
    have hR : Raises (S := LibSig) Decide.Quiet (· ≠ .stillUndecided) (appYes.prompt ds i) := .forEach fun _ _ => .perform fun _ h => h
    exact hR.exec he (Decide.quiet_of hno) rfl

/-- Like `polite`, with the trust evaluation of BTBV. -/
def politeBtbv : World → (o : Op) → Except Exn o.Ret
  | _, .evalTrust dev => BTBV.evaluate dev
  | w, o => polite w o

theorem politeBtbv_ok (w : World) (o : Op) (e : Exn) (h : politeBtbv w o = .error e) : e.isInternal = false := by
  cases o with
  | evalTrust dev =>
    simp only [politeBtbv, BTBV.evaluate] at h
    split at h <;> cases h
    rfl
  | _ => cases h <;> rfl

/-- The application never decides. -/
def appNo : BTBV.App := ⟨fun _ _ => pure (), fun _ _ => pure ()⟩

def blindRun := runProg (Lib.env politeBtbv) Lib.next 200 (encrypt (BTBV.mgr Mgr.btbv appYes) ["a", "b"] [("n", [1])] none none) World.two

/-- Device 7 of "a" is trusted by hand, device 9 of "b" blindly; both get keys, the distrusted device 8 of "a" does not.  With an application
that does not decide, `encrypt` fails instead. -/
theorem C78_example :
    Exec (encrypt (BTBV.mgr Mgr.btbv appYes) ["a", "b"] [("n", [1])] none none) blindRun.1
      (.ok ([(⟨"n", "me", 1, ⟨false, 1⟩, [(⟨"a", 7, 1⟩, none), (⟨"b", 9, 1⟩, some ⟨[9], 0⟩)]⟩, ⟨1⟩)], [])) ∧
    Lib.Runs World.two blindRun.1 blindRun.2.2 ∧ Sensible appYes ∧
    (∀ dev x, (⟨.evalTrust dev, x⟩ : Ev) ∈ blindRun.1 → x = BTBV.evaluate dev) ∧ ¬ ErrIn blindRun.1 .stillUndecided ∧
    (runProg (Lib.env politeBtbv) Lib.next 200 (encrypt (BTBV.mgr Mgr.btbv appNo) ["a", "b"] [("n", [1])] none none) World.two).2.1 = .raised .stillUndecided := by
  have hr : blindRun.2.1 = .ok ([(⟨"n", "me", 1, ⟨false, 1⟩, [(⟨"a", 7, 1⟩, none), (⟨"b", 9, 1⟩, some ⟨[9], 0⟩)]⟩, ⟨1⟩)], []) := by decide +kernel
  refine ⟨hr ▸ runProg_exec .., runProg_runs Lib (Lib.env politeBtbv) (Lib.env_ok politeBtbv politeBtbv_ok) 200 _ _, appYes_sensible, ?_, ?_, by decide +kernel⟩
  · intro dev x hx
    obtain ⟨w, hw⟩ := runProg_answers _ _ _ _ _ _ hx
    exact hw
  · rintro ⟨e, he, hs⟩
    have : blindRun.1.all (fun e => match e.2 with | .error _ => false | .ok _ => true) = true := by decide +kernel
    have := List.all_eq_true.1 this e he
    rw [hs] at this
    cases this

end Verif
