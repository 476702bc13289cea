import Verif.Props.Own
import Verif.Props.DeviceList
/-
Creating the session manager again after a creation that did not complete.
-/
namespace Verif
open SM Spec Foot

namespace Spec

/-- The device was found on the device list online, or put on it. -/
def Offered (l : List Ev) (own : Jid) (d : DevId) (ns : Ns) : Prop :=
  (∃ dl : DevList, (⟨.downloadList ns own, .ok dl⟩ : Ev) ∈ l ∧ (dl.get d).isSome = true) ∨
    ∃ dl : DevList, (⟨.uploadList ns dl, .ok ()⟩ : Ev) ∈ l ∧ (dl.get d).isSome = true

/-- The bundle was published. -/
def Published (l : List Ev) (own : Jid) (d : DevId) (ns : Ns) : Prop :=
  ∃ b, (⟨.getBundle ns own d, .ok b⟩ : Ev) ∈ l ∧ (⟨.uploadBundle b, .ok ()⟩ : Ev) ∈ l

/-- 100 pre keys were generated, or there were more than `threshold` left, or they were filled up to 100. -/
def Stocked (threshold : Int) (l : List Ev) (ns : Ns) : Prop :=
  (⟨.generatePreKeys ns 100, .ok ()⟩ : Ev) ∈ l ∨
    ∃ n : Int, (⟨.numVisible ns, .ok n⟩ : Ev) ∈ l ∧ (n ≤ threshold → (⟨.generatePreKeys ns (100 - n), .ok ()⟩ : Ev) ∈ l)

/-- Everything was done to set up the device for `ns`. -/
structure SetUp (threshold : Int) (l : List Ev) (own : Jid) (d : DevId) (ns : Ns) : Prop where
  stocked : Stocked threshold l ns
  published : Published l own d ns
  offered : Offered l own d ns

end Spec

namespace Again
open OwnData

section
variable {M : Mgr} {own : Jid} {d : DevId} {ns : Ns} {bs : List Ns} {α : Type}

theorem Offered.mono {l l' : List Ev} (h : ∀ e ∈ l, e ∈ l') (ho : Offered l own d ns) : Offered l' own d ns :=
  ho.imp (fun ⟨dl, h1, h2⟩ => ⟨dl, h _ h1, h2⟩) fun ⟨dl, h1, h2⟩ => ⟨dl, h _ h1, h2⟩

theorem Published.mono {l l' : List Ev} (h : ∀ e ∈ l, e ∈ l') (ho : Published l own d ns) : Published l' own d ns :=
  ho.imp fun _ ⟨h1, h2⟩ => ⟨h _ h1, h _ h2⟩

theorem Stocked.mono {th : Int} {l l' : List Ev} (h : ∀ e ∈ l, e ∈ l') (ho : Stocked th l ns) : Stocked th l' ns :=
  ho.imp (h _) fun ⟨n, h1, h2⟩ => ⟨n, h _ h1, fun hn => h _ (h2 hn)⟩

theorem SetUp.mono {th : Int} {l l' : List Ev} (h : ∀ e ∈ l, e ∈ l') (ho : SetUp th l own d ns) : SetUp th l' own d ns :=
  ⟨Stocked.mono h ho.1, Published.mono h ho.2, Offered.mono h ho.3⟩

theorem log_mono (p : P α) (w : World) : wp Lib p (fun _ w' => ∀ e ∈ w.log, e ∈ w'.log) w := by
  refine wp_iff.2 fun t r w' _ hr e he => ?_
  obtain ⟨s, h, _⟩ := Lib.log_trace hr
  rw [h]
  exact List.mem_append_left _ he

/-- What has happened stays. -/
theorem kept {p : P α} {Q : World → Prop} (hQ : ∀ w w', (∀ e ∈ w.log, e ∈ w'.log) → Q w → Q w') : Pres Lib Q p := fun w hw =>
  wp_mono (log_mono p w) fun _ w' h => hQ w w' h hw

theorem push_mem {w : World} {e : Ev} : e ∈ (w.push e).log := by simp [World.push]
theorem push_old {w : World} {e e' : Ev} (h : e ∈ w.log) : e ∈ (w.push e').log := by simp [World.push, h]

theorem offered_refresh (w : World) : wp Lib (refreshDeviceList { M with ownDev := d } ns M.ownJid)
    (ends (fun _ w' => Offered w'.log M.ownJid d ns) fun _ _ => True) w := by
  unfold refreshDeviceList
  rw [ends_bind]
  refine Lib.ext rfl trivial (fun _ _ => trivial) fun dl => ?_
  refine ends_mono (Upd.wp_updateDeviceList (M := { M with ownDev := d }) (ns := ns) (jid := M.ownJid) (dl := dl)) (fun _ w' h => ?_) fun _ _ _ => trivial
  obtain ⟨hns, hr, _, hlog, hd⟩ := h
  unfold Upd.uploads at hlog
  by_cases hk : d ∈ dl.keys
  · exact .inl ⟨dl, by rw [hlog]; exact List.mem_append_left _ push_mem, Dict.mem_keys.1 hk⟩
  · rw [if_pos ⟨rfl, hk⟩] at hlog
    refine .inr ⟨_, by rw [hlog]; exact List.mem_append_right _ (List.mem_singleton.2 rfl), ?_⟩
    unfold Upd.eff
    rw [if_pos ⟨rfl, hk⟩]
    show (Dict.get (Dict.set _ d _) d).isSome = true
    rw [Dict.get_set_self]
    rfl

theorem published_one (w : World) : wp Lib (do
      let bundle ← call (.getBundle ns own d)
      call (.uploadBundle bundle))
    (ends (fun _ w' => Published w'.log own d ns) fun _ _ => True) w := by
  rw [ends_bind]
  refine Lib.ext rfl trivial (fun _ _ => trivial) fun b => ?_
  exact Lib.ext rfl trivial (fun _ _ => trivial) fun _ => ⟨b, push_old push_mem, push_mem⟩

theorem stocked_refill (w : World) : wp Lib (refillPreKeys M ns) (ends (fun _ w' => Stocked M.threshold w'.log ns) fun _ _ => True) w := by
  unfold refillPreKeys
  rw [ends_bind]
  refine Lib.ext rfl trivial (fun _ _ => trivial) fun n => ?_
  refine ends_when (fun hn => ?_) fun hn => .inr ⟨n, push_mem, fun h => (hn h).elim⟩
  exact Lib.ext rfl trivial (fun _ _ => trivial) fun _ => .inr ⟨n, push_old push_mem, fun _ => push_mem⟩

/-- Something is done for each of the backends. -/
theorem each {f : Ns → P Unit} {R : Ns → World → Prop} (hR : ∀ ns w w', (∀ e ∈ w.log, e ∈ w'.log) → R ns w → R ns w')
    (hf : ∀ ns w, wp Lib (f ns) (ends (fun _ w' => R ns w') fun _ _ => True) w) (l : List Ns) (w : World) :
    wp Lib (Prog.forEach l f) (ends (fun _ w' => ∀ ns ∈ l, R ns w') fun _ _ => True) w := by
  refine ends_forEach (fun done _ w' => ∀ ns ∈ done, R ns w') (by simp) (fun done x rest w1 _ h => ?_) fun w h => h
  refine wp_mono (wp_and (hf x w1) (log_mono _ w1)) fun r w2 h2 => ?_
  cases r with
  | raised e => trivial
  | crashed => trivial
  | ok a =>
    intro ns hns
    rcases List.mem_append.1 hns with hns | hns
    · exact hR ns w1 w2 h2.2 (h ns hns)
    · rw [List.mem_singleton.1 hns]; exact h2.1

/-- Does not change which backends are loaded. -/
def Calm (o : Op) : Prop := ∀ l, o ≠ .setBackends l

theorem calm {p : P α} (h : AllOps Calm p) : Pres Lib (Loaded bs) p := (loaded_keep (φ := Calm) fun l h => h l rfl).pres h

theorem calm_refresh (M : Mgr) (ns : Ns) (jid : Jid) : AllOps Calm (refreshDeviceList M ns jid) :=
  (SM.ops_refreshDeviceList M ns jid).mono fun o ho l e => by subst e; cases ho; rename_i h; cases h

/-- A loop over the loaded backends. -/
theorem loop {f : Ns → P Unit} {R : Ns → World → Prop} {rest : Unit → P α} {Q : α → World → Prop}
    (hR : ∀ ns w w', (∀ e ∈ w.log, e ∈ w'.log) → R ns w → R ns w')
    (hf : ∀ ns w, wp Lib (f ns) (ends (fun _ w' => R ns w') fun _ _ => True) w) (hl : ∀ ns, AllOps Calm (f ns)) {w : World} (hw : Loaded bs w)
    (hrest : ∀ w', Loaded bs w' → (∀ e ∈ w.log, e ∈ w'.log) → (∀ ns ∈ bs, R ns w') → wp Lib (rest ()) (ends Q fun _ _ => True) w') :
    wp Lib ((call .getBackends : P _) >>= fun l => Prog.forEach l f >>= rest) (ends Q fun _ _ => True) w := by
  rw [ends_bind]
  refine Lib.getBackends trivial ?_
  have hb : w.backends = bs := hw
  rw [hb, ends_bind]
  refine wp_mono (wp_and (each hR hf bs w) (wp_and (log_mono _ w) (calm (.forEach fun ns _ => hl ns) w hw))) fun r w' h => ?_
  cases r with
  | raised e => trivial
  | crashed => trivial
  | ok a => exact hrest w' h.2.2 h.2.1 h.1

/-- Anything that leaves the loaded backends alone. -/
theorem skip {β : Type} {p : P α} {rest : α → P β} {Q : β → World → Prop} (hl : AllOps Calm p) {w : World} (hw : Loaded bs w)
    (hrest : ∀ a w', Loaded bs w' → wp Lib (rest a) (ends Q fun _ _ => True) w') :
    wp Lib (p >>= rest) (ends Q fun _ _ => True) w := by
  rw [ends_bind]
  refine wp_mono (calm hl w hw) fun r w' h => ?_
  cases r with
  | raised e => trivial
  | crashed => trivial
  | ok a => exact hrest a w' h

theorem calm_draw (taken : List DevId) (fuel : Nat) : AllOps Calm (SM.drawDeviceId taken fuel) := by
  induction fuel with
  | zero => trivial
  | succ n ih => unfold SM.drawDeviceId; lib_ops []; all_goals (rename_i h; cases h)

/-- The first run sets up the device for all backends. -/
theorem setUp_firstRun (th : Int) (label : Option String) (ik : Bytes) (fuel : Nat) (w : World) (hw : Loaded bs w) :
    wp Lib (firstRun M label ik fuel) (ends (fun d w' => ∀ ns ∈ bs, SetUp th w'.log M.ownJid d ns) fun _ _ => True) w := by
  unfold firstRun
  refine skip (by lib_ops []; all_goals (rename_i h; cases h)) hw fun bs1 w1 hw1 => ?_
  refine skip (by unfold takenDeviceIds; lib_ops []; all_goals (rename_i h; cases h)) hw1 fun taken w2 hw2 => ?_
  refine skip (calm_draw _ _) hw2 fun d w3 hw3 => ?_
  refine skip (by lib_ops []; all_goals (rename_i h; cases h)) hw3 fun bs2 w4 hw4 => ?_
  refine skip (by unfold storeOwnDevice Sto.storeBytes; lib_ops []; all_goals (rename_i h; cases h)) hw4 fun _ w5 hw5 => ?_
  refine loop (R := fun ns w => Stocked th w.log ns) (fun ns w w' h => Stocked.mono h)
    (fun ns w => Lib.ext rfl trivial (fun _ _ => trivial) fun _ => .inl push_mem) (fun ns => by lib_ops []; all_goals (rename_i h; cases h)) hw5 fun w6 hw6 _ h6 => ?_
  refine loop (R := fun ns w => Published w.log M.ownJid d ns) (fun ns w w' h => Published.mono h) (fun ns w => published_one w)
    (fun ns => by lib_ops []; all_goals (rename_i h; cases h)) hw6 fun w7 hw7 hm7 h7 => ?_
  refine loop (R := fun ns w => Offered w.log M.ownJid d ns) (fun ns w w' h => Offered.mono h) (fun ns w => offered_refresh w)
    (fun ns => calm_refresh _ _ _) hw7 fun w8 hw8 hm8 h8 => ?_
  exact fun ns hns => ⟨Stocked.mono (fun e he => hm8 e (hm7 e he)) (h6 ns hns), Published.mono hm8 (h7 ns hns), h8 ns hns⟩

/-- The device is set up for backends that it was not stored as supporting. -/
theorem setUp_handle (w : World) (hw : Loaded bs w) :
    wp Lib (handleChangedBackends { M with ownDev := d })
      (ends (fun _ w' => ∀ ns ∈ bs, ¬ Advertises w.disk M.ownJid d ns → SetUp M.threshold w'.log M.ownJid d ns) fun _ _ => True) w := by
  unfold handleChangedBackends
  rw [ends_bind]
  have hdesc : wp Lib (getOwnDeviceInformation { M with ownDev := d }) (ends (fun x _ => ∀ n ∈ x.1.namespaces, Advertises w.disk M.ownJid d n) fun _ _ => True) w := by
    refine wp_iff.2 fun t r w' he hr => ?_
    cases r with
    | raised e => trivial
    | crashed => trivial
    | ok x =>
      obtain ⟨hid, hd, _⟩ := describes_own he hr
      obtain ⟨l, h1, h2⟩ := hd.namespaces
      rw [hid] at h1
      exact fun n hn => ⟨l, h1, ((h2 n).1 hn).1⟩
  refine wp_mono (wp_and hdesc (looked_own (M := { M with ownDev := d }) w)) fun r w' h => ?_
  cases r with
  | raised e => trivial
  | crashed => trivial
  | ok r =>
    obtain ⟨hadv, hlk⟩ := h
    have hb : w'.backends = bs := hlk.backends.trans hw
    show wp Lib _ (ends _ _) w'
    dsimp only
    rw [ends_bind]
    refine Lib.getBackends trivial ?_
    rw [hb]
    refine ends_when (fun hne => ?_) fun heq ns hns hn => ?_
    · rw [ends_bind]
      refine Lib.store (fun _ _ => trivial) ?_
      rw [ends_bind]
      refine Lib.store (fun _ _ => trivial) ?_
      refine loop (R := fun ns w => ns ∉ r.1.namespaces → SetUp M.threshold w.log M.ownJid d ns) (bs := bs) (fun ns w w' h hs hn => SetUp.mono h (hs hn)) (fun ns w => ?_)
        (fun ns => ?_) hb fun w2 hw2 _ h2 => ?_
      · refine ends_when (fun hn => ?_) fun hn h => (hn h).elim
        rw [ends_bind]
        refine ends_mono (stocked_refill (M := { M with ownDev := d }) w) (fun _ w3 h3 => ?_) fun _ _ _ => trivial
        rw [ends_bind]
        refine Lib.ext rfl trivial (fun _ _ => trivial) fun b => ?_
        rw [ends_bind]
        refine Lib.ext rfl trivial (fun _ _ => trivial) fun _ => ?_
        refine wp_mono (wp_and (offered_refresh (M := M) (d := d) (ns := ns) _) (log_mono _ _)) fun r' w4 h4 => ?_
        cases r' with
        | raised e => trivial
        | crashed => trivial
        | ok a => exact fun _ => ⟨Stocked.mono (fun e he => h4.2 e (push_old (push_old he))) h3, ⟨b, h4.2 _ (push_old push_mem), h4.2 _ push_mem⟩, h4.1⟩
      · unfold refillPreKeys
        lib_ops [calm_refresh]
        all_goals (rename_i h; cases h)
      · refine wp_mono (log_mono _ w2) fun r' w3 h3 => ?_
        cases r' with
        | raised e => trivial
        | crashed => trivial
        | ok a => exact fun ns hns hn => SetUp.mono h3 (h2 ns hns fun hm => hn (hadv ns hm))
    · have := Decidable.not_not.1 heq
      simp only [setEq, Bool.and_eq_true, List.all_eq_true, decide_eq_true_eq, mem_dedup] at this
      exact (hn (hadv ns (this.1 ns hns))).elim

theorem setUp_create (label : Option String) (fuel : Nat) (w : World) :
    wp Lib (SM.create M bs label fuel) (ends (fun d w' => ∀ ns ∈ bs,
      (w.disk .ownDeviceId = none ∨ w.disk .ownDeviceId = some (.int d) ∧ ¬ Advertises w.disk M.ownJid d ns) →
        SetUp M.threshold w'.log M.ownJid d ns) fun _ _ => True) w := by
  rw [SM.create_eq]
  split
  · trivial
  split
  · trivial
  rw [ends_bind]
  refine Lib.setBackends trivial ?_
  rw [ends_bind]
  have h0 : Loaded bs { w with backends := bs } := rfl
  have hkeep : Pres Lib (fun w' => ∀ k, k ≠ .ikpIsSeed → k ≠ .ikpKey → w'.disk k = w.disk k) IdentityKeyPair.get := by
    refine OpsKeep.pres (φ := Ikp) (fun o ho w1 r _ h1 k hk hk' => ?_) ops_ikp
    rw [← h1 k hk hk']
    cases ho <;> cases r <;> first | rfl | exact Disk.upd_of_ne (by assumption)
  refine wp_mono (wp_and (hkeep _ fun _ _ _ => rfl) (loaded_ikp _ h0)) fun r w1 h => ?_
  cases r with
  | raised e => trivial
  | crashed => trivial
  | ok kp =>
    obtain ⟨hsame, hl1⟩ := h
    show wp Lib _ (ends _ _) w1
    unfold SM.createRest
    rw [ends_bind]
    refine Lib.setSync trivial ?_
    have hl1 : Loaded bs { w1 with sync := true } := hl1
    have hsame : ∀ k, k ≠ .ikpIsSeed → k ≠ .ikpKey → ({ w1 with sync := true } : World).disk k = w.disk k := hsame
    generalize ({ w1 with sync := true } : World) = w2 at hl1 hsame ⊢
    rw [ends_bind]
    have hid := hsame .ownDeviceId nofun nofun
    refine wp_ownId (fun _ _ => trivial) (fun _ _ _ _ => trivial) (fun hn => ?_) fun v d hv hc => ?_
    · refine wp_mono (setUp_firstRun M.threshold label _ fuel w2 hl1) fun r w3 h3 => ?_
      cases r with
      | raised e => trivial
      | crashed => trivial
      | ok d =>
        show wp Lib _ (ends _ _) w3
        rw [ends_bind]
        refine wp_mono (log_mono _ w3) fun r w4 h4 => ?_
        cases r with
        | raised e => trivial
        | crashed => trivial
        | ok a => exact fun ns hns _ => SetUp.mono h4 (h3 ns hns)
    · rw [ends_bind]
      refine ends_mono (setUp_handle (M := M) (d := d) w2 hl1) (fun _ w3 h3 => ?_) fun _ _ h => h
      rintro ns hns (hn | ⟨_, hn⟩)
      · rw [hid, hn] at hv; cases hv
      · refine h3 ns hns fun hadv => hn ?_
        unfold Advertises at hadv ⊢
        rwa [hsame (.devNamespaces M.ownJid d) nofun nofun] at hadv

/-- The same execution with an empty record of what happened before. -/
theorem forget {t : List Ev} {w w' : World} (h : Lib.Runs w t w') : ∃ w'', Lib.Runs { w with log := [] } t w'' := by
  have key : ∀ (t : List Ev) (w w' : World), Lib.Runs w t w' → ∀ l, ∃ w'', Lib.Runs { w with log := l } t w'' := by
    intro t
    induction t with
    | nil => exact fun w w' _ l => ⟨_, rfl⟩
    | cons e t ih =>
      intro w w' h l
      obtain ⟨h1, h2⟩ := h
      obtain ⟨o, r⟩ := e
      have h3 : Lib.ok { w with log := l } ⟨o, r⟩ := by cases o <;> cases r <;> exact h1
      obtain ⟨l', h4⟩ : ∃ l', Lib.next { w with log := l } ⟨o, r⟩ = { Lib.next w ⟨o, r⟩ with log := l' } := by
        cases o <;> cases r <;> exact ⟨_, rfl⟩
      obtain ⟨w'', h5⟩ := ih _ _ h2 l'
      exact ⟨w'', h3, h4 ▸ h5⟩
  exact key t w w' h []

end
end Again

/-- Whatever happened in a creation that was not completed, after repeating it successfully everything has been done for all backends. -/
def C54_Claim : Prop := ∀ (M : Mgr) (bs : List Ns) (label : Option String) (fuel : Nat) (t t' : List Ev) (r : Res Exn DevId) (d : DevId) (w1 w2 : World),
  Exec (SM.create M bs label fuel) t r → (∀ d', r ≠ .ok d') → Lib.Runs .fresh t w1 →
  Exec (SM.create M bs label fuel) t' (.ok d) → Lib.Runs w1 t' w2 →
    ∀ ns ∈ bs, SetUp M.threshold (t ++ t') M.ownJid d ns

open Again in
/-- A successful creation sets up the device for all backends, if no device id is stored yet, and otherwise for those that the device is not
stored as supporting. -/
theorem C54_partial (M : Mgr) (bs : List Ns) (label : Option String) (fuel : Nat) (t : List Ev) (d : DevId) (w w' : World)
    (he : Exec (SM.create M bs label fuel) t (.ok d)) (hr : Lib.Runs w t w') (ns : Ns) (hns : ns ∈ bs)
    (h : w.disk .ownDeviceId = none ∨ w.disk .ownDeviceId = some (.int d) ∧ ¬ Advertises w.disk M.ownJid d ns) :
    SetUp M.threshold t M.ownJid d ns := by
  obtain ⟨w'', hr'⟩ := forget hr
  obtain ⟨s, h1, h2⟩ := Lib.log_trace hr'
  have h3 := wp_sound (setUp_create label fuel _) he hr' ns hns h
  refine SetUp.mono (fun e he => ?_) h3
  rw [h1] at he
  exact h2 e (by simpa using he)

/-- The server refuses to publish bundles. -/
def Friendly.refusing : Friendly where
  answer
    | _, .uploadBundle _ => .error .bundleUploadFailed
    | w, o => Verif.genuine w o
  ok w o e h := by
    cases o <;> first | exact genuine_ok w _ e h | (cases h; rfl)

/-- A bundle was published. -/
def publishes : Ev → Bool
  | ⟨.uploadBundle _, .ok _⟩ => true
  | _ => false

/-- The device is stored as supporting the backends before it was set up for them, so that it is not made up for later. -/
theorem C54_refuted : ¬ C54_Claim := by
  intro h
  have h1 : (Friendly.refusing.run (SM.create Mgr.ex ["n"] none 5) .fresh).2.1 = .raised .bundleUploadFailed := by decide +kernel
  have h2 : (Friendly.genuine.run (SM.create Mgr.ex ["n"] none 5) (Friendly.refusing.run (SM.create Mgr.ex ["n"] none 5) .fresh).2.2).2.1 = .ok 1 := by
    decide +kernel
  have h3 : ((Friendly.refusing.run (SM.create Mgr.ex ["n"] none 5) .fresh).1 ++
      (Friendly.genuine.run (SM.create Mgr.ex ["n"] none 5) (Friendly.refusing.run (SM.create Mgr.ex ["n"] none 5) .fresh).2.2).1).all
        (fun e => !publishes e) = true := by decide +kernel
  obtain ⟨b, _, hb⟩ := (h Mgr.ex ["n"] none 5 _ _ _ 1 _ _ (Friendly.refusing.exec _ _) (by rw [h1]; nofun) (Friendly.refusing.runs _ _)
    (h2 ▸ Friendly.genuine.exec _ _) (Friendly.genuine.runs _ _) "n" (by simp)).published
  have := List.all_eq_true.1 h3 _ hb
  cases this

/-- The first creation dies before the device id is stored; repeating it does everything. -/
theorem C54_example : ∃ t w1 t' w2, Exec (SM.create Mgr.ex ["n", "o"] none 5) t .crashed ∧ Lib.Runs .fresh t w1 ∧ t.length = 12 ∧
    Exec (SM.create Mgr.ex ["n", "o"] none 5) t' (.ok 1) ∧ Lib.Runs w1 t' w2 ∧ SetUp Mgr.ex.threshold t' "me" 1 "n" ∧ SetUp Mgr.ex.threshold t' "me" 1 "o" := by
  have h1 : (Friendly.genuine.cut 12 (SM.create Mgr.ex ["n", "o"] none 5) .fresh).2.1 = .crashed := by decide +kernel
  have h2 : (Friendly.genuine.run (SM.create Mgr.ex ["n", "o"] none 5) (Friendly.genuine.cut 12 (SM.create Mgr.ex ["n", "o"] none 5) .fresh).2.2).2.1 = .ok 1 := by
    decide +kernel
  have he := h2 ▸ Friendly.genuine.exec (SM.create Mgr.ex ["n", "o"] none 5) (Friendly.genuine.cut 12 (SM.create Mgr.ex ["n", "o"] none 5) .fresh).2.2
  exact ⟨_, _, _, _, h1 ▸ Friendly.genuine.cut_exec _ _ _, Friendly.genuine.cut_runs _ _ _, by decide +kernel, he, Friendly.genuine.runs _ _,
    C54_partial _ _ _ _ _ _ _ _ he (Friendly.genuine.runs _ _) "n" (by simp) (.inl rfl),
    C54_partial _ _ _ _ _ _ _ _ he (Friendly.genuine.runs _ _) "o" (by simp) (.inl rfl)⟩

/-- The account is started again with a further backend. -/
theorem C54_example_added : ∃ t w', Exec (SM.create Mgr.ex ["n", "o"] none 5) t (.ok 1) ∧
    Lib.Runs (Friendly.genuine.run (SM.create Mgr.ex ["n"] none 5) .fresh).2.2 t w' ∧ SetUp Mgr.ex.threshold t "me" 1 "o" := by
  have h2 : (Friendly.genuine.run (SM.create Mgr.ex ["n", "o"] none 5) (Friendly.genuine.run (SM.create Mgr.ex ["n"] none 5) .fresh).2.2).2.1 = .ok 1 := by
    decide +kernel
  have he := h2 ▸ Friendly.genuine.exec (SM.create Mgr.ex ["n", "o"] none 5) (Friendly.genuine.run (SM.create Mgr.ex ["n"] none 5) .fresh).2.2
  refine ⟨_, _, he, Friendly.genuine.runs _ _, C54_partial _ _ _ _ _ _ _ _ he (Friendly.genuine.runs _ _) "o" (by simp) (.inr ⟨rfl, ?_⟩)⟩
  rintro ⟨l, h1, h3⟩
  have : l = ["n"] := ofStrs_inj' (Option.some.inj (h1.symm.trans rfl))
  subst this
  simp at h3

end Verif
