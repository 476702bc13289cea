import Verif.Props.Info
import Verif.Model.BTBV
import Verif.Proofs.ExecLoops
/-
The trust system of the example, "Blind Trust Before Verification".
-/
namespace Verif
open SM Spec

/-- The stored device list of `j` has `d` on it (where `True` counts as 1, as always in Python). -/
def Spec.Enlisted (m : Disk) (j : Jid) (d : DevId) : Prop := ∃ l, m (.devList j) = some (.list l) ∧ d ∈ l.map JVal.asInt

/-- Blind trust applies to `j`: no known device of `j` whose identity key is known has a trust level that was set by hand. -/
def Spec.Blind (m : Disk) (j : Jid) : Prop :=
  ∀ d ik lv, Enlisted m j d → Keyed m j d ik → m (.trust j ik) = some (.str lv) → lv = "UNDECIDED" ∨ lv = "BLINDLY_TRUSTED"

/-- The callbacks of the application run: first the notification about `bl`, then the prompt for `mn`, if there are any such devices. -/
inductive Spec.Asked (A : BTBV.App) (bl mn : List DeviceInfo) (i : Option String) : List Ev → Res Exn Unit → Prop where
  | stopped {t : List Ev} {r : Res Exn Unit} : bl ≠ [] → Exec (A.notify bl i) t r → r ≠ .ok () → Asked A bl mn i t r
  | going {t t' : List Ev} {r : Res Exn Unit} : (bl = [] ∧ t = [] ∨ bl ≠ [] ∧ Exec (A.notify bl i) t (.ok ())) →
      (mn = [] ∧ t' = [] ∧ r = .ok () ∨ mn ≠ [] ∧ Exec (A.prompt mn i) t' r) → Asked A bl mn i (t ++ t') r

namespace Blindly
variable {M : Mgr}

/-! ### Devices left out have no identity key -/

theorem left_fetch {jid : Jid} {d : DevId} (nss : List Ns) (w : World) : wp Lib (fetchIdentityKey jid d nss)
    (ends (fun o w' => o = none → w'.disk = w.disk) fun _ _ => True) w := by
  induction nss generalizing w with
  | nil => exact fun _ => rfl
  | cons ns nss ih =>
    unfold fetchIdentityKey
    rw [wp_tryElse]
    refine wp_mono (Q := ends (fun _ w' => True) fun x w' => ∀ e, x = some e → w'.disk = w.disk)
      (Lib.ext rfl nofun (fun e _ => by rintro e ⟨⟩; rfl) fun b => trivial) ?_
    intro r w' hr
    cases r with
    | ok b =>
      simp only [split3]
      rw [ends_bind]
      exact Lib.storeBytes (fun _ _ => trivial) nofun
    | crashed => trivial
    | raised e =>
      have hr := hr e rfl
      simp only [split3]
      split
      · exact ends_mono (ih _) (fun o w2 h h' => (h h').trans hr) fun _ _ h => h
      · trivial

theorem left_key {jid : Jid} {d : DevId} (nss : List Ns) (w : World) : wp Lib (identityKeyOf M jid d nss)
    (ends (fun o w' => o = none → w'.disk = w.disk) fun _ _ => True) w := by
  unfold identityKeyOf onNothing
  rw [wp_tryCatch]
  refine wp_mono (Q := ends (fun o w' => o ≠ none) fun x w' => w' = w) ?_ ?_
  · exact Lib.typedJust (fun x hx => rfl) (fun e he => rfl) fun ik hik => nofun
  · intro r w' hr
    cases r with
    | ok a => exact fun h => (hr h).elim
    | crashed => trivial
    | raised e =>
      cases hr
      simp only [handled]
      split
      · rw [ends_bind]
        refine ends_mono (left_fetch _ w) (fun o w2 h => ?_) fun _ _ h => h
        cases o with
        | none => exact fun _ => h rfl
        | some b => exact nofun
      · trivial

theorem left_device {jid : Jid} (d : DevId) (w : World) : wp Lib (deviceInformation M jid d)
    (ends (fun o w' => o = none → w'.disk (.devIdentityKey jid d) = none) fun _ _ => True) w := by
  have h1 : wp Lib (deviceInformation M jid d) (ends (fun o w' => o = none → w'.disk = w.disk) fun _ _ => True) w := by
    unfold deviceInformation
    refine Lib.typedJust (fun _ _ => trivial) (fun _ _ => trivial) fun l hl => ?_
    dsimp only
    rw [ends_bind]
    refine ends_mono (left_key _ w) (fun o w1 h => ?_) fun _ _ h => h
    split
    · exact fun _ => h rfl
    · refine Lib.typedJust (fun _ _ => trivial) (fun _ _ => trivial) fun a ha => ?_
      refine Lib.typedJust (fun _ _ => trivial) (fun _ _ => trivial) fun lab _ => ?_
      rw [ends_bind]
      refine Lib.typed (fun _ _ => trivial) (fun _ _ _ _ => trivial) (fun _ => ?_) fun v b _ _ => ?_ <;>
      · rw [ends_bind]
        unfold repairNamespaces
        split
        · dsimp only
          rw [ends_bind]
          exact Lib.store (fun _ _ => trivial) nofun
        · exact nofun
  refine wp_mono (wp_and h1 (origin_device d w)) fun r w' h => ?_
  cases r with
  | raised e => trivial
  | crashed => trivial
  | ok o =>
    obtain ⟨h2, s, -, -, h3⟩ := h
    intro ho
    rw [h2 ho]
    exact (h3 ho).1

theorem left_info' (jid : Jid) (w : World) : wp Lib (getDeviceInformation' M jid)
    (ends (fun x w' => ∀ d, Enlisted w.disk jid d → (∃ dev ∈ x.1, dev.deviceId = d) ∨ w'.disk (.devIdentityKey jid d) = none) fun _ _ => True) w := by
  unfold getDeviceInformation'
  rw [ends_bind]
  have fin : ∀ ids : List DevId, wp Lib (Prog.fold (M.O.iter (dedup ids)) ([], []) fun (devices, cache) d => do
      match ← deviceInformation M jid d with
      | none => pure (devices, cache)
      | some (dev, none) => pure (setAdd devices dev, cache)
      | some (dev, some bundle) => pure (setAdd devices dev, setAdd cache bundle))
      (ends (fun x w' => ∀ d ∈ ids, (∃ dev ∈ x.1, dev.deviceId = d) ∨ w'.disk (.devIdentityKey jid d) = none) fun _ _ => True) w := by
    intro ids
    refine ends_fold (fun done rest x w' => ∀ d ∈ done, (∃ dev ∈ x.1, dev.deviceId = d) ∨ w'.disk (.devIdentityKey jid d) = none) (by simp) ?_ ?_
    · rintro done d rest ⟨devs, cache⟩ w1 hx h4
      have hnd : d ∉ done := by
        have : (M.O.iter (dedup ids)).Nodup := SetOrder.nodup_iter.2 (nodup_dedup _)
        rw [hx] at this
        exact fun h => (List.nodup_append.1 this).2.2 d h d (by simp) rfl
      dsimp only at *
      rw [ends_bind]
      refine wp_mono (wp_and (left_device d w1) (wp_and (origin_device d w1)
        (wp_iff.2 fun t r w' he hr => fun k hk => wp_sound (frame_device (M := M) (jid := jid) d k hk w1) he hr))) ?_
      intro r w2 ⟨h5, h5', h6⟩
      cases r with
      | raised e => trivial
      | crashed => trivial
      | ok o =>
        obtain ⟨s', -, h8, -⟩ := h5'
        have old : ∀ d' ∈ done, (∃ dev ∈ devs, dev.deviceId = d') ∨ w2.disk (.devIdentityKey jid d') = none := by
          intro d' hd'
          have hne : d' ≠ d := fun h => hnd (h ▸ hd')
          refine (h4 d' hd').imp_right fun h => ?_
          exact (h6 (.devIdentityKey jid d') ⟨by simp [hne], nofun⟩).trans h
        have new : ∀ dev b, o = some (dev, b) →
            ∀ d' ∈ done ++ [d], (∃ dev' ∈ setAdd devs dev, dev'.deviceId = d') ∨ w2.disk (.devIdentityKey jid d') = none := by
          intro dev b ho d' hd'
          rcases List.mem_append.1 hd' with hd' | hd'
          · exact (old d' hd').imp_left fun ⟨x, hx, hxd⟩ => ⟨x, mem_setAdd.2 (.inl hx), hxd⟩
          · simp only [List.mem_singleton] at hd'
            exact .inl ⟨dev, mem_setAdd.2 (.inr rfl), by rw [(h8 _ ho).1, hd']⟩
        simp only [ends_ok]
        split
        · intro d' hd'
          rcases List.mem_append.1 hd' with hd' | hd'
          · exact old d' hd'
          · simp only [List.mem_singleton] at hd'
            subst hd'
            exact .inr (h5 rfl)
        · exact new _ _ rfl
        · exact new _ _ rfl
    · exact fun x w' h d hd => h d (M.O.mem_iter.2 (mem_dedup.2 hd))
  refine Lib.typed (fun _ _ => trivial) (fun _ _ _ _ => trivial) (fun h0 => ?_) fun v b hv hb => ?_
  · refine ends_mono (fin []) (fun x w' h => ?_) fun _ _ h => h
    rintro d ⟨l, hl, _⟩
    rw [h0] at hl; cases hl
  · refine ends_mono (fin b) (fun x w' h => ?_) fun _ _ h => h
    rintro d ⟨l, hl, hd⟩
    rw [hl] at hv
    cases hv
    refine h d ?_
    change (checkList .int (.list l)).map _ = _ at hb
    unfold checkList at hb
    dsimp only at hb
    split at hb
    · cases hb; exact hd
    · cases hb

/-! ### Sorting -/

theorem levelOf_ok {s : String} {l : BTBV.Level} (h : BTBV.levelOf s = some l) : l.name = s := by
  have := List.find?_some h
  simpa using this

theorem levelOf_name (l : BTBV.Level) : BTBV.levelOf l.name = some l := by cases l <;> decide +kernel

/-- The check made for blind trust. -/
theorem allBlind_ok {devs : List DeviceInfo} {b : Bool} (h : BTBV.allBlind devs = .ok b) :
    b = true ↔ ∀ dev ∈ devs, dev.trustLevelName = "UNDECIDED" ∨ dev.trustLevelName = "BLINDLY_TRUSTED" := by
  induction devs with
  | nil => cases h; simp
  | cons dev devs ih =>
    unfold BTBV.allBlind at h
    split at h
    · cases h
    · rename_i l hl
      have hn := levelOf_ok hl
      split at h
      · rename_i hb
        rw [ih h]
        simp only [List.mem_cons, forall_eq_or_imp, ← hn]
        rcases hb with rfl | rfl <;> simp [BTBV.Level.name]
      · rename_i hb
        cases h
        simp only [List.mem_cons, forall_eq_or_imp, ← hn, Bool.false_eq_true, false_iff]
        rintro ⟨h, -⟩
        clear hl hn ih
        cases l <;> first | exact hb (.inl rfl) | exact hb (.inr rfl) | (simp [BTBV.Level.name] at h)

/-- What the checks for blind trust leave alone. -/
def Seen (w w' : World) : Prop := ∀ k, (∀ j d, k ≠ .devIdentityKey j d ∧ k ≠ .devNamespaces j d) → w'.disk k = w.disk k

theorem blind_iff (hu : M.undecided = "UNDECIDED") {jid : Jid} {t : List Ev} {w w' : World} {devs : List DeviceInfo}
    (he : Exec (getDeviceInformation M jid) t (.ok devs)) (hr : Lib.Runs w t w') :
    Blind w'.disk jid ↔ ∀ dev ∈ devs, dev.trustLevelName = "UNDECIDED" ∨ dev.trustLevelName = "BLINDLY_TRUSTED" := by
  have hd := describes_info he hr
  have hl := wp_sound (looked_info jid w) he hr
  have hleft : ∀ d, Enlisted w.disk jid d → (∃ dev ∈ devs, dev.deviceId = d) ∨ w'.disk (.devIdentityKey jid d) = none := by
    obtain ⟨t1, ⟨x', c⟩, t2, rfl, h1, h2⟩ := exec_seq_ok.1 he
    cases h2
    exact wp_sound (left_info' jid w) h1 (by simpa using hr)
  have hlist : ∀ d, Enlisted w'.disk jid d ↔ Enlisted w.disk jid d := by
    intro d
    unfold Enlisted
    rw [hl.disk.frame (.devList jid) fun _ => ⟨nofun, nofun⟩]
  have htrust : ∀ ik, w'.disk (.trust jid ik) = w.disk (.trust jid ik) := fun ik => hl.disk.frame (.trust jid ik) fun _ => ⟨nofun, nofun⟩
  constructor
  · intro hb dev hdev
    have h := hd dev hdev
    rcases h.level with h1 | ⟨h1, h2⟩
    · exact hb dev.deviceId dev.identityKey _ ((hlist _).2 h.listed) h.key ((htrust _).trans h1)
    · exact .inl (h2.trans hu)
  · intro hall d ik lv h1 h2 h3
    rcases hleft d ((hlist d).1 h1) with ⟨dev, hdev, rfl⟩ | hn
    · have h := hd dev hdev
      have hik : dev.identityKey = ik := by
        obtain ⟨s, h4, h5⟩ := h.key
        obtain ⟨s', h6, h7⟩ := h2
        rw [h4] at h6
        cases h6
        rw [h5] at h7
        exact Option.some.inj h7
      rw [htrust, ← hik] at h3
      rcases h.level with h4 | ⟨h4, _⟩
      · rw [h4] at h3
        cases h3
        exact hall dev hdev
      · rw [h4] at h3; cases h3
    · obtain ⟨s, h4, _⟩ := h2
      rw [hn] at h4; cases h4

theorem blind_other {j jid : Jid} (hne : j ≠ jid) {w w' : World} (h : LookedW jid w w') : Blind w'.disk j ↔ Blind w.disk j := by
  have hf : ∀ k, (∀ d, k ≠ .devIdentityKey jid d ∧ k ≠ .devNamespaces jid d) → w'.disk k = w.disk k := h.disk.frame
  unfold Blind Enlisted Keyed
  rw [hf (.devList j) fun _ => ⟨nofun, nofun⟩]
  have h1 : ∀ d, w'.disk (.devIdentityKey j d) = w.disk (.devIdentityKey j d) := fun d => hf _ fun _ => ⟨by simp [hne], nofun⟩
  have h2 : ∀ ik, w'.disk (.trust j ik) = w.disk (.trust j ik) := fun ik => hf _ fun _ => ⟨nofun, nofun⟩
  simp only [h1, h2]

theorem sorted (hu : M.undecided = "UNDECIDED") (jids : List Jid) (hn : jids.Nodup) (w : World) : wp Lib (BTBV.sortJids M jids)
    (ends (fun x w' => Seen w w' ∧ ∀ j ∈ jids, (j ∈ x.1 ↔ Blind w'.disk j) ∧ (j ∈ x.2 ↔ ¬ Blind w'.disk j)) fun _ w' => Seen w w') w := by
  unfold BTBV.sortJids
  refine ends_fold (fun done rest x w' => Seen w w' ∧ (∀ j, j ∈ x.1 ∨ j ∈ x.2 → j ∈ done) ∧
    ∀ j ∈ done, (j ∈ x.1 ↔ Blind w'.disk j) ∧ (j ∈ x.2 ↔ ¬ Blind w'.disk j)) ⟨fun _ _ => rfl, by simp, by simp⟩ ?_ ?_
  · rintro done jid rest ⟨blind, manual⟩ w1 hx ⟨h1, h2, h3⟩
    have hnd : jid ∉ done := by
      have := (SetOrder.nodup_iter (O := M.O)).2 hn
      rw [hx] at this
      exact fun h => (List.nodup_append.1 this).2.2 jid h jid (by simp) rfl
    dsimp only at *
    rw [ends_bind]
    refine wp_iff.2 fun t r w2 he hr => ?_
    have hl := wp_sound (looked_info jid w1) he hr
    have hs : Seen w w2 := fun k hk => (hl.disk.frame k fun d => hk jid d).trans (h1 k hk)
    cases r with
    | raised e => exact hs
    | crashed => exact hs
    | ok devs =>
      have hb := blind_iff hu he hr
      show wp Lib _ (ends _ _) w2
      cases ha : BTBV.allBlind (M.O.iter devs) with
      | error e => exact hs
      | ok b =>
        have ha' := allBlind_ok ha
        simp only [SetOrder.mem_iter] at ha'
        rw [← hb] at ha'
        have hold : ∀ j ∈ done, j ≠ jid ∧ (j ∈ blind ↔ Blind w2.disk j) ∧ (j ∈ manual ↔ ¬ Blind w2.disk j) := by
          intro j hj
          have hne : j ≠ jid := fun h => hnd (h ▸ hj)
          rw [blind_other hne hl]
          exact ⟨hne, h3 j hj⟩
        have hnew : jid ∉ blind ∧ jid ∉ manual := ⟨fun h => hnd (h2 _ (.inl h)), fun h => hnd (h2 _ (.inr h))⟩
        show Seen w w2 ∧ _
        refine ⟨hs, ?_⟩
        cases b with
        | true =>
          have := ha'.1 rfl
          simp only [if_pos, mem_setAdd]
          refine ⟨fun j hj => ?_, fun j hj => ?_⟩
          · rcases hj with (hj | rfl) | hj
            · simp [h2 j (.inl hj)]
            · simp
            · simp [h2 j (.inr hj)]
          · rcases List.mem_append.1 hj with hj | hj
            · obtain ⟨h5, h6, h7⟩ := hold j hj
              simp [h5, h6, h7]
            · simp only [List.mem_singleton] at hj
              subst hj
              simp [this, hnew]
        | false =>
          have : ¬ Blind w2.disk jid := fun h => by cases ha'.2 h
          simp only [Bool.false_eq_true, if_false, mem_setAdd]
          refine ⟨fun j hj => ?_, fun j hj => ?_⟩
          · rcases hj with hj | (hj | rfl)
            · simp [h2 j (.inl hj)]
            · simp [h2 j (.inr hj)]
            · simp
          · rcases List.mem_append.1 hj with hj | hj
            · obtain ⟨h5, h6, h7⟩ := hold j hj
              simp [h5, h6, h7]
            · simp only [List.mem_singleton] at hj
              subst hj
              simp [this, hnew]
  · rintro x w' ⟨h1, -, h2⟩
    exact ⟨h1, fun j hj => h2 j (M.O.mem_iter.2 hj)⟩

/-- A stored trust level of blind trust. -/
def Blinds (bl : List DeviceInfo) (e : Ev) : Prop := ∃ dev ∈ bl, e.1 = .store (.trust dev.bareJid dev.identityKey) (.str "BLINDLY_TRUSTED")

theorem blinds_next {bl : List DeviceInfo} {e : Ev} (h : Blinds bl e) (w : World) {k : Key} (hk : ∀ dev ∈ bl, k ≠ .trust dev.bareJid dev.identityKey) :
    (Lib.next w e).disk k = w.disk k := by
  obtain ⟨o, r⟩ := e
  obtain ⟨dev, hd, he⟩ := h
  dsimp only at he
  subst he
  cases r with
  | error e => rfl
  | ok a => exact Disk.upd_of_ne (hk dev hd)

theorem blinds_runs {bl : List DeviceInfo} {t : List Ev} (h : ∀ e ∈ t, Blinds bl e) {w w' : World} (hr : Lib.Runs w t w') {k : Key}
    (hk : ∀ dev ∈ bl, k ≠ .trust dev.bareJid dev.identityKey) : w'.disk k = w.disk k := by
  induction t generalizing w with
  | nil => cases hr; rfl
  | cons e t ih => exact (ih (fun x hx => h x (.tail _ hx)) hr.2).trans (blinds_next (h e (.head _)) w hk)

/-- Storing the levels. -/
theorem store_blind {bl devs : List DeviceInfo} (hs : ∀ dev ∈ devs, dev ∈ bl) {t : List Ev} {r : Res Exn Unit}
    (he : Exec (Prog.forEach devs fun dev => SM.setTrust dev.bareJid dev.identityKey "BLINDLY_TRUSTED") t r) {w w' : World} (hr : Lib.Runs w t w') :
    (∀ e ∈ t, Blinds bl e) ∧ (r = .ok () → ∀ dev ∈ devs, w'.disk (.trust dev.bareJid dev.identityKey) = some (.str "BLINDLY_TRUSTED")) := by
  induction devs generalizing t w bl with
  | nil => obtain ⟨rfl, rfl⟩ := exec_forEach_nil.1 he; simp
  | cons dev devs ih =>
    have hb : ∀ x, Blinds bl ⟨.store (.trust dev.bareJid dev.identityKey) (.str "BLINDLY_TRUSTED"), x⟩ := fun _ => ⟨dev, hs dev (by simp), rfl⟩
    rcases exec_forEach_cons.1 he with ⟨t1, t2, rfl, h1, h2⟩ | ⟨e, h1, rfl⟩ | ⟨h1, rfl⟩
    · rcases exec_call.1 h1 with ⟨_, h⟩ | ⟨_, _, h⟩ | ⟨a, rfl, -⟩
      · cases h
      · cases h
      obtain ⟨h3, h4⟩ := ih (fun d hd => hs d (by simp [hd])) h2 hr.2
      refine ⟨?_, fun h => ?_⟩
      · simp only [List.singleton_append, List.mem_cons, forall_eq_or_imp]
        exact ⟨hb _, h3⟩
      · simp only [List.mem_cons, forall_eq_or_imp]
        refine ⟨?_, h4 h⟩
        by_cases hin : ∃ d ∈ devs, Key.trust dev.bareJid dev.identityKey = .trust d.bareJid d.identityKey
        · obtain ⟨d, hd, hk⟩ := hin
          rw [hk]; exact h4 h d hd
        · have h5 := ih (bl := devs) (fun _ h => h) h2 hr.2
          rw [blinds_runs h5.1 hr.2 fun d hd hk => hin ⟨d, hd, hk⟩]
          exact Disk.upd_self
    · rcases exec_call.1 h1 with ⟨_, h⟩ | ⟨e', rfl, h⟩ | ⟨_, _, h⟩
      · cases h
      · exact ⟨by simpa using hb _, nofun⟩
      · cases h
    · rcases exec_call.1 h1 with ⟨rfl, _⟩ | ⟨_, _, h⟩ | ⟨_, _, h⟩
      · exact ⟨by simp, nofun⟩
      · cases h
      · cases h

end Blindly

/-! ### C66 -/

/-- C66.  A trust decision of the BTBV manager, ending in any way: first, devices are looked up (`t1`), which changes no trust level.  If this succeeds,
then exactly the undecided devices of JIDs to which blind trust applies at this time (`bl`) are made blindly trusted (`t2`), which changes nothing else.  Then the
application is notified about these devices, and asked about exactly the other ones (`mn`). -/
theorem C66 (M : Mgr) (hu : M.undecided = "UNDECIDED") (A : BTBV.App) (undecided : List DeviceInfo) (i : Option String) (t : List Ev) (r : Res Exn Unit)
    (w w' : World) (he : Exec (BTBV.makeTrustDecision M A undecided i) t r) (hr : Lib.Runs w t w') :
    ∃ t1 w1, Lib.Runs w t1 w1 ∧ (∀ k, (∀ j d, k ≠ .devIdentityKey j d ∧ k ≠ .devNamespaces j d) → w1.disk k = w.disk k) ∧
      ((t = t1 ∧ r ≠ .ok ()) ∨
      ∃ bl mn t2 w2 t3, t = t1 ++ (t2 ++ t3) ∧ Lib.Runs w1 t2 w2 ∧ (∀ dev, dev ∈ bl ↔ dev ∈ undecided ∧ Blind w1.disk dev.bareJid) ∧
        (∀ dev, dev ∈ mn ↔ dev ∈ undecided ∧ ¬ Blind w1.disk dev.bareJid) ∧
        (∀ k, (∀ dev ∈ bl, k ≠ .trust dev.bareJid dev.identityKey) → w2.disk k = w1.disk k) ∧
        (∀ e ∈ t2, ∃ dev ∈ bl, e.1 = .store (.trust dev.bareJid dev.identityKey) (.str "BLINDLY_TRUSTED")) ∧
        ((t3 = [] ∧ r ≠ .ok ()) ∨
          ((∀ dev ∈ bl, w2.disk (.trust dev.bareJid dev.identityKey) = some (.str "BLINDLY_TRUSTED")) ∧ Asked A bl mn i t3 r))) := by
  unfold BTBV.makeTrustDecision at he
  have hsort := Blindly.sorted hu (dedup (undecided.map (·.bareJid))) (nodup_dedup _) w
  rcases exec_seq.1 he with ⟨t1, ⟨blind, manual⟩, t', rfl, h1, h2⟩ | ⟨e, h1, rfl⟩ | ⟨h1, rfl⟩
  · obtain ⟨w1, hr1, hr'⟩ := Sem.runs_append.1 hr
    obtain ⟨hseen, hs⟩ := wp_sound hsort h1 hr1
    refine ⟨t1, w1, hr1, hseen, .inr ?_⟩
    have hs' : ∀ dev ∈ undecided, (dev.bareJid ∈ blind ↔ Blind w1.disk dev.bareJid) ∧ (dev.bareJid ∈ manual ↔ ¬ Blind w1.disk dev.bareJid) :=
      fun dev hd => hs _ (by simp only [mem_dedup, List.mem_map]; exact ⟨dev, hd, rfl⟩)
    dsimp only at h2
    generalize hbl : undecided.filter (fun dev => decide (dev.bareJid ∈ blind)) = bl at h2
    generalize hmn : undecided.filter (fun dev => decide (dev.bareJid ∈ manual)) = mn at h2
    have hblm : ∀ dev, dev ∈ bl ↔ dev ∈ undecided ∧ Blind w1.disk dev.bareJid := by
      intro dev
      rw [← hbl]
      simp only [List.mem_filter, decide_eq_true_eq]
      exact ⟨fun ⟨h, h'⟩ => ⟨h, (hs' dev h).1.1 h'⟩, fun ⟨h, h'⟩ => ⟨h, (hs' dev h).1.2 h'⟩⟩
    have hmnm : ∀ dev, dev ∈ mn ↔ dev ∈ undecided ∧ ¬ Blind w1.disk dev.bareJid := by
      intro dev
      rw [← hmn]
      simp only [List.mem_filter, decide_eq_true_eq]
      exact ⟨fun ⟨h, h'⟩ => ⟨h, (hs' dev h).2.1 h'⟩, fun ⟨h, h'⟩ => ⟨h, (hs' dev h).2.2 h'⟩⟩
    have hend : ∀ {t : List Ev} {r : Res Exn Unit}, Exec (Prog.when (mn.length > 0) (A.prompt mn i)) t r →
        (mn = [] ∧ t = [] ∧ r = .ok () ∨ mn ≠ [] ∧ Exec (A.prompt mn i) t r) := by
      intro t r h
      rcases exec_when.1 h with ⟨h1, h2⟩ | ⟨h1, h2⟩
      · exact .inr ⟨by rintro rfl; exact absurd h1 (by simp), h2⟩
      · exact .inl ⟨by simpa using h1, h2⟩
    -- what is left after the blind trust
    have split : (∃ t2 t3 w2, t' = t2 ++ t3 ∧ Lib.Runs w1 t2 w2 ∧ (∀ e ∈ t2, Blindly.Blinds bl e) ∧ ((t3 = [] ∧ r ≠ .ok ()) ∨
        ((∀ dev ∈ bl, w2.disk (.trust dev.bareJid dev.identityKey) = some (.str "BLINDLY_TRUSTED")) ∧ Asked A bl mn i t3 r))) := by
      -- the blind trust part on its own
      have part : ∀ {tb : List Ev} {rb : Res Exn Unit} {wb : World}, Exec (BTBV.trustBlindly M A bl i) tb rb → Lib.Runs w1 tb wb →
          (bl = [] ∧ tb = [] ∧ rb = .ok ()) ∨ (bl ≠ [] ∧ ((∀ e ∈ tb, Blindly.Blinds bl e) ∧ rb ≠ .ok () ∨
            ∃ t2 t3 w2, tb = t2 ++ t3 ∧ Lib.Runs w1 t2 w2 ∧ (∀ e ∈ t2, Blindly.Blinds bl e) ∧
              (∀ dev ∈ bl, w2.disk (.trust dev.bareJid dev.identityKey) = some (.str "BLINDLY_TRUSTED")) ∧ Exec (A.notify bl i) t3 rb)) := by
        intro tb rb wb hb hrb
        unfold BTBV.trustBlindly at hb
        rcases exec_when.1 hb with ⟨h3, h4⟩ | ⟨h3, h4, h5⟩
        · refine .inr ⟨by rintro rfl; exact absurd h3 (by simp), ?_⟩
          have hmem : ∀ dev ∈ M.O.iter bl, dev ∈ bl := fun dev h => M.O.mem_iter.1 h
          rcases exec_seq.1 h4 with ⟨t2, _, t3, rfl, h5, h6⟩ | ⟨e, h5, rfl⟩ | ⟨h5, rfl⟩
          · obtain ⟨w2, hr2, _⟩ := Sem.runs_append.1 hrb
            obtain ⟨h7, h8⟩ := Blindly.store_blind hmem h5 hr2
            exact .inr ⟨t2, t3, w2, rfl, hr2, h7, fun dev hd => h8 rfl dev (M.O.mem_iter.2 hd), h6⟩
          · exact .inl ⟨(Blindly.store_blind hmem h5 hrb).1, nofun⟩
          · exact .inl ⟨(Blindly.store_blind hmem h5 hrb).1, nofun⟩
        · exact .inl ⟨by simpa using h3, h4, h5⟩
      rcases exec_seq.1 h2 with ⟨tb, _, tc, rfl, h3, h4⟩ | ⟨e, h3, rfl⟩ | ⟨h3, rfl⟩
      · obtain ⟨wb, hrb, hrc⟩ := Sem.runs_append.1 hr'
        rcases part h3 hrb with ⟨h5, rfl, -⟩ | ⟨h5, ⟨-, h6⟩ | ⟨t2, t3, w2, rfl, h6, h7, h8, h9⟩⟩
        · refine ⟨[], tc, w1, by simp, rfl, by simp, .inr ⟨by simp [h5], ?_⟩⟩
          exact .going (t := []) (.inl ⟨h5, rfl⟩) (hend h4)
        · exact (h6 rfl).elim
        · exact ⟨t2, t3 ++ tc, w2, by simp, h6, h7, .inr ⟨h8, .going (.inr ⟨h5, h9⟩) (hend h4)⟩⟩
      · rcases part h3 hr' with ⟨_, _, h⟩ | ⟨h5, ⟨h6, h7⟩ | ⟨t2, t3, w2, rfl, h6, h7, h8, h9⟩⟩
        · cases h
        · exact ⟨t', [], w', by simp, hr', h6, .inl ⟨rfl, nofun⟩⟩
        · exact ⟨t2, t3, w2, rfl, h6, h7, .inr ⟨h8, .stopped h5 h9 nofun⟩⟩
      · rcases part h3 hr' with ⟨_, _, h⟩ | ⟨h5, ⟨h6, h7⟩ | ⟨t2, t3, w2, rfl, h6, h7, h8, h9⟩⟩
        · cases h
        · exact ⟨t', [], w', by simp, hr', h6, .inl ⟨rfl, nofun⟩⟩
        · exact ⟨t2, t3, w2, rfl, h6, h7, .inr ⟨h8, .stopped h5 h9 nofun⟩⟩
    obtain ⟨t2, t3, w2, rfl, h3, h4, h5⟩ := split
    exact ⟨bl, mn, t2, w2, t3, rfl, h3, hblm, hmnm, fun k hk => Blindly.blinds_runs h4 h3 hk, h4, h5⟩
  · exact ⟨t, w', hr, wp_sound hsort h1 hr, .inl ⟨rfl, nofun⟩⟩
  · exact ⟨t, w', hr, wp_sound hsort h1 hr, .inl ⟨rfl, nofun⟩⟩

/-- Two JIDs; one device of "a" is distrusted. -/
def World.two : World := ⟨fun k => match k with
  | .devList "a" => some (.ofInts [7, 8])
  | .devList "b" => some (.ofInts [9])
  | .devNamespaces _ _ => some (.ofStrs ["n"])
  | .devActive _ _ => some (.ofBools [("n", true)])
  | .devLabel _ _ => some (.ofOptStr none)
  | .devIdentityKey "a" 7 => some (.str (Base64.encode [7]))
  | .devIdentityKey "a" 8 => some (.str (Base64.encode [8]))
  | .devIdentityKey "b" 9 => some (.str (Base64.encode [9]))
  | .trust "a" [8] => some (.str "DISTRUSTED")
  | _ => none, ["n"], false, []⟩

def Mgr.btbv : Mgr := { Mgr.ex with undecided := "UNDECIDED" }
/-- The user trusts every device they are asked about. -/
def appYes : BTBV.App := ⟨fun _ _ => pure (), fun devs _ => Prog.forEach devs fun dev => SM.setTrust dev.bareJid dev.identityKey "TRUSTED"⟩
def dev7 : DeviceInfo := ⟨["n"], [("n", true)], "a", 7, [7], "UNDECIDED", none⟩
def dev9 : DeviceInfo := ⟨["n"], [("n", true)], "b", 9, [9], "UNDECIDED", none⟩

/-- The device of "b" is trusted blindly, the user is asked about that of "a". -/
theorem C66_example : ∃ t w', Exec (BTBV.makeTrustDecision Mgr.btbv appYes [dev7, dev9] none) t (.ok ()) ∧ Lib.Runs World.two t w' ∧
    ¬ Blind World.two.disk "a" ∧ Blind World.two.disk "b" ∧
    w'.disk (.trust "a" [7]) = some (.str "TRUSTED") ∧ w'.disk (.trust "b" [9]) = some (.str "BLINDLY_TRUSTED") ∧
    w'.disk (.trust "a" [8]) = some (.str "DISTRUSTED") := by
  have hr : (Friendly.genuine.run (BTBV.makeTrustDecision Mgr.btbv appYes [dev7, dev9] none) World.two).2.1 = .ok () := by decide +kernel
  refine ⟨_, _, hr ▸ Friendly.genuine.exec _ _, Friendly.genuine.runs _ _, fun h => ?_, fun d ik lv h1 h2 h3 => ?_, rfl, rfl, rfl⟩
  · have := h 8 [8] "DISTRUSTED" ⟨[.int 7, .int 8], rfl, by simp [JVal.asInt]⟩ ⟨_, rfl, Base64.decode_encode _⟩ rfl
    simp at this
  · cases h3

end Verif
