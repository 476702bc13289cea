import Verif.Proofs.Tidy
import Verif.Proofs.InfoDisk
/-
Lookups leave the stored data of the devices they report as reported.
-/
namespace Verif
open SM Spec

/-- The stored namespaces and activity information of a device of `jid` are as `dev` says. -/
structure Spec.Recorded (jid : Jid) (m : Disk) (dev : DeviceInfo) : Prop where
  bareJid : dev.bareJid = jid
  namespaces : ∃ l, m (.devNamespaces jid dev.deviceId) = some (.ofStrs l) ∧ ∀ n, n ∈ l ↔ n ∈ dev.namespaces
  active : m (.devActive jid dev.deviceId) = some (.ofBools dev.active)
  known : ∀ n ∈ dev.namespaces, (dev.active.get n).isSome = true

section
variable {M : Mgr} {jid : Jid}

theorem Spec.Recorded.looked {m m' : Disk} {dev : DeviceInfo} (h : Recorded jid m dev) (hl : Looked jid m m') : Recorded jid m' dev := by
  refine ⟨h.1, ?_, (hl.active _).trans h.3, h.4⟩
  rcases hl.namespaces dev.deviceId with h1 | ⟨l, a, l', h1, h2, h3, h4⟩
  · rw [h1]; exact h.2
  · obtain ⟨l0, h5, h6⟩ := h.2
    rw [h5] at h1
    rw [h.3] at h2
    simp only [Option.some.injEq] at h1 h2
    obtain rfl := ofStrs_inj' h1
    obtain rfl := ofBools_inj' h2
    exact ⟨l', h3, fun n => by rw [h4, h6]; exact ⟨fun h => h.1, fun h' => ⟨h', h.4 n h'⟩⟩⟩

theorem recorded_deviceInformation (d : DevId) (w : World) : wp Lib (deviceInformation M jid d)
    (ends (fun r w' => LookedW jid w w' ∧ ∀ x, r = some x → Recorded jid w'.disk x.1) (fun _ _ => True)) w := by
  have hand : wp Lib (deviceInformation M jid d) (ends (fun r w' => ∀ x, r = some x → Recorded jid w'.disk x.1) (fun _ _ => True)) w := by
    unfold deviceInformation
    refine Lib.typedJust (fun _ _ => trivial) (fun _ _ => trivial) fun l hl => ?_
    dsimp only
    have hl := rd_strs hl
    rw [ends_bind]
    refine wp_mono (looked_identityKeyOf _ w) fun r w1 h1 => ?_
    obtain ⟨h1, h2⟩ := h1
    cases r with
    | raised e => exact trivial
    | crashed => exact trivial
    | ok o =>
      have hl1 := (h2 (.devNamespaces jid d) nofun).trans hl
      show wp Lib _ (ends _ _) w1
      split
      · exact nofun
      · rename_i ik bundle
        refine Lib.typedJust (f := chkBools) (fun _ _ => trivial) (fun _ _ => trivial) fun a ha => ?_
        have ha := rd_bools ha
        refine Lib.typedJust (f := chkOptStr) (fun _ _ => trivial) (fun _ _ => trivial) fun lab _ => ?_
        have hrep : ∀ g : List Ns → Option (DeviceInfo × Option Bundle), (∀ l x, g l = some x → x.1.bareJid = jid ∧ x.1.deviceId = d ∧ x.1.active = a ∧ x.1.namespaces = l) →
            wp Lib (SM.repairNamespaces M jid d (dedup l) a >>= fun namespaces => (pure (g namespaces) : P _))
            (ends (fun r w' => ∀ x, r = some x → Recorded jid w'.disk x.1) (fun _ _ => True)) w1 := by
          intro g hg
          rw [ends_bind]
          unfold SM.repairNamespaces
          split
          · rw [ends_bind]
            refine Lib.store (fun _ _ => trivial) fun x hx => ?_
            obtain ⟨e1, e2, e3, e4⟩ := hg _ x hx
            refine ⟨e1, ⟨_, by rw [e2]; exact Disk.upd_self, fun n => by rw [e4]; simp⟩, ?_, fun n hn => ?_⟩
            · rw [e2, e3]
              show w1.disk.upd (.devNamespaces jid d) (some (.ofStrs (M.O.iter (setInter (dedup l) a.keys)))) (.devActive jid d) = _
              rw [Disk.upd_of_ne (by nofun)]
              exact ha
            · rw [e4, mem_setInter] at hn
              rw [e3]; exact Dict.mem_keys.1 hn.2
          · rename_i hn
            intro x hx
            obtain ⟨e1, e2, e3, e4⟩ := hg _ x hx
            refine ⟨e1, ⟨l, by rw [e2]; exact hl1, fun n => by rw [e4]; simp⟩, by rw [e2, e3]; exact ha, fun n hn' => ?_⟩
            rw [e3]
            rw [e4] at hn'
            simp only [List.any_eq_true, not_exists, not_and] at hn
            have := hn n hn'
            cases h : Dict.get a n with
            | none => simp [h] at this
            | some b => rfl
        rw [ends_bind]
        exact Lib.typed (f := chkStr) (fun _ _ => trivial) (fun _ _ _ _ => trivial)
          (fun _ => hrep (fun _ => some (_, _)) fun l x hx => by cases hx; exact ⟨rfl, rfl, rfl, rfl⟩)
          fun _ _ _ _ => hrep (fun _ => some (_, _)) fun l x hx => by cases hx; exact ⟨rfl, rfl, rfl, rfl⟩
  refine wp_mono (wp_and hand (looked_deviceInformation d w)) fun r w' h => ?_
  cases r with
  | ok a => exact ⟨h.2, h.1⟩
  | raised e => trivial
  | crashed => trivial

theorem recorded_info' (w : World) : wp Lib (getDeviceInformation' M jid)
    (ends (fun r w' => ∀ x ∈ r.1, Recorded jid w'.disk x) (fun _ _ => True)) w := by
  unfold getDeviceInformation'
  rw [ends_bind]
  have h0 : wp Lib (Sto.loadInts (.devList jid)) (ends (fun _ _ => True) fun _ _ => True) w :=
    wp_mono (Pres.ofOps (I := fun _ => True) (φ := fun _ => True) (allOps_loadInts trivial) (fun _ _ _ _ _ _ => trivial) w trivial) fun r w' _ => by cases r <;> trivial
  refine ends_mono h0 (fun o w0 _ => ?_) fun _ _ h => h
  refine ends_fold (fun _ _ b w' => ∀ x ∈ b.1, Recorded jid w'.disk x) nofun ?_ fun _ _ h => h
  rintro done d rest ⟨devs, cache⟩ w' hx h2
  rw [ends_bind]
  refine ends_mono (recorded_deviceInformation d w') ?_ fun _ _ h => h
  rintro r w'' ⟨h3, h4⟩
  have h5 : ∀ y ∈ devs, Recorded jid w''.disk y := fun y hy => (h2 y hy).looked h3.disk
  have hadd : ∀ x, Recorded jid w''.disk x → ∀ y ∈ setAdd devs x, Recorded jid w''.disk y := by
    intro x hx y hy
    rcases (by simpa using hy : y ∈ devs ∨ y = x) with hy | rfl
    · exact h5 y hy
    · exact hx
  split
  · exact h5
  · exact hadd _ (h4 _ rfl)
  · exact hadd _ (h4 _ rfl)

/-- The own device, as reported. -/
theorem recorded_own (w : World) : wp Lib (getOwnDeviceInformation M)
    (ends (fun r w' => r.1.deviceId = M.ownDev ∧ Recorded M.ownJid w'.disk r.1) (fun _ _ => True)) w := by
  unfold getOwnDeviceInformation getDeviceInformation
  rw [ends_bind, ends_bind]
  refine ends_mono (recorded_info' w) ?_ fun _ _ h => h
  rintro ⟨all, c⟩ w' hall
  show wp Lib (nextOrRuntimeError _ >>= _) (ends _ _) w'
  cases ho : (M.O.iter (setDiff all (all.filter fun dev => decide (dev.deviceId ≠ M.ownDev)))).head? with
  | none => trivial
  | some x =>
    have := List.mem_of_mem_head? (Option.mem_def.2 ho)
    simp only [SetOrder.mem_iter, mem_setDiff, List.mem_filter, not_and, decide_eq_true_eq, Decidable.not_not] at this
    exact ⟨this.2 this.1, hall _ this.1⟩

end
end Verif
