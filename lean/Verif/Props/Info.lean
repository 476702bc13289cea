import Verif.Proofs.InfoDisk
import Verif.Props.Exceptions
/-
C21, C22, C23: what `get_device_information` returns and when it fails.
-/
namespace Verif
namespace Spec

/-- Where the identity key of a device came from: it was stored, or it was missing and a bundle for a namespace stored for the device was
downloaded (`s`: what happened). -/
def Origin (jid : Jid) (m : Disk) (s : List Ev) (d : DevId) (ik : Bytes) : Prop :=
  Keyed m jid d ik ∨ (m (.devIdentityKey jid d) = none ∧
    ∃ ns b, Advertises m jid d ns ∧ (⟨.downloadBundle ns jid d, .ok b⟩ : Ev) ∈ s ∧ b.identityKey = ik)

/-- Downloading the bundle failed. -/
def DownloadFailed (s : List Ev) (ns : Ns) (jid : Jid) (d : DevId) : Prop :=
  (⟨.downloadBundle ns jid d, .error .bundleDownloadFailed⟩ : Ev) ∈ s ∨ (⟨.downloadBundle ns jid d, .error .bundleNotFound⟩ : Ev) ∈ s

/-- The identity key is not known, and no bundle of the device could be downloaded. -/
def NoKey (jid : Jid) (m : Disk) (s : List Ev) (d : DevId) : Prop :=
  m (.devIdentityKey jid d) = none ∧ ∀ ns, Advertises m jid d ns → DownloadFailed s ns jid d

theorem DownloadFailed.mono {s s' : List Ev} {ns jid d} (h : DownloadFailed s ns jid d) (hs : ∀ e ∈ s, e ∈ s') : DownloadFailed s' ns jid d :=
  h.imp (hs _) (hs _)
theorem Origin.mono {jid : Jid} {m : Disk} {s s' : List Ev} {d ik} (h : Origin jid m s d ik) (hs : ∀ e ∈ s, e ∈ s') : Origin jid m s' d ik :=
  h.imp_right fun ⟨h1, ns, b, h2, h3, h4⟩ => ⟨h1, ns, b, h2, hs _ h3, h4⟩
theorem NoKey.mono {jid : Jid} {m : Disk} {s s' : List Ev} {d} (h : NoKey jid m s d) (hs : ∀ e ∈ s, e ∈ s') : NoKey jid m s' d :=
  ⟨h.1, fun ns hn => (h.2 ns hn).mono hs⟩

/-- Only what is stored about the device matters. -/
theorem Origin.congr {jid : Jid} {m m' : Disk} {s : List Ev} {d ik} (h : Origin jid m s d ik) (h1 : m (.devIdentityKey jid d) = m' (.devIdentityKey jid d))
    (h2 : m (.devNamespaces jid d) = m' (.devNamespaces jid d)) : Origin jid m' s d ik := by
  unfold Origin Keyed Advertises at *
  rwa [← h1, ← h2]
theorem NoKey.congr {jid : Jid} {m m' : Disk} {s : List Ev} {d} (h : NoKey jid m s d) (h1 : m (.devIdentityKey jid d) = m' (.devIdentityKey jid d))
    (h2 : m (.devNamespaces jid d) = m' (.devNamespaces jid d)) : NoKey jid m' s d := by
  unfold NoKey Advertises at *
  rwa [← h1, ← h2]

end Spec
open Spec

/-- What the world logged since. -/
def Since (w w' : World) (s : List Ev) : Prop := w'.log = w.log ++ s

theorem Since.trans {w w1 w2 : World} {s s' : List Ev} (h : Since w w1 s) (h' : Since w1 w2 s') : Since w w2 (s ++ s') := by
  unfold Since at *; rw [h', h, List.append_assoc]

/-- What is logged has happened. -/
theorem Lib.log_trace {t : List Ev} {w w' : World} (h : Lib.Runs w t w') : ∃ s, Since w w' s ∧ ∀ e ∈ s, e ∈ t := by
  induction t generalizing w with
  | nil => cases h; exact ⟨[], by simp [Since], by simp⟩
  | cons e t ih =>
    obtain ⟨h1, h2⟩ := h
    obtain ⟨s, h3, h4⟩ := ih h2
    obtain ⟨s0, h5, h6⟩ : ∃ s, Since w (Lib.next w e) s ∧ ∀ x ∈ s, x = e := by
      obtain ⟨o, r⟩ := e
      cases ho : o.isExternal with
      | true => exact ⟨[⟨o, r⟩], by rw [Lib.next_ext ho]; rfl, by simp⟩
      | false =>
        refine ⟨[], ?_, by simp⟩
        cases o <;> first | (cases ho; done) | (cases r <;> simp [Since, Lib])
    exact ⟨s0 ++ s, h5.trans h3, fun x hx => (List.mem_append.1 hx).elim (fun h => by simp [h6 x h]) fun h => by simp [h4 x h]⟩

namespace SM
variable {M : Mgr}

theorem origin_fetch {jid : Jid} {d : DevId} (nss : List Ns) (w : World) : wp Lib (fetchIdentityKey jid d nss)
    (ends (fun o w' => ∃ s, Since w w' s ∧ match o with
      | some b => ∃ ns ∈ nss, (⟨.downloadBundle ns jid d, .ok b⟩ : Ev) ∈ s
      | none => ∀ ns ∈ nss, DownloadFailed s ns jid d) fun _ _ => True) w := by
  induction nss generalizing w with
  | nil => exact ⟨[], by simp [Since], by simp⟩
  | cons ns nss ih =>
    unfold fetchIdentityKey
    rw [wp_tryElse]
    refine wp_mono (Q := ends (fun b w' => w' = w.push ⟨.downloadBundle ns jid d, .ok b⟩)
      fun x w' => ∀ e, x = some e → w' = w.push ⟨.downloadBundle ns jid d, .error e⟩)
      (Lib.ext rfl nofun (fun e _ => by rintro e ⟨⟩; rfl) fun b => rfl) ?_
    intro r w' hr
    cases r with
    | ok b =>
      cases hr
      simp only [split3]
      rw [ends_bind]
      refine Lib.storeBytes (fun _ _ => trivial) ?_
      exact ⟨[⟨.downloadBundle ns jid d, .ok b⟩], rfl, ns, by simp, by simp⟩
    | crashed => trivial
    | raised e =>
      cases hr e rfl
      simp only [split3]
      split
      · rename_i he
        refine ends_mono (ih _) (fun o w2 ⟨s, h1, h2⟩ => ?_) fun _ _ h => h
        refine ⟨⟨.downloadBundle ns jid d, .error e⟩ :: s, by rw [Since, h1]; simp [World.push], ?_⟩
        cases o with
        | some b =>
          obtain ⟨n, hn, hb⟩ := h2
          exact ⟨n, by simp [hn], by simp [hb]⟩
        | none =>
          intro n hn
          rcases List.mem_cons.1 hn with rfl | hn
          · rcases he with rfl | rfl
            · exact .inl (by simp)
            · exact .inr (by simp)
          · exact (h2 n hn).mono fun x hx => by simp [hx]
      · trivial

theorem origin_key {jid : Jid} {d : DevId} (nss : List Ns) (w : World) : wp Lib (identityKeyOf M jid d nss)
    (ends (fun o w' => ∃ s, Since w w' s ∧ match o with
      | some (ik, _) => Keyed w.disk jid d ik ∨ (w.disk (.devIdentityKey jid d) = none ∧
          ∃ ns b, ns ∈ nss ∧ (⟨.downloadBundle ns jid d, .ok b⟩ : Ev) ∈ s ∧ b.identityKey = ik)
      | none => w.disk (.devIdentityKey jid d) = none ∧ ∀ ns ∈ nss, DownloadFailed s ns jid d) fun _ _ => True) w := by
  unfold identityKeyOf onNothing
  rw [wp_tryCatch]
  refine wp_mono (Q := ends (fun o w' => w' = w ∧ ∃ ik, o = some (ik, none) ∧ Keyed w.disk jid d ik)
    fun x w' => w' = w ∧ (x = some .nothingException → w.disk (.devIdentityKey jid d) = none)) ?_ ?_
  · refine Lib.typedJust (fun x hx => ⟨rfl, ?_⟩) (fun e he => ⟨rfl, ?_⟩) fun ik hik => ⟨rfl, ik, rfl, ?_⟩
    · rintro rfl; cases hx
    · intro h
      cases h
      cases hv : w.disk (.devIdentityKey jid d) with
      | none => rfl
      | some v => rw [hv] at he; exact absurd rfl (bytes_not_nothing he)
    · cases hv : w.disk (.devIdentityKey jid d) with
      | none => rw [hv] at hik; cases hik
      | some v =>
        rw [hv] at hik
        change checkBytes v = .ok ik at hik
        unfold checkBytes at hik
        split at hik
        · split at hik
          · cases hik
            exact ⟨_, hv, ‹_›⟩
          · cases hik
        · cases hik
  · intro r w' hr
    cases r with
    | ok a =>
      obtain ⟨rfl, ik, rfl, hk⟩ := hr
      exact ⟨[], by simp [Since], .inl hk⟩
    | crashed => trivial
    | raised e =>
      obtain ⟨rfl, he⟩ := hr
      simp only [handled]
      split
      · rename_i h
        subst h
        rw [ends_bind]
        refine ends_mono (origin_fetch _ w') (fun o w2 ⟨s, h1, h2⟩ => ?_) fun _ _ h => h
        cases o with
        | none => exact ⟨s, h1, he rfl, fun ns hn => h2 ns (M.O.mem_iter.2 hn)⟩
        | some b =>
          obtain ⟨ns, hn, hb⟩ := h2
          exact ⟨s, h1, .inr ⟨he rfl, ns, b, M.O.mem_iter.1 hn, hb, rfl⟩⟩
      · trivial

theorem origin_device {jid : Jid} (d : DevId) (w : World) : wp Lib (deviceInformation M jid d)
    (ends (fun o w' => ∃ s, Since w w' s ∧ (∀ x, o = some x → x.1.deviceId = d ∧ Origin jid w.disk s d x.1.identityKey) ∧
      (o = none → NoKey jid w.disk s d)) fun _ _ => True) w := by
  unfold deviceInformation
  refine Lib.typedJust (fun _ _ => trivial) (fun _ _ => trivial) fun l hl => ?_
  have hl' : w.disk (.devNamespaces jid d) = some (.ofStrs l) := by
    cases hv : w.disk (.devNamespaces jid d) with
    | none => rw [hv] at hl; cases hl
    | some v => rw [hv] at hl; rw [strs_of_check hl]
  have hadv : ∀ ns, Advertises w.disk jid d ns ↔ ns ∈ dedup l := by
    intro ns
    rw [mem_dedup]
    constructor
    · rintro ⟨l', h1, h2⟩
      rw [hl'] at h1
      simp only [Option.some.injEq] at h1
      rwa [ofStrs_inj' h1]
    · exact fun h => ⟨l, hl', h⟩
  dsimp only
  rw [ends_bind]
  refine ends_mono (origin_key _ w) (fun o w1 ⟨s, h1, h2⟩ => ?_) fun _ _ h => h
  split
  · exact ⟨s, h1, nofun, fun _ => ⟨h2.1, fun ns hn => h2.2 ns ((hadv ns).1 hn)⟩⟩
  · rename_i ik b _
    have ho : Origin jid w.disk s d ik := by
      rcases h2 with h2 | ⟨h2, ns, b, h3, h4, h5⟩
      · exact .inl h2
      · exact .inr ⟨h2, ns, b, (hadv ns).2 h3, h4, h5⟩
    refine Lib.typedJust (fun _ _ => trivial) (fun _ _ => trivial) fun a ha => ?_
    refine Lib.typedJust (fun _ _ => trivial) (fun _ _ => trivial) fun lab _ => ?_
    rw [ends_bind]
    refine Lib.typed (fun _ _ => trivial) (fun _ _ _ _ => trivial) (fun _ => ?_) fun v b _ _ => ?_ <;>
    · rw [ends_bind]
      unfold repairNamespaces
      split
      · dsimp only
        rw [ends_bind]
        refine Lib.store (fun _ _ => trivial) ⟨s, h1, ?_, nofun⟩
        rintro x ⟨⟩
        exact ⟨rfl, ho⟩
      · refine ⟨s, h1, ?_, nofun⟩
        rintro x ⟨⟩
        exact ⟨rfl, ho⟩

/-- The interactions of looking up one device. -/
inductive OneDevice (jid : Jid) (d : DevId) : Op → Prop
  | load k : OneDevice jid d (.load k)
  | key v : OneDevice jid d (.store (.devIdentityKey jid d) v)
  | namespaces v : OneDevice jid d (.store (.devNamespaces jid d) v)
  | download ns : OneDevice jid d (.downloadBundle ns jid d)

theorem oneDevice_fetch (jid d nss) : AllOps (OneDevice jid d) (fetchIdentityKey jid d nss) := by
  induction nss with
  | nil => trivial
  | cons ns nss ih =>
    unfold fetchIdentityKey
    lib_ops []

theorem oneDevice_info (M : Mgr) (jid d) : AllOps (OneDevice jid d) (deviceInformation M jid d) := by
  unfold deviceInformation identityKeyOf repairNamespaces
  lib_ops [oneDevice_fetch]

/-- Looking up one device leaves the data of other devices alone. -/
theorem frame_device {jid : Jid} (d : DevId) (k : Key) (hk : k ≠ .devIdentityKey jid d ∧ k ≠ .devNamespaces jid d) (w : World) :
    wp Lib (deviceInformation M jid d) (fun _ w' => w'.disk k = w.disk k) w := by
  refine Pres.ofOps (I := fun w' => w'.disk k = w.disk k) (oneDevice_info M jid d) (fun o ho w1 r _ h => ?_) w rfl
  cases ho with
  | load => exact h
  | key v => cases r with
    | ok a => exact (Disk.upd_of_ne hk.1).trans h
    | error e => exact h
  | namespaces v => cases r with
    | ok a => exact (Disk.upd_of_ne hk.2).trans h
    | error e => exact h
  | download => exact h

theorem origin_info' (jid : Jid) (w : World) : wp Lib (getDeviceInformation' M jid)
    (ends (fun x w' => ∃ s, Since w w' s ∧ (∀ dev ∈ x.1, Origin jid w.disk s dev.deviceId dev.identityKey) ∧
      ∀ l, w.disk (.devList jid) = some (.ofInts l) → ∀ d ∈ l, (∃ dev ∈ x.1, dev.deviceId = d) ∨ NoKey jid w.disk s d) fun _ _ => True) w := by
  unfold getDeviceInformation'
  rw [ends_bind]
  have fin : ∀ ids : List DevId, wp Lib (Prog.fold (M.O.iter (dedup ids)) ([], []) fun (devices, cache) d => do
      match ← deviceInformation M jid d with
      | none => pure (devices, cache)
      | some (dev, none) => pure (setAdd devices dev, cache)
      | some (dev, some bundle) => pure (setAdd devices dev, setAdd cache bundle))
      (ends (fun x w' => ∃ s, Since w w' s ∧ (∀ dev ∈ x.1, Origin jid w.disk s dev.deviceId dev.identityKey) ∧
        ∀ d ∈ ids, (∃ dev ∈ x.1, dev.deviceId = d) ∨ NoKey jid w.disk s d) fun _ _ => True) w := by
    intro ids
    refine ends_fold (fun done rest x w' => ∃ s, Since w w' s ∧
      (∀ d ∈ rest, w'.disk (.devIdentityKey jid d) = w.disk (.devIdentityKey jid d) ∧ w'.disk (.devNamespaces jid d) = w.disk (.devNamespaces jid d)) ∧
      (∀ dev ∈ x.1, Origin jid w.disk s dev.deviceId dev.identityKey) ∧
      ∀ d ∈ done, (∃ dev ∈ x.1, dev.deviceId = d) ∨ NoKey jid w.disk s d) ⟨[], by simp [Since], by simp⟩ ?_ ?_
    · rintro done d rest ⟨devs, cache⟩ w1 hx ⟨s, h1, h2, h3, h4⟩
      have hnd : d ∉ rest := by
        have : (M.O.iter (dedup ids)).Nodup := SetOrder.nodup_iter.2 (nodup_dedup _)
        rw [hx] at this
        have := (List.nodup_append.1 this).2.1
        exact (List.nodup_cons.1 this).1
      dsimp only at *
      rw [ends_bind]
      refine wp_mono (wp_and (origin_device d w1) (wp_iff.2 fun t r w' he hr => fun k hk => wp_sound (frame_device (M := M) (jid := jid) d k hk w1) he hr)) ?_
      intro r w2 ⟨h5, h6⟩
      cases r with
      | raised e => trivial
      | crashed => trivial
      | ok o =>
        obtain ⟨s', h7, h8, h9⟩ := h5
        have hs := h1.trans h7
        have l1 : ∀ e ∈ s, e ∈ s ++ s' := by simp +contextual
        have l2 : ∀ e ∈ s', e ∈ s ++ s' := by simp +contextual
        have hrest : ∀ d' ∈ rest, w2.disk (.devIdentityKey jid d') = w.disk (.devIdentityKey jid d') ∧
            w2.disk (.devNamespaces jid d') = w.disk (.devNamespaces jid d') := by
          intro d' hd'
          have hne : d' ≠ d := fun h => hnd (h ▸ hd')
          obtain ⟨g1, g2⟩ := h2 d' (by simp [hd'])
          exact ⟨(h6 (.devIdentityKey jid d') ⟨by simp [hne], nofun⟩).trans g1, (h6 (.devNamespaces jid d') ⟨nofun, by simp [hne]⟩).trans g2⟩
        obtain ⟨g1, g2⟩ := h2 d (by simp)
        have new : ∀ dev b, o = some (dev, b) → ∃ s, Since w w2 s ∧
            (∀ d ∈ rest, w2.disk (.devIdentityKey jid d) = w.disk (.devIdentityKey jid d) ∧ w2.disk (.devNamespaces jid d) = w.disk (.devNamespaces jid d)) ∧
            (∀ dev' ∈ setAdd devs dev, Origin jid w.disk s dev'.deviceId dev'.identityKey) ∧
            ∀ d' ∈ done ++ [d], (∃ dev' ∈ setAdd devs dev, dev'.deviceId = d') ∨ NoKey jid w.disk s d' := by
          intro dev b ho
          obtain ⟨h10, h11⟩ := h8 _ ho
          dsimp only at h10 h11
          refine ⟨s ++ s', hs, hrest, fun dev' hd' => ?_, fun d' hd' => ?_⟩
          · rcases mem_setAdd.1 hd' with hd' | rfl
            · exact (h3 dev' hd').mono l1
            · rw [h10]; exact (h11.congr g1 g2).mono l2
          · rcases List.mem_append.1 hd' with hd' | hd'
            · rcases h4 d' hd' with ⟨x, hx, hxd⟩ | h
              · exact .inl ⟨x, mem_setAdd.2 (.inl hx), hxd⟩
              · exact .inr (h.mono l1)
            · simp only [List.mem_singleton] at hd'
              exact .inl ⟨dev, mem_setAdd.2 (.inr rfl), by rw [h10, hd']⟩
        simp only [ends_ok]
        split
        · refine ⟨s ++ s', hs, hrest, fun dev hd => (h3 dev hd).mono l1, fun d' hd' => ?_⟩
          rcases List.mem_append.1 hd' with hd' | hd'
          · exact (h4 d' hd').imp_right fun h => h.mono l1
          · simp only [List.mem_singleton] at hd'
            subst hd'
            exact .inr (((h9 rfl).congr g1 g2).mono l2)
        · exact new _ _ rfl
        · exact new _ _ rfl
    · rintro x w' ⟨s, h1, -, h2, h3⟩
      exact ⟨s, h1, h2, fun d hd => h3 d (M.O.mem_iter.2 (mem_dedup.2 hd))⟩
  refine Lib.typed (fun _ _ => trivial) (fun _ _ _ _ => trivial) (fun h0 => ?_) fun v b hv hb => ?_
  · refine ends_mono (fin []) (fun x w' ⟨s, h1, h2, h3⟩ => ⟨s, h1, h2, fun l hl => ?_⟩) fun _ _ h => h
    rw [h0] at hl; cases hl
  · refine ends_mono (fin b) (fun x w' ⟨s, h1, h2, h3⟩ => ⟨s, h1, h2, fun l hl => ?_⟩) fun _ _ h => h
    rw [hl] at hv
    cases hv
    have := chkInts_of l
    rw [show chkInts (.ofInts l) = .ok b from hb] at this
    cases this
    exact h3
end SM
open SM

/-- C21: `get_device_information` returns entries for different devices; each describes a listed device by what is stored about it; the
identity key was stored or just downloaded; and every listed device is there unless its identity key is unknown and no bundle could be
downloaded for any of its namespaces. -/
theorem C21_exact (M : Mgr) (jid : Jid) (t : List Ev) (w w' : World) (devs : List DeviceInfo)
    (he : Exec (getDeviceInformation M jid) t (.ok devs)) (hr : Lib.Runs w t w') :
    (devs.map (·.deviceId)).Nodup ∧
      (∀ dev ∈ devs, Describes M.undecided jid w.disk w'.disk dev ∧ Origin jid w.disk t dev.deviceId dev.identityKey) ∧
      ∀ d, Known w.disk jid d → (∃ dev ∈ devs, dev.deviceId = d) ∨ NoKey jid w.disk t d := by
  have hdesc := describes_info he hr
  obtain ⟨t1, ⟨devs, cache⟩, t2, rfl, h1, h2⟩ := exec_seq_ok.1 he
  cases h2
  rw [List.append_nil] at *
  have hi := exec_getDeviceInformation' h1
  obtain ⟨s, h3, h4⟩ := Lib.log_trace hr
  obtain ⟨s', h5, h6, h7⟩ := wp_sound (origin_info' (M := M) jid w) h1 hr
  obtain rfl : s = s' := by
    unfold Since at h3 h5
    rw [h3] at h5
    exact List.append_cancel_left h5
  refine ⟨hi.nodup, fun dev hd => ⟨hdesc dev hd, (h6 dev hd).mono h4⟩, ?_⟩
  rintro d ⟨l, hl, hd⟩
  exact (h7 l hl d hd).imp_right fun h => h.mono h4

/-- A world in which the bundles of device 8 are gone and namespace "o" is not supported any more. -/
def picky : World → (o : Op) → Except Exn o.Ret
  | w, .downloadBundle ns j d => if d = 8 then .error .bundleNotFound else if ns = "o" then .error .unknownNamespace else genuine w (.downloadBundle ns j d)
  | w, o => genuine w o

theorem picky_ok (w : World) (o : Op) (e : Exn) (h : picky w o = .error e) : e.isInternal = false := by
  cases o <;> simp only [picky] at h <;> first
    | exact genuine_ok w _ e h
    | (split at h
       · cases h; rfl
       · split at h
         · cases h; rfl
         · exact genuine_ok w _ e h)

def Friendly.picky : Friendly := ⟨Verif.picky, picky_ok⟩

/-- Two devices of "a" became known. -/
def World.met2 : World := (Friendly.genuine.run ((Call.updateDeviceList "n" "a" [(7, some "x"), (8, none)]).run Mgr.ex) World.started).2.2

theorem World.met2_hist : ∃ cs, Hist Lib World.fresh cs World.met2 := ⟨_, Friendly.genuine.hist World.started_hist _ _⟩

/-- One device is described, the other left out. -/
theorem C21_example : ∃ t w' dev, Exec (getDeviceInformation Mgr.ex "a") t (.ok [dev]) ∧ Lib.Runs World.met2 t w' ∧
    dev = ⟨["n"], [("n", true)], "a", 7, [7], "undecided", some "x"⟩ ∧ Known World.met2.disk "a" 7 ∧ Known World.met2.disk "a" 8 ∧
    NoKey "a" World.met2.disk t 8 := by
  have h : (Friendly.picky.run (getDeviceInformation Mgr.ex "a") World.met2).2.1 =
    .ok [⟨["n"], [("n", true)], "a", 7, [7], "undecided", some "x"⟩] := by decide +kernel
  have he := h ▸ Friendly.picky.exec (getDeviceInformation Mgr.ex "a") World.met2
  have hr := Friendly.picky.runs (getDeviceInformation Mgr.ex "a") World.met2
  have k7 : Known World.met2.disk "a" 7 := ⟨[7, 8], rfl, by simp⟩
  have k8 : Known World.met2.disk "a" 8 := ⟨[7, 8], rfl, by simp⟩
  refine ⟨_, _, _, he, hr, rfl, k7, k8, ?_⟩
  rcases (C21_exact _ _ _ _ _ _ he hr).2.2 8 k8 with ⟨dev, hd, h8⟩ | h
  · simp only [List.mem_singleton] at hd
    subst hd
    cases h8
  · exact h

/-! ### C22 -/
namespace Spec
/-- The exceptions that mean that a bundle cannot be downloaded. -/
def Unavailable (e : Exn) : Prop := e = .bundleDownloadFailed ∨ e = .bundleNotFound

/-- Storage failed with `e`. -/
def StorageFailed (t : List Ev) (e : Exn) : Prop := ∃ x ∈ t, x.1.isStorage = true ∧ x.2 = .error e
end Spec

namespace SM
variable {χ : Op → Exn → Prop} {ρ : Exn → Prop} {M : Mgr} (hb : Core ρ) (h : ∀ o e, o.isStorage = true → χ o e → ρ e)
  (hdl : ∀ ns j d e, χ (.downloadBundle ns j d) e → Unavailable e ∨ ρ e)
include h hdl

theorem lookup_fetch (jid : Jid) (d : DevId) (nss : List Ns) : Raises (S := LibSig) χ ρ (fetchIdentityKey jid d nss) := by
  induction nss with
  | nil => exact .ret _
  | cons ns nss ih =>
    unfold fetchIdentityKey
    refine .tryElse (ρ' := fun e => Unavailable e ∨ ρ e) (.perform (hdl _ _ _)) (fun e he => ?_) fun b => .bind (.perform fun e => h _ e rfl) fun _ => .pure _
    split
    · exact ih
    · rename_i hn
      exact he.elim (fun h => absurd h hn) id

include hb
theorem lookup_info (jid : Jid) : Raises (S := LibSig) χ ρ (getDeviceInformation M jid) := by
  unfold getDeviceInformation getDeviceInformation' deviceInformation identityKeyOf repairNamespaces
  have hsub := @lookup_fetch χ ρ h hdl
  lib_raises hb, [hsub]
  all_goals exact h _ _ rfl (by assumption)
end SM

/-- C22, as stated: device lookups do not fail because of a bundle download. -/
def C22_Claim : Prop :=
  ∀ (cs : List (Mgr × Call)) (w w' : World) (M : Mgr) (jid : Jid) (t : List Ev) (e : Exn), Hist Lib World.fresh cs w →
    Exec (getDeviceInformation M jid) t (.raised e) → Lib.Runs w t w' → ¬ ∃ ns d, (⟨.downloadBundle ns jid d, .error e⟩ : Ev) ∈ t

/-- A device of "a" became known through namespace "o"; then the library was started without this backend. -/
def World.without : World :=
  (Friendly.genuine.run ((Call.create ["n"] none 5).run Mgr.ex)
    (Friendly.genuine.run ((Call.updateDeviceList "o" "a" [(7, none)]).run Mgr.ex) World.started).2.2).2.2

theorem World.without_hist : ∃ cs, Hist Lib World.fresh cs World.without :=
  ⟨_, Friendly.genuine.hist (Friendly.genuine.hist World.started_hist _ _) _ _⟩

/-- C22 is false of the code: `_download_bundle` raises `UnknownNamespace` for a namespace that is not loaded any more, as documented
(sm:809), and the exception leaves the method. -/
theorem C22_refuted : ¬ C22_Claim := by
  intro h
  obtain ⟨cs, hh⟩ := World.without_hist
  have hr : (Friendly.picky.run (getDeviceInformation Mgr.ex "a") World.without).2.1 = .raised .unknownNamespace := by decide +kernel
  have hb : World.without.backends = ["n"] := by decide +kernel
  refine h cs _ _ Mgr.ex "a" _ _ hh (hr ▸ Friendly.picky.exec _ _) (Friendly.picky.runs _ _) ⟨"o", 7, ?_⟩
  have : (Friendly.picky.run (getDeviceInformation Mgr.ex "a") World.without).1.getLast? = some ⟨.downloadBundle "o" "a" 7, .error .unknownNamespace⟩ := rfl
  exact List.mem_of_getLast? this

/-- C22, what holds: if the exceptions of bundle downloads are `BundleDownloadFailed` and `BundleNotFound`, then device lookups raise
only because storage failed or holds bad data.  Missing: `UnknownNamespace`, which leaves the method. -/
theorem C22_partial (M : Mgr) (jid : Jid) (t : List Ev) (e : Exn) (he : Exec (getDeviceInformation M jid) t (.raised e))
    (hd : ∀ ns j d x, (⟨.downloadBundle ns j d, .error x⟩ : Ev) ∈ t → Unavailable x) : StorageFailed t e ∨ BadData e := by
  refine (lookup_info (M := M) (χ := fun o e => (∃ x ∈ t, x.1 = o ∧ x.2 = .error e)) (ρ := fun e => StorageFailed t e ∨ BadData e)
    ⟨.inr (.inl rfl), .inr (.inr (.inl rfl)), .inr (.inr (.inr rfl))⟩ ?_ ?_ jid).exec he fun x hx y hy => ⟨x, hx, rfl, hy⟩
  · rintro o e ho ⟨x, hx, rfl, hy⟩
    exact .inl ⟨x, hx, ho, hy⟩
  · rintro ns j d e ⟨⟨o, r⟩, hx, h1, h2⟩
    dsimp only at h1 h2
    subst h1 h2
    exact .inl (hd ns j d e hx)

/-! ### C23 -/

/-- C23: whatever is in storage, every namespace of every device returned has activity information. -/
theorem C23_activity (M : Mgr) (jid : Jid) (t : List Ev) (devs : List DeviceInfo) (he : Exec (getDeviceInformation M jid) t (.ok devs)) :
    ∀ dev ∈ devs, ∀ ns ∈ dev.namespaces, ∃ b, dev.active.get ns = some b := by
  intro dev hd ns hns
  obtain ⟨c, hi⟩ := exec_getDeviceInformation he
  obtain ⟨l, -, h2, -⟩ := (hi.seen dev hd).namespaces
  exact Option.isSome_iff_exists.1 ((h2 ns).1 hns).2

/-- C23: `encrypt` raises `KeyError` only if the caller gave no plaintext for one of the loaded backends, whatever is in storage. -/
theorem C23_encrypt (M : Mgr) (hd : CallbackFair M) (jids : List Jid) (pt : Dict Ns Bytes) (prio : Option (List Ns)) (i : Option String)
    (t : List Ev) (w w' : World) (hr : Lib.Runs w t w') (he : Exec (encrypt M jids pt prio i) t (.raised .keyError)) :
    ∃ bs : List Ns, ⟨.getBackends, .ok bs⟩ ∈ t ∧ ∃ ns ∈ bs, pt.get ns = none := by
  have he' : Exec ((Call.encrypt jids pt prio i).run M) t (.raised .keyError) := exec_seq.2 (.inr (.inl ⟨_, he, rfl⟩))
  rcases C69_causes M hd _ t _ he' with ⟨x, hx, hy⟩ | h | h | h | ⟨h, -⟩ | ⟨-, h⟩ | ⟨-, h⟩ | h
  · have := Lib.no_internal hr x hx hy
    cases this
  · rcases h with h | h | ⟨_, h⟩ <;> cases h
  · cases h
  · rcases h with h | h | h <;> cases h
  · exact h
  · cases h
  · cases h
  · cases h
/-- Storage fails: the exception leaves the method. -/
theorem C22_example : Exec (getDeviceInformation Mgr.ex "a") [⟨.load (.devList "a"), .error (.app 1)⟩] (.raised (.app 1)) ∧
    StorageFailed [⟨.load (.devList "a"), .error (.app 1)⟩] (.app 1) := by
  refine ⟨?_, _, List.mem_singleton.2 rfl, rfl, rfl⟩
  refine exec_seq.2 (.inr (.inl ⟨_, ?_, rfl⟩))
  refine exec_seq.2 (.inr (.inl ⟨_, ?_, rfl⟩))
  refine exec_seq.2 (.inr (.inl ⟨_, ?_, rfl⟩))
  exact .op (.error (Exn.app 1)) (.raise _)

/-- Inconsistent data: a namespace without activity information. -/
def World.torn : World := ⟨fun k => match k with
  | .devList "a" => some (.ofInts [7])
  | .devNamespaces "a" 7 => some (.ofStrs ["n", "o"])
  | .devActive "a" 7 => some (.ofBools [("o", false)])
  | .devLabel "a" 7 => some (.ofOptStr none)
  | .devIdentityKey "a" 7 => some (.str "BQ==")
  | _ => none, ["n", "o"], false, []⟩

theorem C23_example : ∃ t w', Exec (getDeviceInformation Mgr.ex "a") t (.ok [⟨["o"], [("o", false)], "a", 7, [5], "undecided", none⟩]) ∧
    Lib.Runs World.torn t w' ∧ w'.disk (.devNamespaces "a" 7) = some (.ofStrs ["o"]) := by
  have h : (Friendly.picky.run (getDeviceInformation Mgr.ex "a") World.torn).2.1 = .ok [⟨["o"], [("o", false)], "a", 7, [5], "undecided", none⟩] := by
    decide +kernel
  exact ⟨_, _, h ▸ Friendly.picky.exec _ _, Friendly.picky.runs _ _, rfl⟩
end Verif
