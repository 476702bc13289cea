import Verif.Proofs.DiskTrace
import Verif.Proofs.ExecLoops
import Verif.Spec.Devices
import Verif.Proofs.PresLib
/-
What `get_device_information` does to the stored data, and how what it returns relates to the stored data.
-/
namespace Verif
open Spec

/-- What looking up devices of `jid` may change in storage: identity keys that were missing are added, and namespaces without activity
information are removed. -/
structure Spec.Looked (jid : Jid) (m m' : Disk) : Prop where
  frame : ∀ k, (∀ d, k ≠ .devIdentityKey jid d ∧ k ≠ .devNamespaces jid d) → m' k = m k
  pinned : ∀ d v, m (.devIdentityKey jid d) = some v → m' (.devIdentityKey jid d) = some v
  fetched : ∀ d, m' (.devIdentityKey jid d) = m (.devIdentityKey jid d) ∨ ∃ ik, HasKey m' jid d ik
  namespaces : ∀ d, m' (.devNamespaces jid d) = m (.devNamespaces jid d) ∨
    ∃ l a l', m (.devNamespaces jid d) = some (.ofStrs l) ∧ m (.devActive jid d) = some (.ofBools a) ∧
      m' (.devNamespaces jid d) = some (.ofStrs l') ∧ ∀ n, n ∈ l' ↔ n ∈ l ∧ (a.get n).isSome = true

theorem ofStrs_inj' {a b : List String} (h : JVal.ofStrs a = .ofStrs b) : a = b := by
  have := chkStrs_of a; rw [h, chkStrs_of] at this; cases this; rfl
theorem ofBools_inj' {a b : Dict String Bool} (h : JVal.ofBools a = .ofBools b) : a = b := by
  have := chkBools_of a; rw [h, chkBools_of] at this; cases this; rfl

theorem Spec.Looked.refl (jid : Jid) (m : Disk) : Looked jid m m :=
  ⟨fun _ _ => rfl, fun _ _ h => h, fun _ => .inl rfl, fun _ => .inl rfl⟩

theorem Spec.Looked.active {jid : Jid} {m m' : Disk} (h : Looked jid m m') (d : DevId) : m' (.devActive jid d) = m (.devActive jid d) :=
  h.frame _ fun _ => ⟨nofun, nofun⟩

theorem Spec.Looked.trans {jid : Jid} {m m1 m2 : Disk} (h : Looked jid m m1) (h' : Looked jid m1 m2) : Looked jid m m2 := by
  refine ⟨fun k hk => (h'.frame k hk).trans (h.frame k hk), fun d v hv => h'.pinned d v (h.pinned d v hv), fun d => ?_, fun d => ?_⟩
  · rcases h'.fetched d with h1 | h1
    · rcases h.fetched d with h2 | ⟨ik, h2⟩
      · exact .inl (h1.trans h2)
      · exact .inr ⟨ik, h1.trans h2⟩
    · exact .inr h1
  · rcases h'.namespaces d with h1 | ⟨l, a, l', h1, h2, h3, h4⟩
    · rw [h1]; exact h.namespaces d
    · rcases h.namespaces d with h5 | ⟨l0, a0, l0', h5, h6, h7, h8⟩
      · exact .inr ⟨l, a, l', h5 ▸ h1, h.active d ▸ h2, h3, h4⟩
      · rw [h.active d, h6] at h2
        rw [h7] at h1
        simp only [Option.some.injEq] at h1 h2
        obtain rfl := ofStrs_inj' h1
        obtain rfl := ofBools_inj' h2
        refine .inr ⟨l0, a0, l', h5, h6, h3, fun n => ?_⟩
        rw [h4, h8]
        exact ⟨fun ⟨x, _⟩ => x, fun x => ⟨x, x.2⟩⟩

/-- `Looked`, for the whole state. -/
structure Spec.LookedW (jid : Jid) (w w' : World) : Prop where
  disk : Looked jid w.disk w'.disk
  backends : w'.backends = w.backends
  sync : w'.sync = w.sync

theorem Spec.LookedW.refl (jid : Jid) (w : World) : LookedW jid w w := ⟨.refl _ _, rfl, rfl⟩
theorem Spec.LookedW.trans {jid : Jid} {w w1 w2 : World} (h : LookedW jid w w1) (h' : LookedW jid w1 w2) : LookedW jid w w2 :=
  ⟨h.disk.trans h'.disk, h'.backends.trans h.backends, h'.sync.trans h.sync⟩

/-- The identity key stored for device `d` of `jid` is `ik`. -/
def Spec.Keyed (m : Disk) (jid : Jid) (d : DevId) (ik : Bytes) : Prop :=
  ∃ s, m (.devIdentityKey jid d) = some (.str s) ∧ Base64.decode s = some ik

/-- `dev` describes a device of `jid`: `m` is the stored data before the lookup, `m'` after it. -/
structure Spec.Describes (undecided : String) (jid : Jid) (m m' : Disk) (dev : DeviceInfo) : Prop where
  bareJid : dev.bareJid = jid
  listed : ∃ l, m (.devList jid) = some (.list l) ∧ dev.deviceId ∈ l.map JVal.asInt
  namespaces : ∃ l, m (.devNamespaces jid dev.deviceId) = some (.ofStrs l) ∧ ∀ ns, ns ∈ dev.namespaces ↔ ns ∈ l ∧ (dev.active.get ns).isSome = true
  active : m (.devActive jid dev.deviceId) = some (.ofBools dev.active)
  label : Labelled m jid dev.deviceId dev.label
  key : Keyed m' jid dev.deviceId dev.identityKey
  level : m (.trust jid dev.identityKey) = some (.str dev.trustLevelName) ∨
    (m (.trust jid dev.identityKey) = none ∧ dev.trustLevelName = undecided)

namespace SM
variable {M : Mgr} {α : Type}

theorem wp_ends {p : P α} {Q : Res Exn α → World → Prop} {w : World} :
    wp Lib p Q w ↔ wp Lib p (ends (fun a => Q (.ok a)) fun x => match x with | none => Q .crashed | some e => Q (.raised e)) w := by
  constructor <;> intro h <;> refine wp_mono h fun r w' hr => ?_ <;> cases r <;> exact hr

/-- Obtaining a missing identity key. -/
theorem looked_store {jid : Jid} {d : DevId} {b : Bytes} {m : Disk} (h : m (.devIdentityKey jid d) = none) :
    Looked jid m (m.upd (.devIdentityKey jid d) (some (.str (Base64.encode b)))) := by
  refine ⟨fun k hk => Disk.upd_of_ne (hk d).1, fun d' v hv => ?_, fun d' => ?_, fun d' => .inl (Disk.upd_of_ne nofun)⟩
  · rw [Disk.upd_of_ne, hv]
    intro heq
    cases heq
    rw [h] at hv; cases hv
  · by_cases hd : d' = d
    · subst hd; exact .inr ⟨b, Disk.upd_self⟩
    · exact .inl (Disk.upd_of_ne fun heq => hd (by cases heq; rfl))

/-- Removing namespaces without activity information. -/
theorem looked_repair {jid : Jid} {d : DevId} {m : Disk} {l l' : List Ns} {a : Dict Ns Bool} (hl : m (.devNamespaces jid d) = some (.ofStrs l))
    (ha : m (.devActive jid d) = some (.ofBools a)) (h : ∀ n, n ∈ l' ↔ n ∈ l ∧ (a.get n).isSome = true) :
    Looked jid m (m.upd (.devNamespaces jid d) (some (.ofStrs l'))) := by
  refine ⟨fun k hk => Disk.upd_of_ne (hk d).2, fun d' v hv => ?_, fun d' => .inl (Disk.upd_of_ne (Key.noConfusion)), fun d' => ?_⟩
  · rw [Disk.upd_of_ne Key.noConfusion, hv]
  · by_cases hd : d' = d
    · subst hd
      exact .inr ⟨l, a, l', hl, ha, Disk.upd_self, h⟩
    · exact .inl (Disk.upd_of_ne fun heq => hd (by cases heq; rfl))

theorem looked_fetchIdentityKey {jid : Jid} {d : DevId} (nss : List Ns) (w : World) (h : w.disk (.devIdentityKey jid d) = none) :
    wp Lib (fetchIdentityKey jid d nss) (fun _ w' => LookedW jid w w' ∧ ∀ k, k ≠ .devIdentityKey jid d → w'.disk k = w.disk k) w := by
  induction nss generalizing w with
  | nil => exact ⟨.refl _ _, fun _ _ => rfl⟩
  | cons ns nss ih =>
    unfold fetchIdentityKey
    rw [wp_tryElse]
    have push : ∀ e, LookedW jid w (w.push e) ∧ ∀ k, k ≠ .devIdentityKey jid d → (w.push e).disk k = w.disk k :=
      fun e => ⟨⟨.refl _ _, rfl, rfl⟩, fun _ _ => rfl⟩
    refine wp_mono (Q := ends (fun b w' => ∃ e, w' = w.push e) fun x w' => (x = none ∧ w' = w) ∨ ∃ e, w' = w.push e)
      (Lib.ext rfl (.inl ⟨rfl, rfl⟩) (fun e _ => .inr ⟨_, rfl⟩) fun b => ⟨_, rfl⟩) ?_
    intro r w' hr
    cases r with
    | ok b =>
      obtain ⟨e, rfl⟩ := hr
      simp only [split3]
      rw [wp_ends, ends_bind]
      refine Lib.storeBytes (fun x _ => ?_) ?_
      · cases x <;> exact push e
      · exact ⟨⟨looked_store h, rfl, rfl⟩, fun k hk => Disk.upd_of_ne hk⟩
    | crashed =>
      rcases hr with ⟨-, rfl⟩ | ⟨e, rfl⟩
      · exact ⟨.refl _ _, fun _ _ => rfl⟩
      · exact push e
    | raised x =>
      rcases hr with ⟨⟨⟩, rfl⟩ | ⟨e, rfl⟩
      simp only [split3]
      split
      · exact wp_mono (ih (w.push e) h) fun _ _ h' => ⟨⟨h'.1.disk, h'.1.backends, h'.1.sync⟩, h'.2⟩
      · exact push e

theorem bytes_not_nothing {v : JVal} {e : Exn} (h : checkBytes v = .error e) : e ≠ .nothingException := by
  unfold checkBytes at h
  split at h
  · split at h <;> cases h <;> exact nofun
  · cases h; exact nofun

theorem looked_identityKeyOf {jid : Jid} {d : DevId} (nss : List Ns) (w : World) :
    wp Lib (identityKeyOf M jid d nss) (fun _ w' => LookedW jid w w' ∧ ∀ k, k ≠ .devIdentityKey jid d → w'.disk k = w.disk k) w := by
  unfold identityKeyOf onNothing
  rw [wp_tryCatch]
  have triv : LookedW jid w w ∧ ∀ k, k ≠ .devIdentityKey jid d → w.disk k = w.disk k := ⟨.refl _ _, fun _ _ => rfl⟩
  refine wp_mono (Q := ends (fun _ w' => w' = w) fun x w' => w' = w ∧ (x = some .nothingException → w.disk (.devIdentityKey jid d) = none)) ?_ ?_
  · refine Lib.typedJust (fun x hx => ⟨rfl, ?_⟩) (fun e he => ⟨rfl, ?_⟩) fun b hb => rfl
    · rintro rfl; cases hx
    · intro h
      cases h
      cases hv : w.disk (.devIdentityKey jid d) with
      | none => rfl
      | some v => rw [hv] at he; exact absurd rfl (bytes_not_nothing he)
  · intro r w' hr
    cases r with
    | ok a => cases hr; exact triv
    | crashed => cases hr.1; exact triv
    | raised e =>
      obtain ⟨rfl, he⟩ := hr
      simp only [handled]
      split
      · rename_i h
        subst h
        rw [wp_bind]
        refine wp_mono (looked_fetchIdentityKey _ w' (he rfl)) fun r w2 hr => ?_
        cases r with
        | ok a => simp only [andThen]; split <;> exact hr
        | raised e => exact hr
        | crashed => exact hr
      · exact triv

theorem looked_deviceInformation {jid : Jid} (d : DevId) (w : World) :
    wp Lib (deviceInformation M jid d) (fun _ w' => LookedW jid w w') w := by
  have refl : ∀ w, LookedW jid w w := .refl jid
  unfold deviceInformation
  rw [wp_ends]
  refine Lib.typedJust (fun x _ => by cases x <;> exact refl w) (fun e he => refl w) fun l hl => ?_
  dsimp only
  have hl' : w.disk (.devNamespaces jid d) = some (.ofStrs l) := by
    cases hv : w.disk (.devNamespaces jid d) with
    | none => rw [hv] at hl; cases hl
    | some v => rw [hv] at hl; rw [strs_of_check hl]
  refine (wp_ends (Q := fun _ w' => LookedW jid w w')).1 ?_
  rw [wp_bind]
  refine wp_mono (looked_identityKeyOf _ w) fun r w1 h1 => ?_
  obtain ⟨h1, h2⟩ := h1
  cases r with
  | raised e => exact h1
  | crashed => exact h1
  | ok o =>
    simp only [andThen]
    split
    · exact h1
    · rw [wp_ends]
      refine Lib.typedJust (fun x _ => by cases x <;> exact h1) (fun e he => h1) fun a ha => ?_
      have ha' : w1.disk (.devActive jid d) = some (.ofBools a) := by
        cases hv : w1.disk (.devActive jid d) with
        | none => rw [hv] at ha; cases ha
        | some v => rw [hv] at ha; rw [bools_of_check ha]
      refine Lib.typedJust (fun x _ => by cases x <;> exact h1) (fun e he => h1) fun lab _ => ?_
      rw [ends_bind]
      refine Lib.typed (fun x _ => by cases x <;> exact h1) (fun _ e _ _ => h1) (fun _ => ?_) fun v b _ _ => ?_ <;>
      · rw [ends_bind]
        unfold repairNamespaces
        split
        · dsimp only
          rw [ends_bind]
          exact Lib.store (fun x _ => by cases x <;> exact h1) (h1.trans ⟨looked_repair ((h2 (.devNamespaces jid d) nofun).trans hl') ha' fun n => by simp, rfl, rfl⟩)
        · exact h1

/-- Looking up devices changes no more than `Looked`, wherever it ends. -/
theorem looked_info' (jid : Jid) (w : World) : wp Lib (getDeviceInformation' M jid) (fun _ w' => LookedW jid w w') w := by
  unfold getDeviceInformation'
  refine (Pres.bind (I := fun w' => LookedW jid w w') (Pres.ofOps (allOps_loadInts (φ := fun o => o = .load (.devList jid)) rfl) ?_) fun l =>
    ?_) w (.refl _ _)
  · rintro o rfl w' r _ h
    exact h
  · refine Pres.fold fun b d _ => Pres.bind (fun w1 h1 => wp_mono (looked_deviceInformation d w1) fun _ _ h => h1.trans h) fun o => ?_
    obtain ⟨_, _⟩ := b
    dsimp only
    split <;> exact Pres.pure _

theorem looked_info (jid : Jid) (w : World) : wp Lib (getDeviceInformation M jid) (fun _ w' => LookedW jid w w') w := by
  unfold getDeviceInformation
  rw [wp_bind]
  refine wp_mono (looked_info' jid w) fun r w' h => ?_
  cases r <;> exact h

theorem looked_own (w : World) : wp Lib (getOwnDeviceInformation M) (fun _ w' => LookedW M.ownJid w w') w := by
  unfold getOwnDeviceInformation
  rw [wp_bind]
  refine wp_mono (looked_info _ w) fun r w' h => ?_
  cases r with
  | ok a => simp only [andThen]; rw [wp_bind]; cases (M.O.iter (setDiff a _)).head? <;> exact h
  | raised e => exact h
  | crashed => exact h

/-! ### The identity keys reported are stored -/

theorem keyed_looked {jid : Jid} {m m' : Disk} (h : Looked jid m m') {d : DevId} {ik : Bytes} (hk : Keyed m jid d ik) : Keyed m' jid d ik := by
  obtain ⟨s, h1, h2⟩ := hk
  exact ⟨s, h.pinned d _ h1, h2⟩

theorem keyed_fetch {jid : Jid} {d : DevId} (nss : List Ns) (w : World) : wp Lib (fetchIdentityKey jid d nss)
    (ends (fun o w' => ∀ b, o = some b → Keyed w'.disk jid d b.identityKey) fun _ _ => True) w := by
  induction nss generalizing w with
  | nil => intro b hb; cases hb
  | cons ns nss ih =>
    unfold fetchIdentityKey
    rw [wp_tryElse]
    refine wp_mono (Q := fun _ _ => True) (wp_iff.2 fun _ _ _ _ _ => trivial) fun r w' _ => ?_
    cases r with
    | ok b =>
      simp only [split3]
      rw [ends_bind]
      refine Lib.storeBytes (fun _ _ => trivial) ?_
      rintro b' ⟨⟩
      exact ⟨_, Disk.upd_self, Base64.decode_encode _⟩
    | crashed => trivial
    | raised e =>
      simp only [split3]
      split
      · exact ih w'
      · trivial

theorem keyed_of {jid : Jid} {d : DevId} (nss : List Ns) (w : World) : wp Lib (identityKeyOf M jid d nss)
    (ends (fun o w' => ∀ ik b, o = some (ik, b) → Keyed w'.disk jid d ik) fun _ _ => True) w := by
  unfold identityKeyOf onNothing
  rw [wp_tryCatch]
  refine wp_mono (Q := ends (fun o w' => ∀ ik b, o = some (ik, b) → Keyed w'.disk jid d ik) fun _ _ => True) ?_ ?_
  · refine Lib.typedJust (fun _ _ => trivial) (fun _ _ => trivial) fun ik hik => ?_
    rintro ik' b ⟨⟩
    cases hv : w.disk (.devIdentityKey jid d) with
    | none => rw [hv] at hik; cases hik
    | some v =>
      rw [hv] at hik
      change checkBytes v = .ok ik at hik
      unfold checkBytes at hik
      split at hik
      · split at hik
        · cases hik
          exact ⟨_, hv, ‹_›⟩
        · cases hik
      · cases hik
  · intro r w' hr
    cases r with
    | ok a => exact hr
    | crashed => trivial
    | raised e =>
      simp only [handled]
      split
      · rw [ends_bind]
        refine ends_mono (keyed_fetch _ w') (fun o w2 h => ?_) fun _ _ h => h
        split
        · intro ik b hb; cases hb
        · rintro ik b ⟨⟩; exact h _ rfl
      · trivial

/-- The identity key of every device returned is stored at the end. -/
theorem keyed_deviceInformation {jid : Jid} (d : DevId) (w : World) : wp Lib (deviceInformation M jid d)
    (ends (fun o w' => ∀ x, o = some x → x.1.deviceId = d ∧ Keyed w'.disk jid d x.1.identityKey) fun _ _ => True) w := by
  unfold deviceInformation
  refine Lib.typedJust (fun _ _ => trivial) (fun _ _ => trivial) fun l hl => ?_
  dsimp only
  rw [ends_bind]
  refine ends_mono (keyed_of _ w) (fun o w1 h1 => ?_) fun _ _ h => h
  split
  · intro x hx; cases hx
  · rename_i ik b
    refine Lib.typedJust (fun _ _ => trivial) (fun _ _ => trivial) fun a ha => ?_
    refine Lib.typedJust (fun _ _ => trivial) (fun _ _ => trivial) fun lab _ => ?_
    have hk := h1 _ _ rfl
    rw [ends_bind]
    refine Lib.typed (fun _ _ => trivial) (fun _ _ _ _ => trivial) (fun _ => ?_) fun v b _ _ => ?_ <;>
    · rw [ends_bind]
      unfold repairNamespaces
      split
      · dsimp only
        rw [ends_bind]
        refine Lib.store (fun _ _ => trivial) ?_
        rintro x ⟨⟩
        obtain ⟨s, h2, h3⟩ := hk
        have h4 : w1.disk.upd (.devNamespaces jid d) (some (.ofStrs (M.O.iter (setInter (dedup l) (Dict.keys a))))) (.devIdentityKey jid d) =
          some (.str s) := by rw [Disk.upd_of_ne Key.noConfusion, h2]
        exact ⟨rfl, s, h4, h3⟩
      · rintro x ⟨⟩
        exact ⟨rfl, hk⟩

theorem keyed_info' (jid : Jid) (w : World) : wp Lib (getDeviceInformation' M jid)
    (ends (fun x w' => ∀ dev ∈ x.1, Keyed w'.disk jid dev.deviceId dev.identityKey) fun _ _ => True) w := by
  unfold getDeviceInformation'
  rw [ends_bind]
  refine wp_mono (Q := fun _ _ => True) (wp_iff.2 fun _ _ _ _ _ => trivial) fun r w' _ => ?_
  cases r with
  | raised e => trivial
  | crashed => trivial
  | ok l =>
    refine ends_fold (fun _ _ x w' => ∀ dev ∈ x.1, Keyed w'.disk jid dev.deviceId dev.identityKey) (by simp) (fun done d rest x w1 _ hi => ?_) fun _ _ h => h
    obtain ⟨devs, cache⟩ := x
    dsimp only at *
    rw [ends_bind]
    refine wp_mono (wp_and (keyed_deviceInformation d w1) (looked_deviceInformation d w1)) ?_
    intro r w2 ⟨h1, h2⟩
    cases r with
    | raised e => trivial
    | crashed => trivial
    | ok o =>
      have old : ∀ dev ∈ devs, Keyed w2.disk jid dev.deviceId dev.identityKey := fun dev hd => keyed_looked h2.disk (hi dev hd)
      have new : ∀ x, o = some x → ∀ dev ∈ setAdd devs x.1, Keyed w2.disk jid dev.deviceId dev.identityKey := by
        intro x hx dev hd
        obtain ⟨h3, h4⟩ := h1 x hx
        rw [mem_setAdd] at hd
        rcases hd with hd | rfl
        · exact old dev hd
        · exact h3.symm ▸ h4
      simp only [ends_ok]
      split
      · exact old
      · exact new _ rfl
      · exact new _ rfl

/-! ### What is returned, in terms of the stored data -/

/-- What was loaded while devices were looked up. -/
theorem looked_loaded {jid : Jid} {w w' : World} {t : List Ev} {r} (h : Exec (getDeviceInformation' M jid) t r) (hr : Lib.Runs w t w')
    {k : Key} {v : Option JVal} (hm : (⟨.load k, .ok v⟩ : Ev) ∈ t) : ∃ w1, LookedW jid w w1 ∧ v = w1.disk k := by
  obtain ⟨u, e, rfl⟩ := List.append_of_mem hm
  obtain ⟨w1, hr1, hr2⟩ := Sem.runs_append.1 hr
  exact ⟨w1, wp_sound (looked_info' jid w) (exec_prefix h (by simp)) hr1, hr2.1⟩

theorem describes_info' {jid : Jid} {w w' : World} {t : List Ev} {x} (h : Exec (getDeviceInformation' M jid) t (.ok x)) (hr : Lib.Runs w t w') :
    ∀ dev ∈ x.1, Describes M.undecided jid w.disk w'.disk dev := by
  intro dev hd
  have hi := exec_getDeviceInformation' h
  have hs := hi.seen dev hd
  obtain rfl := hi.bareJid dev hd
  have same : ∀ {k : Key} {v : Option JVal}, (∀ d, k ≠ .devIdentityKey dev.bareJid d ∧ k ≠ .devNamespaces dev.bareJid d) →
      (⟨.load k, .ok v⟩ : Ev) ∈ t → w.disk k = v := by
    intro k v hk hm
    obtain ⟨w1, h1, h2⟩ := looked_loaded h hr hm
    rw [h2, h1.disk.frame k hk]
  have hact : w.disk (.devActive dev.bareJid dev.deviceId) = some (.ofBools dev.active) := same (fun _ => ⟨nofun, nofun⟩) hs.active
  refine ⟨rfl, ?_, ?_, hact, same (fun _ => ⟨nofun, nofun⟩) hs.label, ?_, ?_⟩
  · obtain ⟨ids, h1, h2, -⟩ := hi.complete
    have := h2 dev hd
    rcases h1 with ⟨l, h1, rfl⟩ | ⟨h1, rfl⟩
    · exact ⟨l, same (fun _ => ⟨nofun, nofun⟩) h1, this⟩
    · cases this
  · obtain ⟨l, h1, h2, -⟩ := hs.namespaces
    obtain ⟨w1, h3, h4⟩ := looked_loaded h hr h1
    rcases h3.disk.namespaces dev.deviceId with h5 | ⟨l0, a, l1, h5, h6, h7, h8⟩
    · exact ⟨l, h5 ▸ h4.symm, h2⟩
    · rw [hact] at h6
      rw [h7] at h4
      simp only [Option.some.injEq] at h4 h6
      obtain rfl := ofStrs_inj' h4
      obtain rfl := ofBools_inj' h6
      refine ⟨l0, h5, fun n => ?_⟩
      rw [h2, h8]
      exact ⟨fun ⟨x, _⟩ => x, fun x => ⟨x, x.2⟩⟩
  · exact wp_sound (keyed_info' dev.bareJid w) h hr dev hd
  · rcases hs.level with h1 | ⟨h1, h2⟩
    · exact .inl (same (fun _ => ⟨nofun, nofun⟩) h1)
    · exact .inr ⟨same (fun _ => ⟨nofun, nofun⟩) h1, h2⟩

theorem describes_info {jid : Jid} {w w' : World} {t : List Ev} {x} (h : Exec (getDeviceInformation M jid) t (.ok x)) (hr : Lib.Runs w t w') :
    ∀ dev ∈ x, Describes M.undecided jid w.disk w'.disk dev := by
  obtain ⟨t1, ⟨x', c⟩, t2, rfl, h1, h2⟩ := exec_seq_ok.1 h
  cases h2
  exact describes_info' h1 (by simpa using hr)

/-- The own device as reported. -/
theorem describes_own {w w' : World} {t : List Ev} {x} (h : Exec (getOwnDeviceInformation M) t (.ok x)) (hr : Lib.Runs w t w') :
    x.1.deviceId = M.ownDev ∧ Describes M.undecided M.ownJid w.disk w'.disk x.1 ∧
      ∀ dev ∈ x.2, dev.deviceId ≠ M.ownDev ∧ Describes M.undecided M.ownJid w.disk w'.disk dev := by
  obtain ⟨t1, all, t2, rfl, h1, h2⟩ := exec_seq_ok.1 h
  obtain ⟨t3, own, t4, rfl, h3, h4⟩ := exec_seq_ok.1 h2
  cases h4
  cases hh : (M.O.iter (setDiff all (all.filter fun dev => decide (dev.deviceId ≠ M.ownDev)))).head? with
  | none => rw [hh] at h3; cases h3
  | some y =>
    rw [hh] at h3
    cases h3
    have hd := describes_info h1 (by simpa using hr)
    have hm := List.mem_of_head? hh
    rw [SetOrder.mem_iter, mem_setDiff, List.mem_filter] at hm
    refine ⟨?_, hd _ hm.1, fun dev hdev => ?_⟩
    · have := hm.2
      simp only [hm.1, true_and, decide_eq_true_eq] at this
      exact Classical.byContradiction this
    · rw [List.mem_filter] at hdev
      exact ⟨by simpa using hdev.2, hd _ hdev.1⟩

end SM
end Verif
