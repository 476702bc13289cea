import Verif.Proofs.UpdateList
import Verif.Proofs.PresLib
import Verif.Model.App
import Verif.Spec.Life
/-
Device data stays tidy, function by function.
-/
namespace Verif
open Spec Foot

theorem ofStrs_inj {a b : List String} (h : JVal.ofStrs a = .ofStrs b) : a = b := by
  have := congrArg chkStrs h; simpa using this
theorem ofBools_inj {a b : Dict String Bool} (h : JVal.ofBools a = .ofBools b) : a = b := by
  have := congrArg chkBools h; simpa using this
theorem ofInts_inj {a b : List Int} (h : JVal.ofInts a = .ofInts b) : a = b := by
  have := congrArg chkInts h; simpa using this

/-- Interactions that leave device lists, namespaces, activity and the own device id alone. -/
def Aside : Op → Prop
  | .store k _ | .delete k => (∀ j, k ≠ .devList j) ∧ (∀ j d, k ≠ .devNamespaces j d) ∧ (∀ j d, k ≠ .devActive j d) ∧ k ≠ .ownDeviceId
  | _ => True

/-- ... in terms of the storage. -/
def AsideDisk (m m' : Disk) : Prop :=
  (∀ j, m' (.devList j) = m (.devList j)) ∧ (∀ j d, m' (.devNamespaces j d) = m (.devNamespaces j d)) ∧
  (∀ j d, m' (.devActive j d) = m (.devActive j d)) ∧ m' .ownDeviceId = m .ownDeviceId

theorem AsideDisk.refl {m : Disk} : AsideDisk m m := ⟨fun _ => rfl, fun _ _ => rfl, fun _ _ => rfl, rfl⟩

theorem AsideDisk.trans {a b c : Disk} (h : AsideDisk a b) (h' : AsideDisk b c) : AsideDisk a c :=
  ⟨fun j => (h'.1 j).trans (h.1 j), fun j d => (h'.2.1 j d).trans (h.2.1 j d), fun j d => (h'.2.2.1 j d).trans (h.2.2.1 j d),
    h'.2.2.2.trans h.2.2.2⟩

theorem Aside.disk {o : Op} (h : Aside o) {w : World} {r : Except Exn (LibSig.Ret o)} : AsideDisk w.disk (Lib.next w ⟨o, r⟩).disk := by
  have key : ∀ k v, ((∀ j, k ≠ .devList j) ∧ (∀ j d, k ≠ .devNamespaces j d) ∧ (∀ j d, k ≠ .devActive j d) ∧ k ≠ .ownDeviceId) →
      AsideDisk w.disk (w.disk.upd k v) := by
    intro k v h
    exact ⟨fun j => Disk.upd_of_ne (h.1 j).symm, fun j d => Disk.upd_of_ne (h.2.1 j d).symm, fun j d => Disk.upd_of_ne (h.2.2.1 j d).symm,
      Disk.upd_of_ne h.2.2.2.symm⟩
  cases o with
  | store k v => cases r with
    | ok a => exact key k _ h
    | error e => exact .refl
  | delete k => cases r with
    | ok a => exact key k _ h
    | error e => exact .refl
  | _ => cases r <;> exact .refl

section aside
variable {m m' : Disk} (h : AsideDisk m m')
include h

theorem AsideDisk.known {j d} : Known m' j d ↔ Known m j d := by unfold Known; rw [h.1]
theorem AsideDisk.advertises {j d ns} : Advertises m' j d ns ↔ Advertises m j d ns := by unfold Advertises; rw [h.2.1]
theorem AsideDisk.activity {j d ns b} : Activity m' j d ns b ↔ Activity m j d ns b := by unfold Activity; rw [h.2.2.1]
theorem AsideDisk.covered {j d} : Covered m' j d ↔ Covered m j d := by unfold Covered; simp [h.advertises, h.activity]

theorem AsideDisk.tidy {own dev} (ht : Tidy own dev m) : Tidy own dev m' :=
  ⟨h.2.2.2.trans ht.id, fun j v hv => ht.lists j v (by rw [← h.1]; exact hv), fun j d hk hn => h.covered.2 (ht.covered j d (h.known.1 hk) hn), fun ns b hb => ht.live ns b (h.activity.1 hb)⟩
end aside

/-- The world is tidy. -/
def TidyW (own : Jid) (dev : DevId) (w : World) : Prop := Tidy own dev w.disk

variable {own : Jid} {dev : DevId} {M : Mgr} {α : Type}

theorem tidy_aside {p : P α} {φ : Op → Prop} (h : AllOps φ p) (hφ : ∀ o, φ o → Aside o) : Pres Lib (TidyW own dev) p :=
  Pres.ofOps h fun o ho _ _ _ hw => ((hφ o ho).disk).tidy hw

theorem chkBools_eq {v : JVal} {a : Dict String Bool} (h : chkBools v = .ok a) : v = .ofBools a := by
  unfold chkBools checkDict at h
  split at h
  · rename_i l
    split at h
    · rename_i hl
      cases h
      show JVal.dict l = JVal.dict _
      congr 1
      induction l with
      | nil => rfl
      | cons x xs ih =>
        simp only [List.all_cons, Bool.and_eq_true] at hl
        obtain ⟨k, v⟩ := x
        have hv : v = .bool v.asBool := by
          have h1 := hl.1
          cases v <;> first | rfl | (cases h1; done)
        simp only [List.map_cons]
        rw [← hv, ← ih hl.2]
    · cases h
  · cases h

theorem chkStrs_eq {v : JVal} {a : List String} (h : chkStrs v = .ok a) : v = .ofStrs a := by
  unfold chkStrs checkList at h
  split at h
  · rename_i l
    split at h
    · rename_i hl
      cases h
      show JVal.list l = JVal.list _
      congr 1
      induction l with
      | nil => rfl
      | cons v xs ih =>
        simp only [List.all_cons, Bool.and_eq_true] at hl
        have hv : v = .str v.asStr := by
          have h1 := hl.1
          cases v <;> first | rfl | (cases h1; done)
        simp only [List.map_cons]
        rw [← hv, ← ih hl.2]
    · cases h
  · cases h

theorem rd_ok {β : Type} {f : JVal → Except Exn β} {v : Option JVal} {b : β} (h : rd f v = .ok b) : ∃ x, v = some x ∧ f x = .ok b := by
  cases v with
  | none => cases h
  | some x => exact ⟨x, rfl, h⟩

theorem rd_bools {v : Option JVal} {a : Dict String Bool} (h : rd chkBools v = .ok a) : v = some (.ofBools a) := by
  obtain ⟨x, rfl, hx⟩ := rd_ok h; rw [chkBools_eq hx]

theorem rd_strs {v : Option JVal} {a : List String} (h : rd chkStrs v = .ok a) : v = some (.ofStrs a) := by
  obtain ⟨x, rfl, hx⟩ := rd_ok h; rw [chkStrs_eq hx]

theorem activity_iff {m : Disk} {j : Jid} {d : DevId} {a : Dict Ns Bool} (h : m (.devActive j d) = some (.ofBools a)) {ns : Ns} {b : Bool} :
    Activity m j d ns b ↔ a.get ns = some b := by
  constructor
  · rintro ⟨a', h1, h2⟩
    rw [h] at h1
    cases ofBools_inj (Option.some.inj h1)
    exact h2
  · exact fun h' => ⟨a, h, h'⟩

theorem advertises_iff {m : Disk} {j : Jid} {d : DevId} {l : List Ns} (h : m (.devNamespaces j d) = some (.ofStrs l)) {ns : Ns} :
    Advertises m j d ns ↔ ns ∈ l := by
  constructor
  · rintro ⟨l', h1, h2⟩
    rw [h] at h1
    cases ofStrs_inj (Option.some.inj h1)
    exact h2
  · exact fun h' => ⟨l, h, h'⟩

/-- Writing namespaces that all have activity information. -/
theorem tidy_namespaces {m : Disk} {j : Jid} {d : DevId} {l : List Ns} (h : Tidy own dev m)
    (hl : Known m j d → ¬ (j = own ∧ d = dev) → ∀ ns ∈ l, ∃ b, Activity m j d ns b) :
    Tidy own dev (m.upd (.devNamespaces j d) (some (.ofStrs l))) := by
  have hact : ∀ j' d' ns b, Activity (m.upd (.devNamespaces j d) (some (.ofStrs l))) j' d' ns b ↔ Activity m j' d' ns b := by
    intro j' d' ns b
    unfold Activity
    rw [Disk.upd_of_ne (by nofun)]
  refine ⟨(Disk.upd_of_ne (by nofun)).trans h.id, fun j' v hv => h.lists j' v (by simpa [Disk.upd] using hv), fun j' d' hk hn ns hns => ?_, fun ns b hb => h.live ns b ((hact ..).1 hb)⟩
  obtain ⟨lst, hlst, hd⟩ := hk
  rw [Disk.upd_of_ne (by nofun)] at hlst
  simp only [hact]
  obtain ⟨l', hl', hmem⟩ := hns
  by_cases he : Key.devNamespaces j' d' = .devNamespaces j d
  · cases he
    simp at hl'
    cases ofStrs_inj hl'
    exact hl ⟨lst, hlst, hd⟩ hn ns hmem
  · rw [Disk.upd_of_ne he] at hl'
    exact h.covered j' d' ⟨lst, hlst, hd⟩ hn ns ⟨l', hl', hmem⟩

/-- Writing activity information that extends what is there. -/
theorem tidy_active {m : Disk} {j : Jid} {d : DevId} {a : Dict Ns Bool} (h : Tidy own dev m)
    (h1 : Known m j d → ¬ (j = own ∧ d = dev) → ∀ ns b, Activity m j d ns b → ∃ b, a.get ns = some b)
    (h2 : j = own ∧ d = dev → ∀ ns b, a.get ns = some b → b = true) :
    Tidy own dev (m.upd (.devActive j d) (some (.ofBools a))) := by
  refine ⟨(Disk.upd_of_ne (by nofun)).trans h.id, fun j' v hv => h.lists j' v (by simpa [Disk.upd] using hv), fun j' d' hk hn ns hns => ?_, fun ns b hb => ?_⟩
  · obtain ⟨lst, hlst, hd⟩ := hk
    rw [Disk.upd_of_ne (by nofun)] at hlst
    obtain ⟨l', hl', hmem⟩ := hns
    rw [Disk.upd_of_ne (by nofun)] at hl'
    obtain ⟨b, hb⟩ := h.covered j' d' ⟨lst, hlst, hd⟩ hn ns ⟨l', hl', hmem⟩
    by_cases he : Key.devActive j' d' = .devActive j d
    · cases he
      obtain ⟨b', hb'⟩ := h1 ⟨lst, hlst, hd⟩ hn ns b hb
      exact ⟨b', a, by simp, hb'⟩
    · obtain ⟨x, hx, hx'⟩ := hb
      exact ⟨b, x, (Disk.upd_of_ne he).trans hx, hx'⟩
  · obtain ⟨x, hx, hx'⟩ := hb
    by_cases he : Key.devActive own dev = .devActive j d
    · cases he
      simp at hx
      cases ofBools_inj hx
      exact h2 ⟨rfl, rfl⟩ ns b hx'
    · rw [Disk.upd_of_ne he] at hx
      exact h.live ns b ⟨x, hx, hx'⟩


theorem info_fetch_aside {jid : Jid} {d : DevId} {nss : List Ns} :
    AllOps (fun o => Aside o) (SM.fetchIdentityKey jid d nss) := by
  induction nss with
  | nil => trivial
  | cons ns nss ih =>
    unfold SM.fetchIdentityKey Sto.storeBytes
    lib_ops []
    all_goals first | trivial | exact ⟨nofun, nofun, nofun, nofun⟩

theorem info_key_aside {jid : Jid} {d : DevId} {nss : List Ns} :
    AllOps (fun o => Aside o) (SM.identityKeyOf M jid d nss) := by
  have h := @info_fetch_aside jid d
  unfold SM.identityKeyOf
  lib_ops [h]
  all_goals trivial

theorem pres_ends {I : World → Prop} {p : P α} : Pres Lib I p ↔ ∀ w, I w → wp Lib p (ends (fun _ => I) (fun _ => I)) w := by
  have : (ends (fun _ => I) (fun _ => I) : Res Exn α → World → Prop) = fun _ => I := by
    funext r w; cases r <;> rfl
  rw [this]; rfl

theorem tidy_load {β : Type} {k : Key} {f : JVal → Except Exn β} : Pres Lib (TidyW own dev) (call (.load k) >>= fun v => Maybe.fmap f v) :=
  tidy_aside (φ := Aside) (.bind (.perform trivial) fun _ => allOps_fmap _ _) fun _ h => h

theorem tidy_fromJust {β : Type} (o : Option β) : Pres Lib (TidyW own dev) (Maybe.fromJust o : P β) :=
  tidy_aside (φ := Aside) (allOps_fromJust o) fun _ h => h

/-- The own device is active for everything it is said to be active or inactive for. -/
def OwnLive (own : Jid) (dev : DevId) (x : DeviceInfo) : Prop := x.bareJid = own ∧ x.deviceId = dev → ∀ ns b, x.active.get ns = some b → b = true

/-- A program that keeps the world tidy, with a result satisfying `Q`. -/
def TidyP (own : Jid) (dev : DevId) (p : P α) (Q : α → Prop) : Prop :=
  ∀ w, TidyW own dev w → wp Lib p (ends (fun a w' => TidyW own dev w' ∧ Q a) (fun _ => TidyW own dev)) w

theorem TidyP.bind {β : Type} {p : P α} {f : α → P β} {Q : α → Prop} {R : β → Prop} (hp : TidyP own dev p Q)
    (hf : ∀ a, Q a → TidyP own dev (f a) R) : TidyP own dev (p >>= f) R := by
  intro w hw
  rw [ends_bind]
  exact ends_mono (hp w hw) (fun a w' h => hf a h.2 w' h.1) fun _ _ h => h

theorem TidyP.of {p : P α} (h : Pres Lib (TidyW own dev) p) : TidyP own dev p fun _ => True := fun w hw =>
  ends_mono (pres_ends.1 h w hw) (fun _ _ h => ⟨h, trivial⟩) fun _ _ h => h

theorem TidyP.pres {p : P α} {Q : α → Prop} (h : TidyP own dev p Q) : Pres Lib (TidyW own dev) p :=
  pres_ends.2 fun w hw => ends_mono (h w hw) (fun _ _ h => h.1) fun _ _ h => h

theorem TidyP.pure {a : α} {Q : α → Prop} (h : Q a) : TidyP own dev (Pure.pure a : P α) Q := fun _ hw => ⟨hw, h⟩

theorem tidy_deviceInformation (jid : Jid) (d : DevId) : TidyP own dev (SM.deviceInformation M jid d)
    fun r => ∀ x, r = some x → x.1.bareJid = jid ∧ OwnLive own dev x.1 := by
  unfold SM.deviceInformation
  refine TidyP.bind (.of tidy_load) fun o _ => TidyP.bind (.of (tidy_fromJust o)) fun nss _ =>
    TidyP.bind (.of (tidy_aside info_key_aside fun _ h => h)) fun r _ => ?_
  split
  · exact TidyP.pure nofun
  rename_i ik bundle
  intro w hw
  refine Lib.typedJust (f := chkBools) (fun x hx => hw) (fun e he => hw) fun act ha => ?_
  refine Lib.typedJust (f := chkOptStr) (fun x hx => hw) (fun e he => hw) fun lab _ => ?_
  have ha := rd_bools ha
  have hrep : ∀ g : List Ns → Option (DeviceInfo × Option Bundle), (∀ l x, g l = some x → x.1.bareJid = jid ∧ OwnLive own dev x.1) →
      wp Lib (SM.repairNamespaces M jid d (dedup nss) act >>= fun namespaces => (pure (g namespaces) : P _))
      (ends (fun r w' => TidyW own dev w' ∧ ∀ x, r = some x → x.1.bareJid = jid ∧ OwnLive own dev x.1) (fun _ => TidyW own dev)) w := by
    intro g hg
    rw [ends_bind]
    unfold SM.repairNamespaces
    split
    · rw [ends_bind]
      refine Lib.store (fun _ _ => hw) ⟨?_, hg _⟩
      refine tidy_namespaces hw fun _ _ ns hns => ?_
      simp only [SetOrder.mem_iter, mem_setInter] at hns
      obtain ⟨b, hb⟩ := Option.isSome_iff_exists.1 (Dict.mem_keys.1 hns.2)
      exact ⟨b, (activity_iff ha).2 hb⟩
    · exact ⟨hw, hg _⟩
  have hown : ∀ x : DeviceInfo, x.active = act → x.bareJid = jid → x.deviceId = d → OwnLive own dev x := by
    rintro x e1 e2 e3 ⟨h1, h2⟩ ns b hb
    exact hw.live ns b (by rw [← h1, ← h2, e2, e3]; exact (activity_iff ha).2 (e1 ▸ hb))
  rw [ends_bind]
  exact Lib.typed (f := chkStr) (fun _ _ => hw) (fun _ _ _ _ => hw)
    (fun _ => hrep (fun _ => some (_, _)) fun l x hx => by cases hx; exact ⟨rfl, hown _ rfl rfl rfl⟩)
    fun _ _ _ _ => hrep (fun _ => some (_, _)) fun l x hx => by cases hx; exact ⟨rfl, hown _ rfl rfl rfl⟩

theorem tidy_getDeviceInformation' (jid : Jid) : TidyP own dev (SM.getDeviceInformation' M jid) fun r => ∀ x ∈ r.1, x.bareJid = jid ∧ OwnLive own dev x := by
  unfold SM.getDeviceInformation'
  refine TidyP.bind (.of tidy_load) fun o _ w hw => ?_
  refine ends_fold (fun _ _ b w' => TidyW own dev w' ∧ ∀ x ∈ b.1, x.bareJid = jid ∧ OwnLive own dev x) ⟨hw, nofun⟩ ?_ fun _ _ h => h
  rintro done d rest ⟨devs, cache⟩ w' hx ⟨h1, h2⟩
  rw [ends_bind]
  refine ends_mono (tidy_deviceInformation jid d w' h1) ?_ fun _ _ h => h
  rintro r w'' ⟨h3, h4⟩
  have hadd : ∀ x, x.bareJid = jid ∧ OwnLive own dev x → ∀ y ∈ setAdd devs x, y.bareJid = jid ∧ OwnLive own dev y := by
    intro x hx y hy
    rcases (by simpa using hy : y ∈ devs ∨ y = x) with hy | rfl
    · exact h2 y hy
    · exact hx
  split
  · exact ⟨h3, h2⟩
  · exact ⟨h3, hadd _ (h4 _ rfl)⟩
  · exact ⟨h3, hadd _ (h4 _ rfl)⟩

theorem tidy_getDeviceInformation (jid : Jid) : TidyP own dev (SM.getDeviceInformation M jid) fun r => ∀ x ∈ r, x.bareJid = jid ∧ OwnLive own dev x :=
  TidyP.bind (tidy_getDeviceInformation' jid) fun _ h => .pure h

theorem tidy_getOwnDeviceInformation (hj : M.ownJid = own) (hd : M.ownDev = dev) : TidyP own dev (SM.getOwnDeviceInformation M)
    fun r => ∀ ns b, r.1.active.get ns = some b → b = true := by
  unfold SM.getOwnDeviceInformation
  refine TidyP.bind (tidy_getDeviceInformation _) fun all hall => ?_
  dsimp only
  cases ho : (M.O.iter (setDiff all (all.filter fun dev => decide (dev.deviceId ≠ M.ownDev)))).head? with
  | none => exact fun w hw => hw
  | some x =>
    refine TidyP.bind (Q := fun y => y = x) (fun w hw => ⟨hw, rfl⟩) ?_
    rintro _ rfl
    have := List.mem_of_mem_head? (Option.mem_def.2 ho)
    simp only [SetOrder.mem_iter, mem_setDiff, List.mem_filter, not_and, decide_eq_true_eq, Decidable.not_not] at this
    exact .pure ((hall _ this.1).2 ⟨(hall _ this.1).1.trans hj, (this.2 this.1).trans hd⟩)

/-! ### Updates -/

theorem known_iff {m : Disk} {j : Jid} {l : List DevId} (h : m (.devList j) = some (.ofInts l)) {d : DevId} : Known m j d ↔ d ∈ l := by
  constructor
  · rintro ⟨l', h1, h2⟩
    rw [h] at h1
    cases ofInts_inj (Option.some.inj h1)
    exact h2
  · exact fun h' => ⟨l, h, h'⟩

theorem tidy_updateKnownDevice (ns : Ns) (jid : Jid) (dl : DevList) (d : DevId)
    (hown : jid = own → d = dev → (dl.get d).isSome = true) : Pres Lib (TidyW own dev) (SM.updateKnownDevice M ns jid dl d) := by
  refine pres_ends.2 fun w hw => ?_
  unfold SM.updateKnownDevice
  refine Lib.typedJust (f := chkStrs) (fun x hx => hw) (fun e he => hw) fun nss hn => ?_
  refine Lib.typedJust (f := chkBools) (fun x hx => hw) (fun e he => hw) fun act ha => ?_
  have ha := rd_bools ha
  have hn := rd_strs hn
  have hset : ∀ b, (jid = own ∧ d = dev → b = true) → Tidy own dev (w.disk.upd (.devActive jid d) (some (.ofBools (act.set ns b)))) := by
    intro b hb
    refine tidy_active hw (fun _ _ ns' b' hb' => ?_) fun ho ns' b' hb' => ?_
    · rw [activity_iff ha] at hb'
      rw [Dict.get_set]
      split
      · exact ⟨b, rfl⟩
      · exact ⟨b', hb'⟩
    · rw [Dict.get_set] at hb'
      split at hb'
      · cases hb'; exact hb ho
      · exact hw.live ns' b' (by rw [← ho.1, ← ho.2]; exact (activity_iff ha).2 hb')
  cases hg : dl.get d with
  | none =>
    dsimp only
    unfold SM.updateUnlisted
    refine ends_when (fun hmem => ?_) fun _ => hw
    split
    · exact hw
    · refine Lib.store (fun _ _ => hw) (hset false fun ho => ?_)
      have := hown ho.1 ho.2
      rw [hg] at this
      cases this
    · exact hw
  | some lab =>
    dsimp only
    unfold SM.updateListed
    rw [ends_bind]
    refine ends_mono (Q := fun _ w' => TidyW own dev w' ∧ Activity w'.disk jid d ns true ∧ (Known w'.disk jid d → Known w.disk jid d) ∧
        ∀ ns' b, Activity w.disk jid d ns' b → ∃ b, Activity w'.disk jid d ns' b)
      (ends_when (fun hc => ?_) fun hc => ?_) ?_ (fun _ _ h => h)
    · have hnew : (w.disk.upd (.devActive jid d) (some (.ofBools (act.set ns true)))) (.devActive jid d) = some (.ofBools (act.set ns true)) := by simp
      refine Lib.store (fun _ _ => hw) ⟨hset true fun _ => rfl, (activity_iff hnew).2 (by simp), fun hk => ?_, fun ns' b h => ?_⟩
      · obtain ⟨l, hl, hm⟩ := hk
        exact ⟨l, by simpa [Disk.upd] using hl, hm⟩
      · rw [activity_iff ha] at h
        simp only [activity_iff hnew, Dict.get_set]
        split
        · exact ⟨true, rfl⟩
        · exact ⟨b, h⟩
    · have hc := Decidable.not_not.1 hc
      exact ⟨hw, (activity_iff ha).2 hc, id, fun ns' b h => ⟨b, h⟩⟩
    rintro _ w1 ⟨hw1, hact, hknown, hmore⟩
    refine Lib.typedJust (f := chkOptStr) (fun x hx => hw1) (fun e he => hw1) fun l hl => ?_
    rw [ends_bind]
    have hlab : ∀ l, AsideDisk w1.disk (w1.disk.upd (.devLabel jid d) (some (.ofOptStr l))) := fun l =>
      ⟨fun j => Disk.upd_of_ne (by nofun), fun j d => Disk.upd_of_ne (by nofun), fun j d => Disk.upd_of_ne (by nofun), Disk.upd_of_ne (by nofun)⟩
    refine ends_mono (Q := fun _ w' => AsideDisk w1.disk w'.disk) (X := fun _ w' => TidyW own dev w')
      (ends_when (fun hc => ?_) fun hc => .refl) ?_ (fun _ _ h => h)
    · exact Lib.store (fun _ _ => hw1) (hlab _)
    rintro _ w2 has
    have hw2 : TidyW own dev w2 := has.tidy hw1
    refine ends_when (fun hc => ?_) fun hc => hw2
    refine Lib.store (fun _ _ => hw2) ?_
    refine tidy_namespaces hw2 fun hk ho ns' hns' => ?_
    simp only [SetOrder.mem_iter, mem_setAdd, mem_dedup] at hns'
    simp only [has.activity]
    rcases hns' with h | rfl
    · obtain ⟨b, hb⟩ := hw.covered jid d (hknown (has.known.1 hk)) ho ns' ((advertises_iff hn).2 h)
      exact hmore ns' b hb
    · exact ⟨true, hact⟩

/-- Adding a device that is not known yet. -/
theorem tidy_addNewDevice {ns : Ns} {jid : Jid} {dl : DevList} {d : DevId} {w : World} (hw : TidyW own dev w) (hd : ¬ Known w.disk jid d) :
    wp Lib (SM.addNewDevice ns jid dl d) (ends
      (fun _ w' => TidyW own dev w' ∧ w'.disk (.devList jid) = w.disk (.devList jid) ∧ Covered w'.disk jid d ∧
        ∀ d', d' ≠ d → Covered w.disk jid d' → Covered w'.disk jid d') (fun _ => TidyW own dev)) w := by
  unfold SM.addNewDevice
  rw [ends_bind]
  refine Lib.store (fun _ _ => hw) ?_
  have h1 : Tidy own dev (w.disk.upd (.devActive jid d) (some (.ofBools [(ns, true)]))) :=
    tidy_active hw (fun hk => absurd hk hd) fun _ ns' b hb => by
      simp only [Dict.get] at hb
      by_cases hn : ns = ns' <;> simp_all
  split
  · exact h1
  rename_i label _
  rw [ends_bind]
  refine Lib.store (fun _ _ => h1) ?_
  have hs : AsideDisk (w.disk.upd (.devActive jid d) (some (.ofBools [(ns, true)])))
      ((w.disk.upd (.devActive jid d) (some (.ofBools [(ns, true)]))).upd (.devLabel jid d) (some (.ofOptStr label))) :=
    ⟨fun j => Disk.upd_of_ne (by nofun), fun j d => Disk.upd_of_ne (by nofun), fun j d => Disk.upd_of_ne (by nofun), Disk.upd_of_ne (by nofun)⟩
  have h2 := hs.tidy h1
  refine Lib.store (fun _ _ => h2) ⟨tidy_namespaces h2 fun hk => ?_, ?_, ?_, ?_⟩
  · rw [hs.known] at hk
    obtain ⟨l, hl, hm⟩ := hk
    exact absurd ⟨l, (Disk.upd_of_ne (by nofun)).symm.trans hl, hm⟩ hd
  · simp [Disk.upd]
  · intro ns' hn
    rw [advertises_iff (l := [ns]) (by simp)] at hn
    cases (by simpa using hn : ns' = ns)
    exact ⟨true, [(ns, true)], by simp [Disk.upd], by simp [Dict.get]⟩
  · rintro d' hd' hc ns' ⟨l, hl, hm⟩
    simp [Disk.upd, hd'] at hl
    obtain ⟨b, a, ha, hb⟩ := hc ns' ⟨l, hl, hm⟩
    exact ⟨b, a, by simp [Disk.upd, hd', ha], hb⟩

/-- Interactions that write only to the places of one device. -/
inductive Only (jid : Jid) (d : DevId) : Op → Prop where
  | load (k : Key) : Only jid d (.load k)
  | active (a : Dict Ns Bool) : Only jid d (.store (.devActive jid d) (.ofBools a))
  | label (l : Option String) : Only jid d (.store (.devLabel jid d) (.ofOptStr l))
  | namespaces (l : List Ns) : Only jid d (.store (.devNamespaces jid d) (.ofStrs l))

theorem ops_updateKnownDevice (ns : Ns) (jid : Jid) (dl : DevList) (d : DevId) : AllOps (Only jid d) (SM.updateKnownDevice M ns jid dl d) := by
  unfold SM.updateKnownDevice SM.updateListed SM.updateUnlisted
  lib_ops []

/-- The places of other devices are as in `m`. -/
def Others (jid : Jid) (d : DevId) (m : Disk) (w : World) : Prop := ∀ k, ¬ Upd.Of jid d k → w.disk k = m k

theorem only_others {p : P α} {jid : Jid} {d : DevId} (h : AllOps (Only jid d) p) {m : Disk} : Pres Lib (Others jid d m) p := by
  refine Pres.ofOps h fun o ho w r _ hw => ?_
  cases ho with
  | load k => cases r <;> exact hw
  | active a => cases r with
    | ok _ => exact fun k hk => (Disk.upd_of_ne (fun h => hk (.inl h))).trans (hw k hk)
    | error e => exact hw
  | label a => cases r with
    | ok _ => exact fun k hk => (Disk.upd_of_ne (fun h => hk (.inr (.inl h)))).trans (hw k hk)
    | error e => exact hw
  | namespaces a => cases r with
    | ok _ => exact fun k hk => (Disk.upd_of_ne (fun h => hk (.inr (.inr h)))).trans (hw k hk)
    | error e => exact hw

theorem Others.covered {jid : Jid} {d d' : DevId} {m : Disk} {w : World} (h : Others jid d m w) (hd : d' ≠ d) (hc : Covered m jid d') :
    Covered w.disk jid d' := by
  have e1 : w.disk (.devActive jid d') = m (.devActive jid d') := h _ (by
    rintro (h | h | h) <;> cases h; exact hd rfl)
  have e2 : w.disk (.devNamespaces jid d') = m (.devNamespaces jid d') := h _ (by
    rintro (h | h | h) <;> cases h; exact hd rfl)
  unfold Covered Advertises Activity
  rw [e1, e2]
  exact hc

theorem tidy_updateDeviceList (hj : M.ownJid = own) (hd : M.ownDev = dev) (ns : Ns) (jid : Jid) (dl : DevList) :
    Pres Lib (TidyW own dev) (SM.updateDeviceList M ns jid dl) := by
  refine pres_ends.2 fun w hw => ?_
  unfold SM.updateDeviceList
  rw [ends_bind]
  refine Lib.getBackends hw ?_
  split
  · exact hw
  rename_i hns
  have hns := Decidable.not_not.1 hns
  rw [ends_bind]
  have rest : ∀ o : Option (List Int), (∀ d, d ∈ Maybe.maybe o [] ↔ Known w.disk jid d) →
      wp Lib (do
        let dl' ← SM.ensureOwnListed M ns jid dl
        Prog.forEach (M.O.iter (setDiff dl.keys (dedup (Maybe.maybe o [])))) (SM.addNewDevice ns jid dl')
        Prog.forEach (M.O.iter (dedup (Maybe.maybe o []))) (SM.updateKnownDevice M ns jid dl')
        Prog.when ((setDiff dl.keys (dedup (Maybe.maybe o []))).length > 0) do
          call (.store (.devList jid) (.ofInts (M.O.iter (setUnion dl.keys (dedup (Maybe.maybe o []))))))) (ends (fun _ => TidyW own dev) (fun _ => TidyW own dev)) w := by
    intro o ho
    generalize hold : dedup (Maybe.maybe o []) = old
    have hmem : ∀ d, d ∈ old ↔ Known w.disk jid d := fun d => by rw [← hold, mem_dedup]; exact ho d
    rw [ends_bind]
    have t0 : Pres Lib (TidyW own dev) (SM.ensureOwnListed M ns jid dl) := tidy_aside (φ := Aside) (by
      unfold SM.ensureOwnListed; lib_ops []; all_goals trivial) fun _ h => h
    refine ends_mono (Q := fun dl' w' => w'.disk = w.disk ∧ (jid = own → (dl'.get dev).isSome = true)) (X := fun _ => TidyW own dev)
      (ends_mono (ends_and (Upd.wp_ensureOwnListed hns) (pres_ends.1 t0 w hw)) ?_ fun _ _ h => h.2) ?_ (fun _ _ h => h)
    · rintro dl' w' ⟨⟨_, rfl, rfl⟩, _⟩
      refine ⟨rfl, fun hjo => ?_⟩
      unfold Upd.eff
      split
      · rw [← hd]; simp
      · rename_i hn
        refine Dict.mem_keys.1 (Decidable.not_not.1 fun h => hn ⟨hjo.trans hj.symm, hd ▸ h⟩)
    rintro dl' w1 ⟨e1, hown⟩
    have hw1 : TidyW own dev w1 := by unfold TidyW; rw [e1]; exact hw
    rw [ends_bind]
    refine ends_forEach (fun done _ w' => TidyW own dev w' ∧ w'.disk (.devList jid) = w.disk (.devList jid) ∧ ∀ d ∈ done, Covered w'.disk jid d)
      ⟨hw1, by rw [e1], nofun⟩ ?_ ?_
    · rintro done d rest w' hx ⟨h1, h2, h3⟩
      have hdn : ¬ Known w'.disk jid d := by
        unfold Known
        rw [h2]
        have : d ∈ M.O.iter (setDiff dl.keys old) := by rw [hx]; simp
        simp only [SetOrder.mem_iter, mem_setDiff] at this
        exact fun h => this.2 ((hmem d).2 h)
      refine ends_mono (tidy_addNewDevice h1 hdn) ?_ (fun _ _ h => h)
      rintro _ w'' ⟨g1, g2, g3, g4⟩
      refine ⟨g1, g2.trans h2, fun d' hd' => ?_⟩
      by_cases he : d' = d
      · subst he; exact g3
      · refine g4 d' he (h3 d' ?_)
        simpa [he] using hd'
    rintro w2 ⟨hw2, hl2, hc2⟩
    rw [ends_bind]
    refine ends_forEach (fun _ _ w' => TidyW own dev w' ∧ w'.disk (.devList jid) = w.disk (.devList jid) ∧
      ∀ d ∈ M.O.iter (setDiff dl.keys old), Covered w'.disk jid d) ⟨hw2, hl2, hc2⟩ ?_ ?_
    · rintro done d rest w' hx ⟨h1, h2, h3⟩
      have hdo : d ∈ old := by
        have : d ∈ M.O.iter old := by rw [hx]; simp
        simpa using this
      have t1 := pres_ends.1 (tidy_updateKnownDevice (M := M) ns jid dl' d fun h1 h2 => h2 ▸ hown h1) w' h1
      have t2 := pres_ends.1 (only_others (ops_updateKnownDevice (M := M) ns jid dl' d) (m := w'.disk)) w' fun _ _ => rfl
      refine ends_mono (ends_and t1 t2) ?_ (fun _ _ h => h.1)
      rintro _ w'' ⟨g1, g2⟩
      refine ⟨g1, (g2 _ (by rintro (h | h | h) <;> cases h)).trans h2, fun d' hd' => g2.covered ?_ (h3 d' hd')⟩
      rintro rfl
      simp only [SetOrder.mem_iter, mem_setDiff] at hd'
      exact hd'.2 hdo
    rintro w3 ⟨hw3, hl3, hc3⟩
    refine ends_when (fun hc => ?_) fun _ => hw3
    refine Lib.store (fun _ _ => hw3) ⟨by simpa [Disk.upd] using hw3.id, fun j v hv => ?_, fun j d hk hn => ?_, fun ns b hb => hw3.live ns b ?_⟩
    · by_cases he : j = jid
      · subst he
        simp at hv
        exact ⟨_, hv.symm⟩
      · exact hw3.lists j v (by simpa [Disk.upd, he] using hv)
    · have hcov : Covered w3.disk j d → Covered (w3.disk.upd (.devList jid) (some (.ofInts (M.O.iter (setUnion dl.keys old))))) j d := by
        unfold Covered Advertises Activity
        rw [Disk.upd_of_ne (by nofun), Disk.upd_of_ne (by nofun)]
        exact id
      refine hcov ?_
      by_cases he : j = jid
      · subst he
        rw [known_iff (l := M.O.iter (setUnion dl.keys old)) (by simp)] at hk
        simp only [SetOrder.mem_iter, mem_setUnion] at hk
        by_cases ho : d ∈ old
        · refine hw3.covered j d ?_ hn
          unfold Known
          rw [hl3]
          exact (hmem d).1 ho
        · exact hc3 d (by simp [hk.resolve_right ho, ho])
      · obtain ⟨l, hl, hm⟩ := hk
        simp [Disk.upd, he] at hl
        exact hw3.covered j d ⟨l, hl, hm⟩ hn
    · obtain ⟨a, ha, hb⟩ := hb
      exact ⟨a, by simpa [Disk.upd] using ha, hb⟩
  refine Lib.typed (f := chkInts) (fun _ _ => hw) (fun _ _ _ _ => hw) (fun hv => rest none ?_) fun v b hv hb => rest (some b) ?_
  · intro d
    simp [Maybe.maybe, Known, hv]
  · intro d
    obtain ⟨l, rfl⟩ := hw.lists jid v hv
    simp at hb
    subst hb
    exact (known_iff hv).symm

theorem tidy_refreshDeviceList (hj : M.ownJid = own) (hd : M.ownDev = dev) (ns : Ns) (jid : Jid) :
    Pres Lib (TidyW own dev) (SM.refreshDeviceList M ns jid) :=
  Pres.bind (tidy_aside (φ := Aside) (.perform trivial) fun _ h => h) fun _ => tidy_updateDeviceList hj hd ns jid _

/-! ### Calls -/

theorem tidy_op {o : Op} (h : Aside o) : Pres Lib (TidyW own dev) (call o) := tidy_aside (φ := Aside) (.perform h) fun _ h => h

/-- Closes the steps of a program that leave device data alone. -/
macro "tidy_tac" "[" ts:term,* "]" : tactic => `(tactic| repeat' (first
  | assumption
  $[| with_reducible exact $ts ..]*
  | exact Pres.pure _ | exact Pres.raise _
  | exact tidy_aside (φ := Aside) (allOps_next _) fun _ h => h
  | exact tidy_aside (φ := Aside) (allOps_liftE _) fun _ h => h
  | exact tidy_op trivial
  | exact tidy_op ⟨nofun, nofun, nofun, nofun⟩
  | exact tidy_load
  | with_reducible apply Pres.bind | with_reducible apply Pres.bind' | with_reducible apply Pres.tryElse
  | with_reducible apply Pres.when | with_reducible apply Pres.forEach | with_reducible apply Pres.fold
  | with_reducible apply Pres.mapAll | with_reducible apply Pres.filterAll
  | dsimp only
  | split
  | intro _))

theorem tidy_purgeBackend (hj : M.ownJid = own) (hd : M.ownDev = dev) (ns : Ns) : Pres Lib (TidyW own dev) (SM.purgeBackend M ns) := by
  unfold SM.purgeBackend
  refine Pres.bind (tidy_op trivial) fun dl => Pres.bind (by tidy_tac []) fun _ => ?_
  refine TidyP.pres (Q := fun _ => True) (TidyP.bind (tidy_getOwnDeviceInformation hj hd) fun x hx => .of ?_)
  refine Pres.bind (pres_ends.2 fun w hw => ?_) fun _ => Pres.bind (pres_ends.2 fun w hw => ?_) fun _ => ?_
  · refine Lib.store (fun _ _ => hw) (tidy_active hw (fun _ hn => absurd ⟨hj, hd⟩ hn) fun _ ns' b hb => ?_)
    rw [Dict.get_erase] at hb
    split at hb
    · cases hb
    · exact hx ns' b hb
  · exact Lib.store (fun _ _ => hw) (tidy_namespaces hw fun _ hn => absurd ⟨hj, hd⟩ hn)
  tidy_tac []

theorem tidy_handleChangedBackends (hj : M.ownJid = own) (hd : M.ownDev = dev) : Pres Lib (TidyW own dev) (SM.handleChangedBackends M) := by
  have h1 : ∀ l : List Ns, Pres Lib (TidyW own dev) (call (.store (.devActive M.ownJid M.ownDev) (.ofBools (l.map fun ns => (ns, true))))) := by
    refine fun l => pres_ends.2 fun w hw => Lib.store (fun _ _ => hw) (tidy_active hw (fun _ hn => absurd ⟨hj, hd⟩ hn) fun _ ns' b hb => ?_)
    induction l with
    | nil => cases hb
    | cons x xs ih =>
      simp only [List.map_cons, Dict.get] at hb
      split at hb
      · cases hb; rfl
      · exact ih hb
  have h2 : ∀ l : List Ns, Pres Lib (TidyW own dev) (call (.store (.devNamespaces M.ownJid M.ownDev) (.ofStrs l))) :=
    fun l => pres_ends.2 fun w hw => Lib.store (fun _ _ => hw) (tidy_namespaces hw fun _ hn => absurd ⟨hj, hd⟩ hn)
  have h3 := fun ns => tidy_refreshDeviceList hj hd ns M.ownJid
  have h4 := fun ns => tidy_purgeBackend hj hd ns
  have h5 := (tidy_getOwnDeviceInformation hj hd).pres
  unfold SM.handleChangedBackends SM.refillPreKeys
  tidy_tac [h1, h2, h3, h4, h5]

theorem tidy_retryUpload (ns : Ns) (fuel : Nat) : Pres Lib (TidyW own dev) (SM.retryUpload M ns fuel) := by
  induction fuel with
  | zero => exact Pres.raise _
  | succ n ih => unfold SM.retryUpload; tidy_tac []

theorem tidy_manageRotation (p : Int) (fuel rounds : Nat) : Pres Lib (TidyW own dev) (SM.manageRotation M p fuel rounds) := by
  induction rounds with
  | zero => exact Pres.raise _
  | succ n ih => unfold SM.manageRotation SM.rotationRound; tidy_tac [tidy_retryUpload]

theorem tidy_info (jid : Jid) : Pres Lib (TidyW own dev) (SM.getDeviceInformation M jid) := (tidy_getDeviceInformation jid).pres
theorem tidy_info' (jid : Jid) : Pres Lib (TidyW own dev) (SM.getDeviceInformation' M jid) := (tidy_getDeviceInformation' jid).pres

theorem tidy_sendEmptyMessage (ns : Ns) (s : Session) : Pres Lib (TidyW own dev) (SM.sendEmptyMessage M ns s) := by
  unfold SM.sendEmptyMessage; tidy_tac []

theorem tidy_ikp : Pres Lib (TidyW own dev) IdentityKeyPair.get := by
  refine tidy_aside ops_ikp fun o ho => ?_
  cases ho <;> first | trivial | exact ⟨nofun, nofun, nofun, nofun⟩

theorem tidy_encrypt (hd : ∀ ds i, Pres Lib (TidyW own dev) (M.decide ds i)) (jids : List Jid) (pt : Dict Ns Bytes)
    (prio : Option (List Ns)) (i : Option String) : Pres Lib (TidyW own dev) (SM.encrypt M jids pt prio i) := by
  unfold SM.encrypt SM.decideTrust SM.askTrust SM.devicesWithTrust SM.reloadTrust SM.recipientDevices SM.encryptTrusted SM.encryptBackend
    SM.encryptDevice SM.encryptForDevice SM.bundleFor SM.devicesWithTrust
  tidy_tac [hd, tidy_info']

theorem tidy_decrypt (hj : M.ownJid = own) (hd : M.ownDev = dev) (msg : Message) : Pres Lib (TidyW own dev) (SM.decrypt M msg) := by
  have h5 := fun ns jid => tidy_refreshDeviceList hj hd ns jid
  unfold SM.decrypt SM.findSender SM.decryptContent SM.keyMaterial SM.plaintextOf SM.decryptKeyMaterial SM.handleKeyExchange
    SM.postDecrypt SM.consumePreKey SM.discardPreKey SM.refillPreKeys SM.autoReply SM.queueEmpty
  tidy_tac [tidy_info, h5, tidy_sendEmptyMessage]

/-- Every call of a manager of the account that exists already keeps device data tidy, also when it is cut off; purging a JID is a
different matter. -/
theorem tidy_call (hj : M.ownJid = own) (hd : M.ownDev = dev) (c : Call) (happ : c.inDecision = false → ∀ ds i, Pres Lib (TidyW own dev) (M.decide ds i))
    (hc : ∀ bs l f, c ≠ .create bs l f) (hp : ∀ jid, c ≠ .purgeBareJid jid) : Pres Lib (TidyW own dev) (c.run M) := by
  have h3 := fun ns jid => tidy_refreshDeviceList hj hd ns jid
  cases c with
  | getIdentityKeyPair => exact tidy_ikp.bind fun _ => Pres.pure _
  | create bs l f => exact absurd rfl (hc _ _ _)
  | purgeBackend ns => exact tidy_purgeBackend hj hd ns
  | purgeBareJid jid => exact absurd rfl (hp _)
  | ensureDataConsistency => unfold Call.run SM.ensureDataConsistency; tidy_tac [h3]
  | rotation p f r => exact tidy_manageRotation p f r
  | updateDeviceList ns jid dl => exact tidy_updateDeviceList hj hd ns jid dl
  | refreshDeviceList ns jid => exact h3 ns jid
  | refreshDeviceLists jid => unfold Call.run SM.refreshDeviceLists; tidy_tac [h3]
  | setTrust jid ik level => exact tidy_op ⟨nofun, nofun, nofun, nofun⟩
  | replaceSessions jid d => unfold Call.run SM.replaceSessions SM.replaceSession; tidy_tac [tidy_info]
  | getSendingChainLength x => unfold Call.run SM.getSendingChainLength; tidy_tac []
  | setOwnLabel l => unfold Call.run SM.setOwnLabel; tidy_tac []
  | getDeviceInformation jid => exact (tidy_info jid).bind fun _ => Pres.pure _
  | getOwnDeviceInformation => exact (tidy_getOwnDeviceInformation hj hd).pres.bind fun _ => Pres.pure _
  | beforeHistorySync => exact tidy_op trivial
  | afterHistorySync => unfold Call.run SM.afterHistorySync SM.sendQueuedBackend SM.sendQueuedJid SM.sendQueued; tidy_tac [tidy_sendEmptyMessage]
  | encrypt jids pt prio i => exact (tidy_encrypt (happ rfl) jids pt prio i).bind fun _ => Pres.pure _
  | decrypt msg => exact (tidy_decrypt hj hd msg).bind fun _ => Pres.pure _

theorem tidy_app (hj : M.ownJid = own) (hd : M.ownDev = dev) {X : Exn → Prop} {p : P α} (h : AppProg M X p) (hX : ∀ e, X e) :
    Pres Lib (TidyW own dev) p := by
  induction h with
  | ret a => exact Pres.pure a
  | raise e _ => exact Pres.raise e
  | ext o k ho _ ih =>
    intro w hw
    have ha : Aside o := by cases o <;> first | trivial | cases ho
    exact ⟨hw, fun r _ => ih r (fun e _ => hX e) _ ((ha.disk).tidy hw)⟩
  | info jid h f _ _ ihh ihf => exact Pres.tryElse (tidy_info jid) (fun e => ihh e (hX e)) ihf
  | api c h f hc _ _ ihh ihf =>
    refine Pres.tryElse (tidy_call hj hd c (fun h => by rw [hc] at h; cases h) ?_ ?_) (fun e => ihh e (hX e)) ihf
    · rintro bs l f rfl; cases hc
    · rintro jid rfl; cases hc

end Verif
