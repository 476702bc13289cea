import Verif.Props.Contact
/-
Where the devices of an account come from.
-/
namespace Verif
open SM Foot

namespace Spec

/-- What is said about devices: entries of device lists, identity keys in bundles, and the ids drawn by this device. -/
structure Sources where
  own : Jid
  listed : Ns → Jid → DevId → Option String → Prop
  served : Jid → DevId → Bytes → Prop
  drawn : DevId → Prop

namespace Sources
variable (S : Sources)

/-- A device of this library. -/
def mine (j : Jid) (d : DevId) : Prop := j = S.own ∧ S.drawn d

/-- The device was on a device list of the account. -/
def device (j : Jid) (d : DevId) : Prop := (∃ ns l, S.listed ns j d l) ∨ S.mine j d

/-- The device was on a device list of the account for this backend. -/
def supports (j : Jid) (d : DevId) (ns : Ns) : Prop := (∃ l, S.listed ns j d l) ∨ S.mine j d

/-- The device was on a device list of the account with this label. -/
def label (j : Jid) (d : DevId) (s : String) : Prop := (∃ ns, S.listed ns j d (some s)) ∨ S.mine j d

/-- The device published a bundle with this identity key. -/
def key (j : Jid) (d : DevId) (ik : Bytes) : Prop := S.served j d ik ∨ S.mine j d

/-- The value is backed by the sources. -/
def Backs : Key → JVal → Prop
  | .devList j, .list l => ∀ x ∈ l, S.device j x.asInt
  | .devNamespaces j d, .list l => ∀ x ∈ l, S.supports j d x.asStr
  | .devActive j d, .dict l => ∀ x ∈ l, S.supports j d x.1
  | .devLabel j d, .str s => S.label j d s
  | .devIdentityKey j d, .str s => ∀ ik, Base64.decode s = some ik → S.key j d ik
  | .ownDeviceId, v => S.drawn v.asInt
  | _, _ => True

/-- Everything stored is backed by the sources. -/
def Back (m : Disk) : Prop := ∀ k v, m k = some v → S.Backs k v

/-- The answer is among the sources, if it is one. -/
def Knows : Ev → Prop
  | ⟨.downloadList ns j, .ok dl⟩ => ∀ d l, Dict.get dl d = some l → S.listed ns j d l
  | ⟨.downloadBundle _ j d, .ok b⟩ => S.served j d b.identityKey
  | ⟨.randBelow _, .ok n⟩ => S.drawn ((n : Nat) + 1 : Int)
  | ⟨.load k, .ok (some v)⟩ => S.Backs k v
  | _ => True

/-- What is reported about a device is backed by the sources. -/
structure Info (dev : DeviceInfo) : Prop where
  device : S.device dev.bareJid dev.deviceId
  supports : ∀ ns ∈ dev.namespaces, S.supports dev.bareJid dev.deviceId ns
  label : ∀ s, dev.label = some s → S.label dev.bareJid dev.deviceId s
  key : S.key dev.bareJid dev.deviceId dev.identityKey

/-- Only what is backed by the sources is stored; sessions are only built with devices that were listed. -/
def Allows : Op → Prop
  | .store k v => S.Backs k v
  | .buildActive ns j d _ _ => S.supports j d ns
  | .buildPassive _ j d _ _ => S.device j d
  | .evalTrust dev => S.Info dev
  | _ => True

/-- The sources, together with device lists given by the application in calls, and the answers in a history. -/
def also (cs : List Call) (t : List Ev) : Sources where
  own := S.own
  listed ns j d l := S.listed ns j d l ∨ (∃ dl, (⟨.downloadList ns j, .ok dl⟩ : Ev) ∈ t ∧ Dict.get dl d = some l) ∨ ∃ dl, Call.updateDeviceList ns j dl ∈ cs ∧ Dict.get dl d = some l
  served j d ik := S.served j d ik ∨ ∃ ns b, (⟨.downloadBundle ns j d, .ok b⟩ : Ev) ∈ t ∧ b.identityKey = ik
  drawn d := S.drawn d ∨ ∃ n k, (⟨.randBelow n, .ok k⟩ : Ev) ∈ t ∧ (k : Nat) + 1 = d

/-- No sources. -/
def none (own : Jid) : Sources := ⟨own, fun _ _ _ _ => False, fun _ _ _ => False, fun _ => False⟩

end Sources

/-- A trust decision that asks for devices, sets trust levels, and does nothing else with the storage, sessions and trust levels. -/
inductive Judgement (M : Mgr) : {α : Type} → P α → Prop where
  | ret {α : Type} (a : α) : Judgement M (.ret a)
  | raise {α : Type} (e : Exn) : Judgement M (.raise e : P α)
  | other {α : Type} (o : Op) (k : Except Exn o.Ret → P α) : (∀ key v, o = .store key v → ∃ j ik, key = .trust j ik) → (∀ ns j d b km, o ≠ .buildActive ns j d b km) →
      (∀ ns j d x k, o ≠ .buildPassive ns j d x k) → (∀ dev, o ≠ .evalTrust dev) → (∀ r, Judgement M (k r)) → Judgement M (.op o k)
  | info {α : Type} (jid : Jid) (h : Exn → P α) (f : List DeviceInfo → P α) : (∀ e, Judgement M (h e)) → (∀ a, Judgement M (f a)) →
      Judgement M (Prog.tryElse (SM.getDeviceInformation M jid) h f)

/-- Trust decisions ask for devices and set trust levels. -/
def Judging (M : Mgr) : Prop := ∀ ds i, Judgement M (M.decide ds i)

end Spec
open Spec

namespace Prov

/-- As long as answers are among the sources, `p` does only what is backed by them. -/
def Ok {α : Type} (S : Sources) : P α → (α → Prop) → Prop
  | .ret a, φ => φ a
  | .raise _, _ => True
  | .op o k, φ => S.Allows o ∧ ∀ r, S.Knows ⟨o, r⟩ → Ok S (k r) φ

variable {α β : Type} {S : Sources}

theorem Ok.bind' {p : P α} {f : α → P β} {φ : α → Prop} {ψ : β → Prop} (hp : Ok S p φ) (hf : ∀ a, φ a → Ok S (f a) ψ) : Ok S (p.bind f) ψ := by
  induction p with
  | ret a => exact hf a hp
  | raise e => trivial
  | op o k ih => exact ⟨hp.1, fun r hr => ih r (hp.2 r hr)⟩

theorem Ok.bind {p : P α} {f : α → P β} {φ : α → Prop} {ψ : β → Prop} (hp : Ok S p φ) (hf : ∀ a, φ a → Ok S (f a) ψ) : Ok S (p >>= f) ψ := Ok.bind' hp hf

theorem Ok.tryElse {p : P α} {f : α → P β} {g : Exn → P β} {φ : α → Prop} {ψ : β → Prop} (hp : Ok S p φ) (hg : ∀ e, Ok S (g e) ψ) (hf : ∀ a, φ a → Ok S (f a) ψ) :
    Ok S (p.tryElse g f) ψ := by
  induction p with
  | ret a => exact hf a hp
  | raise e => exact hg e
  | op o k ih => exact ⟨hp.1, fun r hr => ih r (hp.2 r hr)⟩

theorem Ok.onNothing {p g : P α} {φ : α → Prop} (hp : Ok S p φ) (hg : Ok S g φ) : Ok S (onNothing p g) φ := by
  unfold Verif.onNothing
  induction p with
  | ret a => exact hp
  | raise e =>
    show Ok S (if _ then _ else _) φ
    split
    · exact hg
    · trivial
  | op o k ih => exact ⟨hp.1, fun r hr => ih r (hp.2 r hr)⟩

theorem Ok.mono {p : P α} {φ ψ : α → Prop} (hp : Ok S p φ) (h : ∀ a, φ a → ψ a) : Ok S p ψ := by
  induction p with
  | ret a => exact h a hp
  | raise e => trivial
  | op o k ih => exact ⟨hp.1, fun r hr => ih r (hp.2 r hr)⟩

theorem Ok.seq {p : P α} {f : α → P β} {φ : α → Prop} {ψ : β → Prop} (hp : Ok S p φ) (hf : ∀ a, Ok S (f a) ψ) : Ok S (p >>= f) ψ := hp.bind fun a _ => hf a

theorem Ok.ops {p : P α} (hp : AllOps (S := LibSig) S.Allows p) : Ok S p (fun _ => True) := by
  induction p with
  | ret | raise => trivial
  | op o k ih => exact ⟨hp.1, fun r _ => ih r (hp.2 r)⟩

theorem Ok.pure {a : α} {φ : α → Prop} (h : φ a) : Ok S (Pure.pure a : P α) φ := h

theorem Ok.raise {e : Exn} {φ : α → Prop} : Ok S (.raise e) φ := trivial

theorem Ok.call {o : Op} (h : S.Allows o) : Ok S (call o) (fun a => S.Knows ⟨o, .ok a⟩) :=
  ⟨h, fun r hr => by cases r with
    | ok a => exact hr
    | error e => trivial⟩

theorem Ok.when {c : Prop} [Decidable c] {p : P Unit} (h : c → Ok S p fun _ => True) : Ok S (Prog.when c p) fun _ => True := by
  unfold Prog.when
  split
  · exact h ‹_›
  · trivial

theorem Ok.forEach {xs : List α} {f : α → P Unit} (h : ∀ x ∈ xs, Ok S (f x) fun _ => True) : Ok S (Prog.forEach xs f) fun _ => True := by
  induction xs with
  | nil => trivial
  | cons x xs ih => exact (h x (by simp)).bind' fun _ _ => ih fun y hy => h y (by simp [hy])

theorem Ok.fold {xs : List α} {b : β} {f : β → α → P β} {φ : β → Prop} (h0 : φ b) (h : ∀ b, ∀ x ∈ xs, φ b → Ok S (f b x) φ) : Ok S (Prog.fold xs b f) φ := by
  induction xs generalizing b with
  | nil => exact h0
  | cons x xs ih => exact (h b x (by simp) h0).bind' fun b hb => ih hb fun b y hy => h b y (by simp [hy])

theorem Ok.mapAll {xs : List α} {f : α → P β} {φ : β → Prop} (h : ∀ x ∈ xs, Ok S (f x) φ) : Ok S (Prog.mapAll xs f) fun ys => ∀ y ∈ ys, φ y := by
  induction xs with
  | nil => exact fun _ h => by cases h
  | cons x xs ih =>
    refine (h x (by simp)).bind' fun y hy => (ih fun y hy => h y (by simp [hy])).bind' fun ys hys z hz => ?_
    rcases List.mem_cons.1 hz with rfl | hz
    · exact hy
    · exact hys z hz

theorem Ok.filterAll {xs : List α} {f : α → P Bool} (h : ∀ x ∈ xs, Ok S (f x) fun _ => True) : Ok S (Prog.filterAll xs f) fun ys => ∀ y ∈ ys, y ∈ xs := by
  induction xs with
  | nil => exact fun _ h => by cases h
  | cons x xs ih =>
    refine (h x (by simp)).bind' fun b _ => (ih fun y hy => h y (by simp [hy])).bind' fun ys hys z hz => ?_
    cases b with
    | true =>
      rcases List.mem_cons.1 hz with rfl | hz
      · simp
      · exact List.mem_cons_of_mem _ (hys z hz)
    | false => exact List.mem_cons_of_mem _ (hys z hz)

theorem Ok.exec {p : P α} {φ : α → Prop} (hp : Ok S p φ) {t r} (he : Exec p t r) :
    (∀ h1 e h2, t = h1 ++ e :: h2 → (∀ x ∈ h1, S.Knows x) → S.Allows e.1) ∧ ((∀ x ∈ t, S.Knows x) → ∀ a, r = .ok a → φ a) := by
  induction he with
  | ret a => exact ⟨fun h1 e h2 h => by simp at h, fun _ b hb => by cases hb; exact hp⟩
  | raise => exact ⟨fun h1 e h2 h => by simp at h, fun _ b hb => by cases hb⟩
  | crash => exact ⟨fun h1 e h2 h => by simp at h, fun _ b hb => by cases hb⟩
  | @op o k x t r _ ih =>
    refine ⟨fun h1 e h2 ht hk => ?_, fun hk => (ih (hp.2 x (hk _ List.mem_cons_self))).2 fun y hy => hk y (List.mem_cons_of_mem _ hy)⟩
    cases h1 with
    | nil =>
      simp only [List.nil_append, List.cons.injEq] at ht
      obtain ⟨rfl, -⟩ := ht
      exact hp.1
    | cons y h1 =>
      simp only [List.cons_append, List.cons.injEq] at ht
      obtain ⟨rfl, rfl⟩ := ht
      exact (ih (hp.2 x (hk _ List.mem_cons_self))).1 h1 e h2 rfl fun z hz => hk z (List.mem_cons_of_mem _ hz)

/-! ### Loading -/

theorem ok_just {o : Option α} {φ : α → Prop} (h : ∀ a, o = some a → φ a) : Ok S (Maybe.fromJust o) φ := by
  cases o with
  | none => trivial
  | some a => exact h a rfl

theorem ok_load {k : Key} {f : JVal → Except Exn α} {φ : α → Prop} (h : ∀ v a, S.Backs k v → f v = .ok a → φ a) :
    Ok S (call (.load k) >>= Maybe.fmap f) fun o => ∀ a, o = some a → φ a := by
  refine (Ok.call (o := .load k) trivial).bind fun v hv => ?_
  cases v with
  | none => exact fun a ha => by cases ha
  | some v =>
    simp only [Maybe.fmap]
    cases hf : f v with
    | ok a => exact fun b hb => by cases hb; exact h v a hv hf
    | error e => trivial

variable {jid : Jid} {d : DevId} {M : Mgr} {ns : Ns}

theorem ok_list : Ok S (Sto.loadInts (.devList jid)) fun o => ∀ l, o = some l → ∀ d ∈ l, S.device jid d := by
  refine ok_load fun v l hv hl d hd => ?_
  cases v with
  | list xs =>
    simp only [checkList] at hl
    split at hl
    · cases hl
      obtain ⟨x, hx, rfl⟩ := List.mem_map.1 hd
      exact hv x hx
    · cases hl
  | _ => cases hl

theorem ok_namespaces : Ok S (Sto.loadStrs (.devNamespaces jid d)) fun o => ∀ l, o = some l → ∀ ns ∈ l, S.supports jid d ns := by
  refine ok_load fun v l hv hl ns hn => ?_
  cases v with
  | list xs =>
    simp only [checkList] at hl
    split at hl
    · cases hl
      obtain ⟨x, hx, rfl⟩ := List.mem_map.1 hn
      exact hv x hx
    · cases hl
  | _ => cases hl

theorem ok_active : Ok S (Sto.loadBools (.devActive jid d)) fun o => ∀ l, o = some l → ∀ x ∈ l, S.supports jid d x.1 := by
  refine ok_load fun v l hv hl x hx => ?_
  cases v with
  | dict xs =>
    simp only [checkDict] at hl
    split at hl
    · cases hl
      obtain ⟨y, hy, rfl⟩ := List.mem_map.1 hx
      exact hv y hy
    · cases hl
  | _ => cases hl

theorem ok_label : Ok S (Sto.loadOptStr (.devLabel jid d)) fun o => ∀ l, o = some l → ∀ s, l = some s → S.label jid d s := by
  refine ok_load fun v l hv hl s hs => ?_
  subst hs
  cases v with
  | str x => cases hl; exact hv
  | null => cases hl
  | _ => cases hl

theorem ok_key : Ok S (Sto.loadBytes (.devIdentityKey jid d)) fun o => ∀ ik, o = some ik → S.key jid d ik := by
  refine ok_load fun v ik hv hk => ?_
  cases v with
  | str x =>
    simp only [checkBytes] at hk
    split at hk
    · cases hk; exact hv _ ‹_›
    · cases hk
  | _ => cases hk

theorem ok_own : Ok S (Sto.loadInt .ownDeviceId) fun o => ∀ d, o = some d → S.drawn d := by
  refine ok_load fun v i hv hi => ?_
  simp only [checkPrimitive] at hi
  split at hi
  · cases hi; exact hv
  · cases hi

/-! ### Device lists -/

theorem Ok.store {k : Key} {v : JVal} (h : S.Backs k v) : Ok S (Verif.call (Op.store k v)) fun _ => True := (Ok.call (o := .store k v) h).mono fun _ _ => trivial

/-- What a device list says is among the sources. -/
def Says (S : Sources) (ns : Ns) (jid : Jid) (dl : DevList) : Prop := ∀ d l, Dict.get dl d = some l → S.supports jid d ns ∧ ∀ s, l = some s → S.label jid d s

theorem says_of {dl : DevList} (h : ∀ d l, Dict.get dl d = some l → S.listed ns jid d l) : Says S ns jid dl := fun d l hl =>
  ⟨.inl ⟨l, h d l hl⟩, fun _ hs => .inl ⟨ns, hs ▸ h d l hl⟩⟩

theorem device_of_supports (h : S.supports jid d ns) : S.device jid d := h.imp (fun ⟨l, h⟩ => ⟨ns, l, h⟩) id

theorem backs_bools {l : Dict Ns Bool} (h : ∀ x ∈ l, S.supports jid d x.1) : S.Backs (.devActive jid d) (.ofBools l) := by
  intro x hx
  obtain ⟨y, hy, rfl⟩ := List.mem_map.1 hx
  exact h y hy

theorem backs_strs {l : List Ns} (h : ∀ x ∈ l, S.supports jid d x) : S.Backs (.devNamespaces jid d) (.ofStrs l) := by
  intro x hx
  obtain ⟨y, hy, rfl⟩ := List.mem_map.1 hx
  exact h y hy

theorem backs_ints {l : List Int} (h : ∀ x ∈ l, S.device jid x) : S.Backs (.devList jid) (.ofInts l) := by
  intro x hx
  obtain ⟨y, hy, rfl⟩ := List.mem_map.1 hx
  exact h y hy

theorem backs_label {l : Option String} (h : ∀ s, l = some s → S.label jid d s) : S.Backs (.devLabel jid d) (.ofOptStr l) := by
  cases l with
  | none => trivial
  | some s => exact h s rfl

theorem backs_key {ik : Bytes} (h : S.key jid d ik) : S.Backs (.devIdentityKey jid d) (.str (Base64.encode ik)) := by
  intro ik' hk
  rw [Base64.decode_encode] at hk
  cases hk
  exact h

theorem mem_set {l : Dict Ns Bool} {b : Bool} (h : ∀ x ∈ l, S.supports jid d x.1) (hn : S.supports jid d ns) : ∀ x ∈ l.set ns b, S.supports jid d x.1 := by
  intro x hx
  induction l with
  | nil =>
    obtain rfl := List.mem_singleton.1 hx
    exact hn
  | cons a l ih =>
    obtain ⟨a1, a2⟩ := a
    simp only [Dict.set] at hx
    split at hx
    · rcases List.mem_cons.1 hx with rfl | hx
      · exact hn
      · exact h x (List.mem_cons_of_mem _ hx)
    · rcases List.mem_cons.1 hx with rfl | hx
      · exact h _ List.mem_cons_self
      · exact ih (fun y hy => h y (List.mem_cons_of_mem _ hy)) hx

theorem get_mem {l : Dict Ns Bool} {b : Bool} (h : l.get ns = some b) : ∃ x ∈ l, x.1 = ns := by
  induction l with
  | nil => cases h
  | cons a l ih =>
    obtain ⟨a1, a2⟩ := a
    simp only [Dict.get] at h
    split at h
    · rename_i hk
      exact ⟨_, List.mem_cons_self, hk⟩
    · obtain ⟨x, hx, hn⟩ := ih h
      exact ⟨x, List.mem_cons_of_mem _ hx, hn⟩

theorem ok_add {dl : DevList} (h : Says S ns jid dl) (hn : S.supports jid d ns) : Ok S (addNewDevice ns jid dl d) fun _ => True := by
  unfold addNewDevice
  refine (Ok.store (backs_bools fun x hx => ?_)).seq fun _ => ?_
  · obtain rfl := List.mem_singleton.1 hx
    exact hn
  · split
    · trivial
    · rename_i l hl
      refine (Ok.store (backs_label (h d l hl).2)).seq fun _ => (Ok.store (backs_strs fun x hx => ?_)).mono fun _ _ => trivial
      obtain rfl := List.mem_singleton.1 hx
      exact hn

theorem ok_known {dl : DevList} (h : Says S ns jid dl) : Ok S (updateKnownDevice M ns jid dl d) fun _ => True := by
  unfold updateKnownDevice
  refine ok_namespaces.bind fun o ho => (ok_just ho).bind fun nss hnss => ok_active.bind fun o ho => (ok_just ho).bind fun active hactive => ?_
  split
  · rename_i l hl
    obtain ⟨hn, hlab⟩ := h d l hl
    unfold updateListed
    refine Ok.seq (Ok.when fun _ => (Ok.store (backs_bools (mem_set hactive hn))).mono fun _ _ => trivial) fun _ => ?_
    refine ok_label.seq fun o => (ok_just (φ := fun _ => True) fun _ _ => trivial).seq fun label => ?_
    refine Ok.seq (Ok.when fun _ => (Ok.store (backs_label hlab)).mono fun _ _ => trivial) fun _ => Ok.when fun _ => (Ok.store (backs_strs fun x hx => ?_)).mono fun _ _ => trivial
    rcases mem_setAdd.1 (SetOrder.mem_iter.1 hx) with hx | rfl
    · exact hnss x (mem_dedup.1 hx)
    · exact hn
  · unfold updateUnlisted
    refine Ok.when fun hm => ?_
    split
    · trivial
    · exact (Ok.store (backs_bools (mem_set hactive (hnss ns (mem_dedup.1 hm))))).mono fun _ _ => trivial
    · trivial

theorem ok_ensure {dl : DevList} (h : Says S ns jid dl) (hm : S.mine M.ownJid M.ownDev) : Ok S (ensureOwnListed M ns jid dl) (Says S ns jid) := by
  unfold ensureOwnListed
  split
  · rename_i hj
    refine (Ok.call (o := .getBackends) trivial).seq fun bs => ?_
    split
    · refine ok_label.bind fun o ho => (ok_just ho).bind fun label hl => (Ok.call (o := .uploadList ns _) trivial).seq fun _ => ?_
      intro d l hd
      by_cases he : d = M.ownDev
      · subst he hj
        exact ⟨.inr hm, fun _ _ => .inr hm⟩
      · rw [Dict.get_set_ne (Ne.symm he)] at hd
        exact h d l hd
    · exact h
  · exact h

theorem ok_update {dl : DevList} (h : Says S ns jid dl) (hm : S.mine M.ownJid M.ownDev) : Ok S (updateDeviceList M ns jid dl) fun _ => True := by
  unfold updateDeviceList
  refine (Ok.call (o := .getBackends) trivial).seq fun bs => ?_
  split
  · trivial
  · refine ok_list.bind fun o ho => ?_
    have hold : ∀ d ∈ dedup (Maybe.maybe o []), S.device jid d := by
      intro d hd
      rw [mem_dedup] at hd
      cases o with
      | none => cases hd
      | some l => exact ho l rfl d hd
    have hnew : ∀ d ∈ dl.keys, S.supports jid d ns := fun d hd => by
      rw [Dict.mem_keys] at hd
      obtain ⟨l, hl⟩ := Option.isSome_iff_exists.1 hd
      exact (h d l hl).1
    refine (ok_ensure h hm).bind fun dl' h' => ?_
    refine Ok.seq (Ok.forEach fun d hd => ok_add h' (hnew d (mem_setDiff.1 (SetOrder.mem_iter.1 hd)).1)) fun _ => Ok.seq (Ok.forEach fun d hd => ok_known h') fun _ => Ok.when fun _ =>
      (Ok.store (backs_ints fun d hd => ?_)).mono fun _ _ => trivial
    rcases mem_setUnion.1 (SetOrder.mem_iter.1 hd) with hd | hd
    · exact device_of_supports (hnew d hd)
    · exact hold d hd

theorem ok_refresh (hm : S.mine M.ownJid M.ownDev) : Ok S (refreshDeviceList M ns jid) fun _ => True := by
  unfold refreshDeviceList
  exact (Ok.call (o := .downloadList ns jid) trivial).bind fun dl hdl => ok_update (says_of hdl) hm

/-! ### Device information -/

theorem ok_fetch (nss : List Ns) : Ok S (fetchIdentityKey jid d nss) fun o => ∀ b, o = some b → S.key jid d b.identityKey := by
  induction nss with
  | nil => exact fun _ h => by cases h
  | cons ns rest ih =>
    unfold fetchIdentityKey
    refine (Ok.call (o := .downloadBundle ns jid d) trivial).tryElse (fun e => ?_) fun b hb => ?_
    · split
      · exact ih
      · trivial
    · exact (Ok.store (backs_key (.inl hb))).seq fun _ => fun b' hb' => by cases hb'; exact .inl hb

theorem ok_device (hd : S.device jid d) : Ok S (deviceInformation M jid d) fun o => ∀ x, o = some x → x.1.bareJid = jid ∧ S.Info x.1 := by
  unfold deviceInformation
  refine ok_namespaces.bind fun o ho => (ok_just ho).bind fun nss hnss => ?_
  refine Ok.bind (φ := fun o => ∀ x, o = some x → S.key jid d x.1) ?_ fun o ho => ?_
  · unfold identityKeyOf
    refine Ok.onNothing (ok_key.bind fun o ho => (ok_just ho).bind fun ik hk => fun x hx => by cases hx; exact hk) ?_
    refine (ok_fetch _).bind fun o ho => ?_
    split
    · exact fun x hx => by cases hx
    · rename_i b
      exact fun x hx => by cases hx; exact ho b rfl
  · split
    · exact fun x hx => by cases hx
    · rename_i ik bundle
      refine ok_active.bind fun o2 ho2 => (ok_just ho2).bind fun active hactive => ok_label.bind fun o3 ho3 => (ok_just ho3).bind fun label hlabel => ?_
      refine Ok.seq (φ := fun _ => True) (Ok.ops (by unfold Sto.loadStr; lib_ops [] <;> trivial)) fun level => ?_
      dsimp only
      refine Ok.bind (φ := fun nss => ∀ ns ∈ nss, S.supports jid d ns) ?_ fun nss' hnss' => fun x hx => by
        cases hx
        exact ⟨rfl, hd, hnss', hlabel, ho _ rfl⟩
      unfold repairNamespaces
      have h2 : ∀ ns ∈ dedup nss, S.supports jid d ns := fun ns hn => hnss ns (mem_dedup.1 hn)
      split
      · have h3 : ∀ ns ∈ setInter (dedup nss) active.keys, S.supports jid d ns := fun ns hn => h2 ns (mem_setInter.1 hn).1
        exact (Ok.store (backs_strs fun ns hn => h3 ns (SetOrder.mem_iter.1 hn))).seq fun _ => h3
      · exact h2

theorem ok_info' : Ok S (getDeviceInformation' M jid) fun x => ∀ dev ∈ x.1, dev.bareJid = jid ∧ S.Info dev := by
  unfold getDeviceInformation'
  refine ok_list.bind fun o ho => ?_
  dsimp only
  refine Ok.fold (fun _ h => by cases h) fun acc d hd hacc => ?_
  obtain ⟨devs, cache⟩ := acc
  have hd : S.device jid d := by
    have := mem_dedup.1 (SetOrder.mem_iter.1 hd)
    cases o with
    | none => cases this
    | some l => exact ho l rfl d this
  refine (ok_device hd).bind fun x hx => ?_
  have add : ∀ dev, dev.bareJid = jid ∧ S.Info dev → ∀ y ∈ setAdd devs dev, y.bareJid = jid ∧ S.Info y := fun dev h y hy => by
    rcases mem_setAdd.1 hy with hy | rfl
    · exact hacc y hy
    · exact h
  split
  · exact hacc
  · exact add _ (hx _ rfl)
  · exact add _ (hx _ rfl)

theorem ok_info : Ok S (getDeviceInformation M jid) fun x => ∀ dev ∈ x, dev.bareJid = jid ∧ S.Info dev := by
  unfold getDeviceInformation
  exact ok_info'.bind fun x hx => hx

theorem ok_ownInfo : Ok S (getOwnDeviceInformation M) fun _ => True := by
  unfold getOwnDeviceInformation
  refine ok_info.seq fun all => ?_
  refine Ok.seq (φ := fun _ => True) ?_ fun _ => trivial
  cases (M.O.iter (setDiff all (all.filter fun dev => decide (dev.deviceId ≠ M.ownDev)))).head? <;> trivial

/-! ### The own device -/

theorem ok_purge (hm : S.mine M.ownJid M.ownDev) : Ok S (purgeBackend M ns) fun _ => True := by
  unfold purgeBackend
  refine (Ok.call (o := .downloadList _ _) trivial).seq fun dl => Ok.seq (Ok.when fun _ => (Ok.call (o := .uploadList _ _) trivial).mono fun _ _ => trivial) fun _ => ?_
  refine ok_ownInfo.seq fun x => ?_
  obtain ⟨device, others⟩ := x
  refine (Ok.store (backs_bools fun _ _ => .inr hm)).seq fun _ => (Ok.store (backs_strs fun _ _ => .inr hm)).seq fun _ => ?_
  refine Ok.ops ?_
  lib_ops []
  all_goals trivial

theorem ok_refill : Ok S (refillPreKeys M ns) fun _ => True := by
  refine Ok.ops ?_
  unfold refillPreKeys
  lib_ops []
  all_goals trivial

theorem ok_changed (hm : S.mine M.ownJid M.ownDev) : Ok S (handleChangedBackends M) fun _ => True := by
  unfold handleChangedBackends
  refine ok_ownInfo.seq fun x => ?_
  obtain ⟨device, others⟩ := x
  refine (Ok.call (o := .getBackends) trivial).seq fun bs => ?_
  dsimp only
  refine Ok.when fun _ => (Ok.store (backs_bools fun _ _ => .inr hm)).seq fun _ => (Ok.store (backs_strs fun _ _ => .inr hm)).seq fun _ => ?_
  refine (Ok.call (o := .getBackends) trivial).seq fun bs => Ok.seq (Ok.forEach fun ns _ => Ok.when fun _ => ok_refill.seq fun _ =>
    (Ok.call (o := .getBundle ..) trivial).seq fun b => (Ok.call (o := .uploadBundle b) trivial).seq fun _ => ok_refresh hm) fun _ => Ok.forEach fun ns _ => ok_purge hm

theorem ok_draw (taken : List DevId) (fuel : Nat) : Ok S (drawDeviceId taken fuel) S.drawn := by
  induction fuel with
  | zero => trivial
  | succ n ih =>
    unfold drawDeviceId
    refine (Ok.call (o := .randBelow _) trivial).bind fun n hn => ?_
    dsimp only
    split
    · exact hn
    · exact ih

theorem ok_first (hj : M.ownJid = S.own) (label : Option String) (ik : Bytes) (fuel : Nat) : Ok S (firstRun M label ik fuel) S.drawn := by
  unfold firstRun
  refine (Ok.call (o := .getBackends) trivial).seq fun bs => Ok.seq (φ := fun _ => True) (Ok.ops (by unfold takenDeviceIds; lib_ops [] <;> trivial)) fun taken => ?_
  refine (ok_draw taken fuel).bind fun d hd => ?_
  have hm : S.mine M.ownJid d := ⟨hj, hd⟩
  dsimp only
  refine (Ok.call (o := .getBackends) trivial).seq fun bs => Ok.seq (φ := fun _ => True) ?_ fun _ => ?_
  · unfold storeOwnDevice
    refine (Ok.store (backs_strs fun _ _ => .inr hm)).seq fun _ => (Ok.store (backs_bools fun _ _ => .inr hm)).seq fun _ => ?_
    refine (Ok.store (backs_label fun _ _ => .inr hm)).seq fun _ => (Ok.store (backs_key (.inr hm))).seq fun _ => ?_
    refine (Ok.store (backs_ints fun x hx => ?_)).seq fun _ => (Ok.store (k := .trust ..) trivial).seq fun _ => (Ok.store (k := .ownDeviceId) (v := .int d) hd).mono fun _ _ => trivial
    obtain rfl := List.mem_singleton.1 hx
    exact .inr hm
  · refine (Ok.call (o := .getBackends) trivial).seq fun bs => Ok.seq (Ok.forEach fun ns _ => (Ok.call (o := .generatePreKeys ..) trivial).mono fun _ _ => trivial) fun _ => ?_
    refine (Ok.call (o := .getBackends) trivial).seq fun bs => Ok.seq (Ok.forEach fun ns _ => (Ok.call (o := .getBundle ..) trivial).seq fun b =>
      (Ok.call (o := .uploadBundle b) trivial).mono fun _ _ => trivial) fun _ => ?_
    exact (Ok.call (o := .getBackends) trivial).seq fun bs => Ok.seq (Ok.forEach fun ns _ => ok_refresh (M := { M with ownDev := d }) hm) fun _ => hd

theorem ok_ikp : Ok S IdentityKeyPair.get fun _ => True := by
  refine Ok.ops ?_
  unfold IdentityKeyPair.get IdentityKeyPair.load IdentityKeyPair.generate
  lib_ops []
  all_goals trivial

theorem ok_create (hj : M.ownJid = S.own) (bs : List Ns) (label : Option String) (fuel : Nat) : Ok S (create M bs label fuel) S.drawn := by
  unfold create
  split
  · trivial
  split
  · trivial
  refine (Ok.call (o := .setBackends _) trivial).seq fun _ => ok_ikp.seq fun ikp => (Ok.call (o := .setSync _) trivial).seq fun _ => ?_
  refine Ok.bind (φ := S.drawn) (Ok.onNothing (ok_own.bind fun o ho => ok_just ho) (ok_first hj _ _ _)) fun d hd => ?_
  exact (ok_changed (M := { M with ownDev := d }) ⟨hj, hd⟩).seq fun _ => hd

/-! ### Messages -/

theorem ok_replace : Ok S (replaceSessions M jid d) fun _ => True := by
  unfold replaceSessions
  refine ok_info.bind fun devs hdevs => Ok.bind (φ := S.Info) ?_ fun dev hdev => ?_
  · cases hf : (M.O.iter devs).find? fun dev => decide (dev.deviceId = d) with
    | none => trivial
    | some x => exact (hdevs x (SetOrder.mem_iter.1 (List.mem_of_find?_eq_some hf))).2
  · refine (Ok.call (o := .getBackends) trivial).seq fun bs => Ok.seq (φ := fun _ => True) (Ok.ops (by lib_ops [] <;> trivial)) fun ws => ?_
    refine (Ok.call (o := .getBackends) trivial).seq fun bs => Ok.fold trivial fun un ns _ _ => ?_
    split
    · rename_i hns
      refine Ok.tryElse (φ := fun _ => True) ?_ (fun e => ?_) fun _ _ => trivial
      · unfold replaceSession
        refine (Ok.call (o := .encryptEmpty _) trivial).seq fun x => ?_
        obtain ⟨content, km⟩ := x
        refine (Ok.call (o := .downloadBundle ..) trivial).seq fun b => (Ok.call (o := .buildActive ..) (hdev.supports ns (mem_setInter.1 hns).1)).seq fun x => ?_
        obtain ⟨session, ekm⟩ := x
        exact (Ok.call (o := .sendMessage ..) trivial).seq fun _ => (Ok.call (o := .storeSession ..) trivial).mono fun _ _ => trivial
      · split <;> trivial
    · trivial

theorem ok_empty {s : Session} : Ok S (sendEmptyMessage M ns s) fun _ => True := Ok.ops ((ops_sendEmptyMessage M ns s).mono fun _ h => by cases h <;> trivial)

theorem ok_after : Ok S (afterHistorySync M) fun _ => True := by
  have h : ∀ ns s, AllOps (S := LibSig) S.Allows (sendEmptyMessage M ns s) := fun ns s => (ops_sendEmptyMessage M ns s).mono fun _ h => by cases h <;> trivial
  refine Ok.ops ?_
  unfold afterHistorySync sendQueuedBackend sendQueuedJid sendQueued
  lib_ops [h]
  all_goals trivial

theorem ok_sender (hm : S.mine M.ownJid M.ownDev) (msg : Message) : Ok S (findSender M msg) S.Info := by
  have pick : ∀ devs : List DeviceInfo, (∀ dev ∈ devs, dev.bareJid = msg.bareJid ∧ S.Info dev) → ∀ dev, pickDevice M msg.deviceId devs = some dev → S.Info dev :=
    fun devs h dev hd => (h dev (SetOrder.mem_iter.1 (List.mem_of_find?_eq_some hd))).2
  unfold findSender
  refine ok_info.bind fun devs hdevs => ?_
  split
  · exact pick devs hdevs _ ‹_›
  · refine (ok_refresh hm).seq fun _ => ok_info.bind fun devs hdevs => ?_
    split
    · exact pick devs hdevs _ ‹_›
    · trivial

theorem ok_decrypt (hm : S.mine M.ownJid M.ownDev) (msg : Message) : Ok S (decrypt M msg) fun x => S.Info x.2.1 := by
  unfold decrypt
  refine (Ok.call (o := .getBackends) trivial).seq fun bs => ?_
  split
  · trivial
  split
  · trivial
  rename_i ekm kex _
  refine (ok_sender hm msg).bind fun dev hdev => ?_
  refine Ok.seq (φ := fun _ => True) ?_ fun x => ?_
  · unfold decryptContent
    refine (Ok.call (o := .evalTrust dev) hdev).seq fun level => ?_
    split
    · trivial
    · refine Ok.seq (φ := fun _ => True) (Ok.ops ?_) fun x => Ok.seq (φ := fun _ => True) (Ok.ops ?_) fun _ => trivial
      · unfold keyMaterial decryptKeyMaterial handleKeyExchange
        lib_ops []
        all_goals first | trivial | exact hdev.device
      · unfold plaintextOf
        lib_ops []
        all_goals trivial
  · obtain ⟨pt, session, km⟩ := x
    have h : ∀ s, AllOps (S := LibSig) S.Allows (sendEmptyMessage M msg.ns s) := fun s => (ops_sendEmptyMessage M msg.ns s).mono fun _ h => by cases h <;> trivial
    refine Ok.seq (φ := fun _ => True) (Ok.ops ?_) fun _ => hdev
    unfold postDecrypt consumePreKey discardPreKey refillPreKeys autoReply queueEmpty
    lib_ops [h]
    all_goals trivial

/-- All devices are backed by the sources. -/
abbrev All (S : Sources) (ds : List DeviceInfo) : Prop := ∀ dev ∈ ds, S.Info dev

theorem ok_priority {order : List Ns} {x : DeviceInfo} (h : S.Info x) : Ok S (liftE (applyPriority M order x)) S.Info := by
  unfold applyPriority activeNamespaces
  split
  · trivial
  · refine ⟨h.device, fun ns hn => h.supports ns ?_, h.label, h.key⟩
    have := List.mem_of_mem_take hn
    rw [mem_sortedBy, List.mem_filter, SetOrder.mem_iter, List.mem_filter] at this
    exact this.1.1

theorem ok_recipients (order : List Ns) (jids : List Jid) : Ok S (recipientDevices M order jids) fun x => All S x.1 := by
  unfold recipientDevices
  refine (Ok.mapAll (φ := fun x => All S x.1) fun jid _ => ok_info'.mono fun x hx dev hd => (hx dev hd).2).bind fun tmp htmp => ?_
  dsimp only
  refine (Ok.filterAll fun dev _ => Ok.ops (allOps_liftE _)).bind fun devs hdevs => ?_
  refine (Ok.mapAll (φ := S.Info) fun dev hd => ok_priority ?_).bind fun ds hds => fun dev hd => hds dev (mem_dedup.1 (List.mem_filter.1 hd).1)
  obtain ⟨l, hl, hd⟩ := List.mem_flatten.1 (mem_dedup.1 (SetOrder.mem_iter.1 (hdevs dev (SetOrder.mem_iter.1 hd))))
  obtain ⟨z, hz, rfl⟩ := List.mem_map.1 hl
  exact htmp z hz dev hd

theorem ok_trust (level : TrustLevel) (ds : List DeviceInfo) (h : All S ds) : Ok S (devicesWithTrust level ds) fun ys => ∀ y ∈ ys, y ∈ ds := by
  unfold devicesWithTrust
  exact Ok.filterAll fun x hx => (Ok.call (o := .evalTrust x) (h x hx)).seq fun _ => trivial

theorem ok_judgement {p : P α} (h : Judgement M p) : Ok S p fun _ => True := by
  induction h with
  | ret | raise => trivial
  | other o k h1 h2 h3 h4 _ ih =>
    refine ⟨?_, fun r _ => ih r⟩
    cases o with
    | store key v => obtain ⟨j, ik, rfl⟩ := h1 key v rfl; trivial
    | buildActive ns j d b km => exact absurd rfl (h2 ns j d b km)
    | buildPassive ns j d x y => exact absurd rfl (h3 ns j d x y)
    | evalTrust dev => exact absurd rfl (h4 dev)
    | _ => trivial
  | info jid h f _ _ ih1 ih2 => exact ok_info.tryElse ih1 fun a _ => ih2 a

theorem ok_decide (devices : List DeviceInfo) (i : Option String) (ha : All S devices) (hd : Judging M) : Ok S (decideTrust M devices i) (All S) := by
  unfold decideTrust
  refine (ok_trust _ _ fun x hx => ha x (SetOrder.mem_iter.1 hx)).seq fun un => Ok.bind (φ := All S) ?_ fun ds hds => ?_
  · unfold askTrust
    split
    · refine (ok_judgement (hd un i)).seq fun _ => (Ok.mapAll (φ := S.Info) fun x hx => ?_).bind fun ds hds => fun y hy => hds y (mem_dedup.1 hy)
      have hx := ha x (SetOrder.mem_iter.1 hx)
      unfold reloadTrust
      refine Ok.seq (φ := fun _ => True) (Ok.ops (by unfold Sto.loadStr; lib_ops [] <;> trivial)) fun level => ?_
      exact ⟨hx.device, hx.supports, hx.label, hx.key⟩
    · exact ha
  · refine (ok_trust _ _ fun x hx => hds x (SetOrder.mem_iter.1 hx)).seq fun still => ?_
    split
    · trivial
    · exact hds

theorem ok_backend (cache : List Bundle) (pt : Dict Ns Bytes) (st : EncAll) (ha : All S st.devices) : Ok S (encryptBackend M cache pt st ns) fun st' => All S st'.devices := by
  unfold encryptBackend
  dsimp only
  split
  · exact ha
  split
  · trivial
  refine (Ok.call (o := .encryptPlaintext ..) trivial).seq fun x => ?_
  obtain ⟨content, km⟩ := x
  refine (Ok.fold (φ := fun st' : EncState => All S st'.devices) ha fun st' x hx hst => ?_).bind fun st' hst' => hst'
  obtain ⟨hx1, hx2⟩ := List.mem_filter.1 (SetOrder.mem_iter.1 hx)
  have hi := ha x hx1
  have hns : ns ∈ x.namespaces := List.mem_of_mem_head? (of_decide_eq_true hx2)
  unfold encryptDevice
  refine (Ok.call (o := .loadSession ..) trivial).seq fun so => ?_
  dsimp only
  refine Ok.tryElse (φ := fun _ => True) (Ok.ops ?_) (fun e => ?_) fun r _ => ?_
  · unfold encryptForDevice bundleFor
    lib_ops []
    all_goals first | trivial | exact hi.supports ns hns
  · split
    · exact fun y hy => hst y (mem_setDiff.1 hy).1
    · trivial
  · exact hst

theorem ok_encrypt (jids : List Jid) (pt : Dict Ns Bytes) (prio : Option (List Ns)) (i : Option String) (hd : Judging M) : Ok S (encrypt M jids pt prio i) fun _ => True := by
  unfold encrypt
  refine (Ok.call (o := .getBackends) trivial).seq fun bs => Ok.seq (Ok.ops (allOps_liftE _)) fun order => ?_
  dsimp only
  refine (ok_recipients order _).bind fun x hx => ?_
  obtain ⟨devices, cache⟩ := x
  refine (ok_decide devices i hx hd).bind fun devices' hdev => ?_
  unfold encryptTrusted
  refine (ok_trust _ _ fun x hx => hdev x (SetOrder.mem_iter.1 hx)).bind fun ds hds => ?_
  refine (Ok.call (o := .getBackends) trivial).seq fun bs => (Ok.fold (φ := fun st : EncAll => All S st.devices) (fun y hy => hdev y (SetOrder.mem_iter.1 (hds y hy)))
    fun st ns _ hst => ok_backend cache pt st hst).seq fun st => Ok.ops ?_
  dsimp only
  lib_ops []
  all_goals trivial

theorem ok_call {c : Call} (hd : Judging M) (hm : c = .getIdentityKeyPair ∨ (M.ownJid = S.own ∧ ((∃ bs l f, c = .create bs l f) ∨ S.drawn M.ownDev)))
    (hl : ∀ ns j dl, c = .updateDeviceList ns j dl → ∀ d l, Dict.get dl d = some l → S.listed ns j d l) : Ok S (c.run M) fun _ => True := by
  rcases hm with rfl | ⟨hj, ⟨bs, l, f, rfl⟩ | hd'⟩
  · exact ok_ikp.seq fun _ => trivial
  · exact (ok_create hj bs l f).seq fun _ => trivial
  have hm : S.mine M.ownJid M.ownDev := ⟨hj, hd'⟩
  cases c <;> simp only [Call.run]
  case encrypt jids pt prio i => exact (ok_encrypt jids pt prio i hd).seq fun _ => trivial
  case decrypt msg => exact (ok_decrypt hm msg).seq fun _ => trivial
  case afterHistorySync => exact ok_after
  case replaceSessions jid d => exact ok_replace.seq fun _ => trivial
  case getIdentityKeyPair => exact ok_ikp.seq fun _ => trivial
  case create bs label fuel => exact (ok_create hj bs label fuel).seq fun _ => trivial
  case purgeBackend ns => exact ok_purge hm
  case purgeBareJid jid => exact Ok.ops ((ops_purgeBareJid M jid).mono fun _ h => by cases h <;> trivial)
  case ensureDataConsistency =>
    unfold ensureDataConsistency
    refine (Ok.call (o := .getBackends) trivial).seq fun bs => Ok.forEach fun ns _ => (ok_refresh hm).seq fun _ => Ok.ops ?_
    lib_ops []
    all_goals trivial
  case rotation p f r => exact Ok.ops ((ops_manageRotation M p f r).mono fun _ h => by cases h <;> trivial)
  case updateDeviceList ns jid dl => exact ok_update (says_of (hl ns jid dl rfl)) hm
  case refreshDeviceList ns jid => exact ok_refresh hm
  case refreshDeviceLists jid =>
    unfold refreshDeviceLists
    exact (Ok.call (o := .getBackends) trivial).seq fun bs => Ok.forEach fun ns _ => ok_refresh hm
  case setTrust => exact Ok.ops (.perform trivial)
  case getSendingChainLength x =>
    unfold getSendingChainLength
    refine Ok.seq (φ := fun _ => True) (Ok.ops ?_) fun _ => trivial
    lib_ops []
    all_goals trivial
  case setOwnLabel l =>
    unfold setOwnLabel
    refine (Ok.store (backs_label fun _ _ => .inr hm)).seq fun _ => Ok.ops ?_
    lib_ops []
    all_goals trivial
  case getDeviceInformation jid => exact ok_info.seq fun _ => trivial
  case getOwnDeviceInformation => exact ok_ownInfo.seq fun _ => trivial
  case beforeHistorySync => exact Ok.ops (.perform trivial)

/-! ### What is stored -/

theorem back_next {w : World} {e : Ev} (hb : S.Back w.disk) (hs : S.Allows e.1) : S.Back (Lib.next w e).disk := by
  obtain ⟨o, r⟩ := e
  have hupd : ∀ k v, (∀ x, v = some x → S.Backs k x) → S.Back (w.disk.upd k v) := by
    intro k v h k' v' hk
    by_cases he : k' = k
    · subst he
      rw [Disk.upd_self] at hk
      exact h v' hk
    · rw [Disk.upd_of_ne he] at hk
      exact hb k' v' hk
  cases o with
  | store k v =>
    cases r with
    | error _ => exact hb
    | ok _ => exact hupd k (some v) fun x hx => by cases hx; exact hs
  | delete k =>
    cases r with
    | error _ => exact hb
    | ok _ => exact hupd k none fun x hx => by cases hx
  | _ => first
    | exact hb
    | (cases r <;> exact hb)

theorem knows_next {w : World} {e : Ev} (hb : S.Back w.disk) (he : Lib.ok w e) (hx : e.1.isExternal = true → S.Knows e) : S.Knows e := by
  obtain ⟨o, r⟩ := e
  cases o with
  | load k =>
    cases r with
    | error _ => trivial
    | ok v =>
      cases v with
      | none => trivial
      | some v => exact hb k v (Eq.symm he)
  | _ => first
    | trivial
    | exact hx rfl

theorem backed {w w' : World} {t : List Ev} (hg : ∀ h1 e h2, t = h1 ++ e :: h2 → (∀ x ∈ h1, S.Knows x) → S.Allows e.1) (hr : Lib.Runs w t w')
    (hx : ∀ e ∈ t, e.1.isExternal = true → S.Knows e) (hb : S.Back w.disk) : S.Back w'.disk ∧ ∀ e ∈ t, S.Knows e ∧ S.Allows e.1 := by
  induction t generalizing w with
  | nil => cases hr; exact ⟨hb, fun _ h => by cases h⟩
  | cons e t ih =>
    have h1 : S.Allows e.1 := hg [] e t rfl fun _ h => by cases h
    have h2 : S.Knows e := knows_next hb hr.1 (hx e List.mem_cons_self)
    obtain ⟨h3, h4⟩ := ih (fun h1 e' h2' ht hk => hg (e :: h1) e' h2' (by rw [ht]; rfl) fun x hx => by
      rcases List.mem_cons.1 hx with rfl | hx
      · exact h2
      · exact hk x hx) hr.2 (fun x h => hx x (List.mem_cons_of_mem _ h)) (back_next hb h1)
    refine ⟨h3, fun x hx => ?_⟩
    rcases List.mem_cons.1 hx with rfl | hx
    · exact ⟨h2, h1⟩
    · exact h4 x hx

/-- What is in the history is among the sources. -/
theorem knows_also {cs : List Call} {t : List Ev} {e : Ev} (he : e ∈ t) (hx : e.1.isExternal = true) : (S.also cs t).Knows e := by
  obtain ⟨o, r⟩ := e
  cases o <;> (try trivial) <;> (try cases hx; done)
  case downloadList ns j =>
    cases r with
    | error _ => trivial
    | ok dl => exact fun d l hl => .inr (.inl ⟨dl, he, hl⟩)
  case downloadBundle ns j d =>
    cases r with
    | error _ => trivial
    | ok b => exact .inr ⟨ns, b, he, rfl⟩
  case randBelow n =>
    cases r with
    | error _ => trivial
    | ok k => exact .inr ⟨n, k, he, rfl⟩

/-- There are more sources. -/
structure Le (S S' : Sources) : Prop where
  own : S.own = S'.own
  listed : ∀ ns j d l, S.listed ns j d l → S'.listed ns j d l
  served : ∀ j d ik, S.served j d ik → S'.served j d ik
  drawn : ∀ d, S.drawn d → S'.drawn d

variable {S' : Sources}

theorem Le.mine (h : Le S S') {j d} (hm : S.mine j d) : S'.mine j d := ⟨hm.1.trans h.own, h.drawn d hm.2⟩

theorem Le.device (h : Le S S') {j d} (hm : S.device j d) : S'.device j d := hm.imp (fun ⟨ns, l, hl⟩ => ⟨ns, l, h.listed _ _ _ _ hl⟩) h.mine

theorem Le.supports (h : Le S S') {j d ns} (hm : S.supports j d ns) : S'.supports j d ns := hm.imp (fun ⟨l, hl⟩ => ⟨l, h.listed _ _ _ _ hl⟩) h.mine

theorem Le.label (h : Le S S') {j d s} (hm : S.label j d s) : S'.label j d s := hm.imp (fun ⟨l, hl⟩ => ⟨l, h.listed _ _ _ _ hl⟩) h.mine

theorem Le.key (h : Le S S') {j d ik} (hm : S.key j d ik) : S'.key j d ik := hm.imp (h.served _ _ _) h.mine

theorem Le.backs (h : Le S S') {k v} (hb : S.Backs k v) : S'.Backs k v := by
  unfold Sources.Backs at *
  split at hb
  · exact fun x hx => h.device (hb x hx)
  · exact fun x hx => h.supports (hb x hx)
  · exact fun x hx => h.supports (hb x hx)
  · exact h.label hb
  · exact fun ik hk => h.key (hb ik hk)
  · exact h.drawn _ hb
  · trivial

theorem Le.back (h : Le S S') {m} (hb : S.Back m) : S'.Back m := fun k v hk => h.backs (hb k v hk)

theorem Le.info (h : Le S S') {dev} (hi : S.Info dev) : S'.Info dev := ⟨h.device hi.device, fun ns hn => h.supports (hi.supports ns hn), fun s hs => h.label (hi.label s hs), h.key hi.key⟩

theorem Le.allows (h : Le S S') {o} (ha : S.Allows o) : S'.Allows o := by
  cases o with
  | store k v => exact h.backs ha
  | buildActive ns j d b km => exact h.supports ha
  | buildPassive ns j d x k => exact h.device ha
  | evalTrust dev => exact h.info ha
  | _ => trivial

theorem le_also (cs : List Call) (t : List Ev) : Le S (S.also cs t) := ⟨rfl, fun _ _ _ _ => .inl, fun _ _ _ => .inl, fun _ => .inl⟩

theorem le_more {cs cs' : List Call} {t t' : List Ev} (hc : ∀ c ∈ cs, c ∈ cs') (ht : ∀ e ∈ t, e ∈ t') : Le (S.also cs t) (S.also cs' t') :=
  ⟨rfl, fun _ _ _ _ h => h.imp_right fun h => h.imp (fun ⟨dl, h1, h2⟩ => ⟨dl, ht _ h1, h2⟩) fun ⟨dl, h1, h2⟩ => ⟨dl, hc _ h1, h2⟩,
    fun _ _ _ h => h.imp_right fun ⟨ns, b, h1, h2⟩ => ⟨ns, b, ht _ h1, h2⟩, fun _ h => h.imp_right fun ⟨n, k, h1, h2⟩ => ⟨n, k, ht _ h1, h2⟩⟩

theorem le_trans {S1 S2 S3 : Sources} (h : Le S1 S2) (h' : Le S2 S3) : Le S1 S3 :=
  ⟨h.own.trans h'.own, fun _ _ _ _ x => h'.listed _ _ _ _ (h.listed _ _ _ _ x), fun _ _ _ x => h'.served _ _ _ (h.served _ _ _ x), fun _ x => h'.drawn _ (h.drawn _ x)⟩

theorem le_filter {cs : List Call} {t : List Ev} : Le (S.also cs t) (S.also cs (t.filter fun e => e.1.isExternal)) :=
  ⟨rfl, fun _ _ _ _ h => h.imp_right fun h => h.imp_left fun ⟨dl, h1, h2⟩ => ⟨dl, List.mem_filter.2 ⟨h1, rfl⟩, h2⟩,
    fun _ _ _ h => h.imp_right fun ⟨ns, b, h1, h2⟩ => ⟨ns, b, List.mem_filter.2 ⟨h1, rfl⟩, h2⟩, fun _ h => h.imp_right fun ⟨n, k, h1, h2⟩ => ⟨n, k, List.mem_filter.2 ⟨h1, rfl⟩, h2⟩⟩

theorem le_join {cs cs' : List Call} {t t' : List Ev} : Le ((S.also cs t).also cs' t') (S.also (cs ++ cs') (t ++ t')) := by
  refine ⟨rfl, fun _ _ _ _ h => ?_, fun _ _ _ h => ?_, fun _ h => ?_⟩
  · rcases h with (h | ⟨dl, h1, h2⟩ | ⟨dl, h1, h2⟩) | ⟨dl, h1, h2⟩ | ⟨dl, h1, h2⟩
    · exact .inl h
    · exact .inr (.inl ⟨dl, List.mem_append_left _ h1, h2⟩)
    · exact .inr (.inr ⟨dl, List.mem_append_left _ h1, h2⟩)
    · exact .inr (.inl ⟨dl, List.mem_append_right _ h1, h2⟩)
    · exact .inr (.inr ⟨dl, List.mem_append_right _ h1, h2⟩)
  · rcases h with (h | ⟨ns, b, h1, h2⟩) | ⟨ns, b, h1, h2⟩
    · exact .inl h
    · exact .inr ⟨ns, b, List.mem_append_left _ h1, h2⟩
    · exact .inr ⟨ns, b, List.mem_append_right _ h1, h2⟩
  · rcases h with (h | ⟨ns, b, h1, h2⟩) | ⟨ns, b, h1, h2⟩
    · exact .inl h
    · exact .inr ⟨ns, b, List.mem_append_left _ h1, h2⟩
    · exact .inr ⟨ns, b, List.mem_append_right _ h1, h2⟩

/-- What the interactions before `o` know, `o` is backed by. -/
def Rule (S : Sources) (h : List Ev) (o : Op) : Prop := ∀ S', Le S S' → (∀ x ∈ h, S'.Knows x) → S'.Allows o

/-- What `Rule` implies for traces. -/
theorem ruled {w w' : World} {t : List Ev} {cs : List Call} (hg : ∀ h1 e h2, t = h1 ++ e :: h2 → Rule (S.also cs []) h1 e.1) (hr : Lib.Runs w t w') (hb : S.Back w.disk) :
    (S.also cs t).Back w'.disk ∧ (∀ e ∈ t, (S.also cs t).Knows e) ∧ ∀ h1 e h2, t = h1 ++ e :: h2 → (S.also cs h1).Allows e.1 := by
  have le : ∀ u, Le (S.also cs []) (S.also cs u) := fun u => le_more (fun _ h => h) fun _ h => by cases h
  have pre : ∀ u v wu, t = u ++ v → Lib.Runs w u wu → (S.also cs u).Back wu.disk ∧ ∀ e ∈ u, (S.also cs u).Knows e ∧ (S.also cs u).Allows e.1 := by
    intro u v wu ht hu
    exact backed (fun h1 e h2 hs hk => hg h1 e (h2 ++ v) (by rw [ht, hs]; simp) _ (le u) hk) hu (fun e he hx => knows_also he hx) ((le_also cs u).back hb)
  refine ⟨(pre t [] w' (by simp) hr).1, fun e he => ((pre t [] w' (by simp) hr).2 e he).1, fun h1 e h2 ht => ?_⟩
  rw [ht] at hr
  obtain ⟨w1, hr1, -⟩ := Sem.runs_append.1 hr
  exact hg h1 e h2 ht _ (le h1) fun x hx => ((pre h1 _ w1 ht hr1).2 x hx).1

/-- The manager may be used for the call. -/
def Fit (S : Sources) (M : Mgr) (c : Call) : Prop := c = .getIdentityKeyPair ∨ (M.ownJid = S.own ∧ ((∃ bs l f, c = .create bs l f) ∨ S.drawn M.ownDev))

theorem rule_call {M : Mgr} {c : Call} {cs : List Call} (hd : Judging M) (hm : Fit S M c) (hc : c ∈ cs) {t r} (he : Exec (c.run M) t r) :
    ∀ h1 e h2, t = h1 ++ e :: h2 → Rule (S.also cs []) h1 e.1 := by
  intro h1 e h2 ht S' hle
  refine (Ok.exec (ok_call (S := S') hd (hm.imp_right fun h => ⟨h.1.trans hle.own, h.2.imp_right fun h => hle.drawn _ (.inl h)⟩) ?_) he).1 h1 e h2 ht
  intro ns j dl hcall d l hl
  exact hle.listed _ _ _ _ (.inr (.inr ⟨dl, hcall ▸ hc, hl⟩))

theorem life {own : Jid} {x : XEdDSA} {s s' : Use} {cs : List (Mgr × Call)} (h : Life own x s cs s') : ∀ (S : Sources), S.own = own →
    (∀ M ∈ s.mgrs, M.ownJid = own ∧ S.drawn M.ownDev) → (∀ c ∈ cs, Judging c.1) → S.Back s.world.disk →
    ∃ l, s'.world.log = s.world.log ++ l ∧ (S.also (cs.map (·.2)) l).Back s'.world.disk ∧ (∀ M ∈ s'.mgrs, M.ownJid = own ∧ (S.also (cs.map (·.2)) l).drawn M.ownDev) ∧
      ∀ l1 e l2, l = l1 ++ e :: l2 → (S.also (cs.map (·.2)) l1).Allows e.1 := by
  induction h with
  | nil s => exact fun S _ hm _ hb => ⟨[], by simp, (le_also _ _).back hb, fun M hM => ⟨(hm M hM).1, .inl (hm M hM).2⟩, fun l1 e l2 h => by simp at h⟩
  | @cons s s1 s2 c cs hst _ ih =>
    intro S ho hm hd hb
    obtain ⟨t, r, he, hr, hmg⟩ : ∃ t r, Exec (c.2.run c.1) t r ∧ Lib.Runs s.world t s1.world ∧ ((∀ e ∈ t, (S.also [c.2] t).Knows e) → ∀ M ∈ s1.mgrs, M.ownJid = own ∧ (S.also [c.2] t).drawn M.ownDev) := by
      have old : ∀ t, ∀ M ∈ s.mgrs, M.ownJid = own ∧ (S.also [c.2] t).drawn M.ownDev := fun t M hM => ⟨(hm M hM).1, .inl (hm M hM).2⟩
      cases hst with
      | ikp M he hr => exact ⟨_, _, he, hr, fun _ => old _⟩
      | call M c _ _ he hr => exact ⟨_, _, he, hr, fun _ => old _⟩
      | @create w' t r M bs label fuel hj _ he hr =>
        have new : (∀ e ∈ t, (S.also [Call.create bs label fuel] t).Knows e) → ∀ M' ∈ s.mgrs ++ returned M r, M'.ownJid = own ∧ (S.also [Call.create bs label fuel] t).drawn M'.ownDev := by
          intro hk M' hM
          rcases List.mem_append.1 hM with hM | hM
          · exact old t M' hM
          · cases r with
            | ok d =>
              obtain rfl := List.mem_singleton.1 hM
              exact ⟨hj, (Ok.exec (ok_create (S := S.also [Call.create bs label fuel] t) (hj.trans ho.symm) bs label fuel) he).2 hk d rfl⟩
            | _ => cases hM
        cases r with
        | ok d => exact ⟨_, .ok (), exec_seq_ok.2 ⟨_, _, [], by simp, he, .ret _⟩, hr, new⟩
        | raised e => exact ⟨_, .raised e, exec_seq.2 (.inr (.inl ⟨e, he, rfl⟩)), hr, new⟩
        | crashed => exact ⟨_, .crashed, exec_seq.2 (.inr (.inr ⟨he, rfl⟩)), hr, new⟩
    have hfit : Fit S c.1 c.2 := by
      cases hst with
      | ikp M => exact .inl rfl
      | create M bs label fuel hj => exact .inr ⟨hj.trans ho.symm, .inl ⟨_, _, _, rfl⟩⟩
      | call M c hM => exact .inr ⟨(hm M hM).1.trans ho.symm, .inr (hm M hM).2⟩
    obtain ⟨h1, h2, h3⟩ := ruled (rule_call (cs := [c.2]) (hd c List.mem_cons_self) hfit List.mem_cons_self he) hr hb
    let f := t.filter fun e => e.1.isExternal
    obtain ⟨l, hlog, hb', hm', ha'⟩ := ih (S.also [c.2] f) ho (fun M hM => ⟨(hmg h2 M hM).1, le_filter.drawn _ (hmg h2 M hM).2⟩) (fun c hc => hd c (List.mem_cons_of_mem _ hc)) (le_filter.back h1)
    refine ⟨f ++ l, by rw [hlog, Lib.log_external hr, List.append_assoc], le_join.back hb', fun M hM => ⟨(hm' M hM).1, le_join.drawn _ (hm' M hM).2⟩, fun l1 e l2 hs => ?_⟩
    rcases List.append_eq_append_iff.1 hs with ⟨a, rfl, ha⟩ | ⟨a, hf, ha⟩
    · exact le_join.allows (ha' a e l2 ha)
    · cases a with
      | nil =>
        rw [List.append_nil] at hf
        rw [← hf]
        have := le_join.allows (ha' [] e l2 ha.symm)
        rwa [List.append_nil] at this
      | cons y a =>
        simp only [List.cons_append, List.cons.injEq] at ha
        obtain ⟨rfl, -⟩ := ha
        obtain ⟨t1, t2, ht, rfl⟩ := Attribution.filter_split hf
        exact (le_more (fun c hc => by rw [List.mem_singleton.1 hc]; exact List.mem_cons_self) fun _ h => h).allows (le_filter.allows (h3 t1 e t2 ht))

theorem none_back {own : Jid} {m : Disk} (h : ∀ k v, m k = some v → k = .ikpIsSeed ∨ k = .ikpKey) : (Sources.none own).Back m := by
  intro k v hk
  rcases h k v hk with rfl | rfl <;> cases v <;> trivial

theorem lived {own : Jid} {x : XEdDSA} {s0 s : Use} {cs : List (Mgr × Call)} (h0 : New s0) (hlog : s0.world.log = []) (h : Life own x s0 cs s) (hd : ∀ c ∈ cs, Judging c.1) :
    ((Sources.none own).also (cs.map (·.2)) s.world.log).Back s.world.disk ∧ (∀ M ∈ s.mgrs, M.ownJid = own ∧ ((Sources.none own).also (cs.map (·.2)) s.world.log).drawn M.ownDev) ∧
      ∀ l1 e l2, s.world.log = l1 ++ e :: l2 → ((Sources.none own).also (cs.map (·.2)) l1).Allows e.1 := by
  obtain ⟨l, hl, h1, h2, h3⟩ := life h (.none own) rfl (by rw [h0.mgrs]; exact fun _ h => by cases h) hd (none_back h0.disk)
  rw [hlog, List.nil_append] at hl
  subst hl
  exact ⟨h1, h2, h3⟩

end Prov

namespace Spec

/-- Where the devices of accounts come from in a life of calls `cs`: device lists that were downloaded or given by the application, bundles that were downloaded, and device ids that were drawn. -/
def heard (own : Jid) (cs : List (Mgr × Call)) (log : List Ev) : Sources := (Sources.none own).also (cs.map (·.2)) log

end Spec

/-- C119: in the whole life of an account, what is stored about devices was said: the devices of an account are those on its device lists, with the backends and labels that were
there, and with the identity keys of their bundles.  The own device has an id that was drawn. -/
theorem C119 (own : Jid) (x : XEdDSA) (s0 s : Use) (cs : List (Mgr × Call)) (h0 : New s0) (hlog : s0.world.log = []) (h : Life own x s0 cs s) (hd : ∀ c ∈ cs, Judging c.1) :
    (∀ j d, Known s.world.disk j d → (heard own cs s.world.log).device j d) ∧ (∀ j d ns, Advertises s.world.disk j d ns → (heard own cs s.world.log).supports j d ns) ∧
    (∀ j d ns b, Activity s.world.disk j d ns b → (heard own cs s.world.log).supports j d ns) ∧ (∀ j d l, Labelled s.world.disk j d (some l) → (heard own cs s.world.log).label j d l) ∧
    (∀ j d ik, HasKey s.world.disk j d ik → (heard own cs s.world.log).key j d ik) ∧ ∀ M ∈ s.mgrs, (heard own cs s.world.log).mine M.ownJid M.ownDev := by
  obtain ⟨h1, h2, -⟩ := Prov.lived h0 hlog h hd
  refine ⟨fun j d ⟨l, hl, hm⟩ => ?_, fun j d ns ⟨l, hl, hm⟩ => ?_, fun j d ns b ⟨l, hl, hm⟩ => ?_, fun j d l hl => h1 _ _ hl, fun j d ik hk => ?_, h2⟩
  · exact h1 _ _ hl (.int d) (List.mem_map_of_mem hm)
  · exact h1 _ _ hl (.str ns) (List.mem_map_of_mem hm)
  · obtain ⟨y, hy, rfl⟩ := Prov.get_mem hm
    exact h1 _ _ hl (y.1, .bool y.2) (List.mem_map_of_mem hy)
  · exact h1 _ _ hk ik (Base64.decode_encode ik)

/-- C119: sessions are built and trust levels are evaluated only for devices that were heard of before. -/
theorem C119_uses (own : Jid) (x : XEdDSA) (s0 s : Use) (cs : List (Mgr × Call)) (h0 : New s0) (hlog : s0.world.log = []) (h : Life own x s0 cs s) (hd : ∀ c ∈ cs, Judging c.1)
    (l1 l2 : List Ev) (e : Ev) (hl : s.world.log = l1 ++ e :: l2) :
    (∀ ns j d b km, e.1 = .buildActive ns j d b km → (heard own cs l1).supports j d ns) ∧ (∀ ns j d y k, e.1 = .buildPassive ns j d y k → (heard own cs l1).device j d) ∧
    ∀ dev, e.1 = .evalTrust dev → (heard own cs l1).Info dev := by
  have h3 := (Prov.lived h0 hlog h hd).2.2 l1 e l2 hl
  refine ⟨fun _ _ _ _ _ he => ?_, fun _ _ _ _ _ he => ?_, fun _ he => ?_⟩ <;> rw [he] at h3 <;> exact h3

/-- C119: the devices reported to the application are those of the account, with what was said about them. -/
theorem C119_info (own : Jid) (x : XEdDSA) (s0 s : Use) (cs : List (Mgr × Call)) (h0 : New s0) (hlog : s0.world.log = []) (h : Life own x s0 cs s) (hd : ∀ c ∈ cs, Judging c.1)
    (M : Mgr) (hM : M ∈ s.mgrs) (t : List Ev) (w' : World) (hr : Lib.Runs s.world t w') :
    (∀ j devs, Exec (getDeviceInformation M j) t (.ok devs) → ∀ dev ∈ devs, dev.bareJid = j ∧ (heard own cs w'.log).Info dev) ∧
    ∀ msg p dev km, Exec (decrypt M msg) t (.ok (p, dev, km)) → (heard own cs w'.log).Info dev := by
  obtain ⟨h1, h2, -⟩ := Prov.lived h0 hlog h hd
  obtain ⟨hj, hm⟩ := h2 M hM
  have hlog' := Lib.log_external hr
  have le : Prov.Le ((Sources.none own).also (cs.map (·.2)) s.world.log) (heard own cs w'.log) := Prov.le_more (fun _ h => h) fun e he => by rw [hlog']; exact List.mem_append_left _ he
  have kn : ∀ e ∈ t, e.1.isExternal = true → (heard own cs w'.log).Knows e := fun e he hx =>
    Prov.knows_also (by rw [hlog']; exact List.mem_append_right _ (List.mem_filter.2 ⟨he, hx⟩)) hx
  refine ⟨fun j devs he => ?_, fun msg p dev km he => ?_⟩
  · obtain ⟨ha, hb⟩ := Prov.Ok.exec (Prov.ok_info (S := heard own cs w'.log)) he
    exact hb (fun e he => ((Prov.backed ha hr kn (le.back h1)).2 e he).1) devs rfl
  · obtain ⟨ha, hb⟩ := Prov.Ok.exec (Prov.ok_decrypt (S := heard own cs w'.log) ⟨hj, le.drawn _ hm⟩ msg) he
    exact hb (fun e he => ((Prov.backed ha hr kn (le.back h1)).2 e he).1) _ rfl

/-- C119: the same of calls that overlap in any way. -/
theorem C119_calls (S : Sources) (calls : List Running) (t : List Ev) (w w' : World)
    (h : ∀ k ∈ calls, Judging k.M ∧ k.M.ownJid = S.own ∧ ((∃ bs l f, k.c = .create bs l f) ∨ S.drawn k.M.ownDev)) (hs : Shuffle (calls.map (·.trace)) t) (hr : Lib.Runs w t w')
    (hb : S.Back w.disk) : (S.also (calls.map (·.c)) t).Back w'.disk ∧ ∀ h1 e h2, t = h1 ++ e :: h2 → (S.also (calls.map (·.c)) h1).Allows e.1 := by
  have hg : ∀ h1 e h2, t = h1 ++ e :: h2 → Prov.Rule (S.also (calls.map (·.c)) []) h1 e.1 := by
    intro h1 e h2 ht
    have := Silent.shuffled (R := Prov.Rule (S.also (calls.map (·.c)) [])) (fun hr hs S' hle hk => hr S' hle fun x hx => hk x (hs hx)) hs [] (fun u hu => ?_) h1 e h2 ht
    · exact this
    · obtain ⟨k, hk, rfl⟩ := List.mem_map.1 hu
      exact ⟨[], List.Subset.refl _, Prov.rule_call (h k hk).1 (.inr (h k hk).2) (List.mem_map_of_mem hk) k.exec⟩
  exact ⟨(Prov.ruled hg hr hb).1, (Prov.ruled hg hr hb).2.2⟩

namespace Prov

theorem judging_ex : Judging Mgr.ex := fun _ _ => .ret ()

def eightB (e : Ev) : Bool := match e with
  | ⟨.downloadList _ j, .ok dl⟩ => decide (j = "a") && (Dict.get dl 8).isSome
  | _ => false

def metB (e : Ev) : Bool := match e.1 with
  | .buildPassive _ j d _ _ => decide (j = "a" ∧ d = 7)
  | _ => false

end Prov

/-- A device of another account is on a list given by the application.  It becomes known, its identity key is downloaded, and a session is built with it.  Another device of the
account was not heard of. -/
theorem C119_example : ∃ cs e y k, New Use.fresh ∧ Use.fresh.world.log = [] ∧ Life "me" Mgr.ex.x Use.fresh cs Attribution.greeted ∧ (∀ c ∈ cs, Judging c.1) ∧
    Known Attribution.greeted.world.disk "a" 7 ∧ Advertises Attribution.greeted.world.disk "a" 7 "n" ∧ HasKey Attribution.greeted.world.disk "a" 7 [7] ∧
    e ∈ Attribution.greeted.world.log ∧ (∃ ns, e.1 = .buildPassive ns "a" 7 y k) ∧ (heard "me" cs Attribution.greeted.world.log).listed "n" "a" 7 none ∧
    ¬ (heard "me" cs Attribution.greeted.world.log).device "a" 8 := by
  have h1 : Attribution.greeted.world.log.any Prov.metB = true := by decide +kernel
  have h2 : Attribution.greeted.world.log.any Prov.eightB = false := by decide +kernel
  obtain ⟨e, he, hb⟩ := List.any_eq_true.1 h1
  unfold Prov.metB at hb
  split at hb
  · rename_i ns j d y k hm
    obtain ⟨rfl, rfl⟩ := of_decide_eq_true hb
    refine ⟨_, e, y, k, fresh_new, rfl, Attribution.greeted_life, ?_, ⟨[7], by rfl, by decide⟩, ⟨["n"], by rfl, by decide⟩, ?_, he, ⟨ns, hm⟩,
      .inr (.inr ⟨[(7, none)], by simp, rfl⟩), ?_⟩
    · intro c hc
      simp only [List.mem_cons, List.not_mem_nil, or_false] at hc
      rcases hc with rfl | rfl | rfl <;> exact Prov.judging_ex
    · show Attribution.greeted.world.disk _ = _
      rfl
    · rintro (⟨ns, l, hf | ⟨dl, hd, hl⟩ | ⟨dl, hc, hl⟩⟩ | ⟨hj, -⟩)
      · exact hf
      · rw [List.any_eq_false] at h2
        exact h2 _ hd (by simp [Prov.eightB, hl])
      · simp only [List.map_cons, List.map_nil, List.mem_cons, List.not_mem_nil, or_false, reduceCtorEq, Call.updateDeviceList.injEq, false_or] at hc
        obtain ⟨-, -, rfl⟩ := hc
        cases hl
      · exact absurd hj (by decide)
  · cases hb

end Verif
