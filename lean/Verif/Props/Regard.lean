import Verif.Props.Secrecy
import Verif.Props.Work
/-
What the activity, the labels and the trust levels of devices have an influence on.
-/
namespace Verif
open SM Foot

namespace Spec

/-- Other activity, labels and trust levels. -/
structure Remarks where
  active : Jid → DevId → Ns → Bool → Bool
  label : Jid → DevId → Option String → Option String
  trust : Jid → Bytes → String → String

/-- What is stored, with other remarks. -/
def Remarks.stored (R : Remarks) : Key → JVal → JVal
  | .devActive j d, .dict l => .dict (l.map fun x => (x.1, match x.2 with | .bool b => .bool (R.active j d x.1 b) | v => v))
  | .devLabel j d, .null => .ofOptStr (R.label j d none)
  | .devLabel j d, .str s => .ofOptStr (R.label j d (some s))
  | .trust j ik, .str s => .str (R.trust j ik s)
  | _, v => v

/-- A device without what is remarked about it. -/
def bare (dev : DeviceInfo) : DeviceInfo := { dev with active := [], trustLevelName := "", label := none }

/-- The same interaction, with other remarks. -/
inductive Remarked (R : Remarks) : Ev → Ev → Prop
  | load (k : Key) (r : Except Exn (Option JVal)) : Remarked R ⟨.load k, r⟩ ⟨.load k, r.map (Option.map (R.stored k))⟩
  | eval {dev dev' : DeviceInfo} (r : Except Exn TrustLevel) : bare dev' = bare dev → Remarked R ⟨.evalTrust dev, r⟩ ⟨.evalTrust dev', r⟩
  | same (e : Ev) : (∀ k, e.1 ≠ .load k) → (∀ dev, e.1 ≠ .evalTrust dev) → Remarked R e e

/-- Activity, label or trust of a device are read or judged. -/
def Op.regards : Op → Bool
  | .load (.devActive ..) | .load (.devLabel ..) | .load (.trust ..) | .evalTrust _ => true
  | _ => false

end Spec
open Spec

namespace Regard

/-- The second program does the same as the first one, up to `E`, until a device list is downloaded. -/
inductive Sim {α β : Type} (E : Ev → Ev → Prop) (Q : α → β → Prop) : P α → P β → Prop
  | ret {a : α} {b : β} : Q a b → Sim E Q (.ret a) (.ret b)
  | raise (e : Exn) : Sim E Q (.raise e) (.raise e)
  | op {o o' : Op} {k : Except Exn o.Ret → P α} {k' : Except Exn o'.Ret → P β} (f : Except Exn o.Ret → Except Exn o'.Ret) :
      (∀ r, E ⟨o, r⟩ ⟨o', f r⟩) → (∀ r, Sim E Q (k r) (k' (f r))) → Sim E Q (.op o k) (.op o' k')
  | stop {ns : Ns} {j : Jid} {k : Except Exn DevList → P α} {k' : Except Exn DevList → P β} : Sim E Q (.op (.downloadList ns j) k) (.op (.downloadList ns j) k')

variable {α β γ δ : Type} {E : Ev → Ev → Prop}

theorem Sim.sound {Q : α → β → Prop} {p : P α} {p' : P β} (h : Sim E Q p p') {t r} (he : Exec p t r) (hn : ∀ e ∈ t, ∀ ns j, e.1 ≠ .downloadList ns j) :
    ∃ t' r', Exec p' t' r' ∧ Along E t t' ∧ Secrecy.Ends Q r r' := by
  induction h generalizing t with
  | ret h => cases he; exact ⟨[], _, .ret _, .nil, h⟩
  | raise e => cases he; exact ⟨[], _, .raise e, .nil, rfl⟩
  | op f h1 h2 ih =>
    cases he with
    | crash => exact ⟨[], .crashed, .crash _ _, .nil, trivial⟩
    | op a he =>
      obtain ⟨t', r', h3, h4, h5⟩ := ih a he fun e hm => hn e (List.mem_cons_of_mem _ hm)
      exact ⟨_, r', .op (f a) h3, .cons (h1 a) h4, h5⟩
  | stop =>
    cases he with
    | crash => exact ⟨[], .crashed, .crash _ _, .nil, trivial⟩
    | op a he => exact absurd rfl (hn _ List.mem_cons_self _ _)

theorem Sim.bind' {Q : α → β → Prop} {R : γ → δ → Prop} {p : P α} {p' : P β} {f : α → P γ} {f' : β → P δ} (h : Sim E Q p p')
    (hf : ∀ a b, Q a b → Sim E R (f a) (f' b)) : Sim E R (p.bind f) (p'.bind f') := by
  induction h with
  | ret h => exact hf _ _ h
  | raise e => exact .raise e
  | op f h1 h2 ih => exact .op f h1 ih
  | stop => exact .stop

theorem Sim.bind {Q : α → β → Prop} {R : γ → δ → Prop} {p : P α} {p' : P β} {f : α → P γ} {f' : β → P δ} (h : Sim E Q p p')
    (hf : ∀ a b, Q a b → Sim E R (f a) (f' b)) : Sim E R (p >>= f) (p' >>= f') := Sim.bind' h hf

theorem Sim.mono {Q Q' : α → β → Prop} {p : P α} {p' : P β} (h : Sim E Q p p') (hq : ∀ a b, Q a b → Q' a b) : Sim E Q' p p' := by
  induction h with
  | ret h => exact .ret (hq _ _ h)
  | raise e => exact .raise e
  | op f h1 h2 ih => exact .op f h1 ih
  | stop => exact .stop

/-- No remarks are read. -/
def Plain (o : Op) : Prop := Op.regards o = false

variable {R : Remarks} {M : Mgr} {ns : Ns} {jid : Jid} {d : DevId}

theorem stored_plain {k : Key} (h : Plain (.load k)) (v : JVal) : R.stored k v = v := by
  cases k with
  | devActive j d => cases h
  | devLabel j d => cases h
  | trust j ik => cases h
  | _ => cases v <;> rfl

theorem refl_plain {p : P α} (hp : AllOps (S := LibSig) Plain p) : Sim (Remarked R) Eq p p := by
  induction p with
  | ret a => exact .ret rfl
  | raise e => exact .raise e
  | op o k ih =>
    refine .op id (fun r => ?_) fun r => ih r (hp.2 r)
    by_cases h : ∃ k, o = .load k
    · obtain ⟨key, rfl⟩ := h
      have h2 : r.map (Option.map (R.stored key)) = r := by
        cases r with
        | error e => rfl
        | ok v =>
          cases v with
          | none => rfl
          | some v => exact congrArg _ (congrArg _ (stored_plain hp.1 v))
      have := Remarked.load (R := R) key r
      rw [h2] at this
      exact this
    · exact .same _ (fun k hk => h ⟨k, hk⟩) fun dev hd => by
        subst hd
        cases hp.1

theorem after {p : P α} {Q : γ → δ → Prop} (hp : AllOps (S := LibSig) Plain p) {f : α → P γ} {f' : α → P δ} (hf : ∀ a, Sim (Remarked R) Q (f a) (f' a)) :
    Sim (Remarked R) Q (p >>= f) (p >>= f') := (refl_plain hp).bind fun a _ h => h ▸ hf a

/-- Loading something remarked. -/
theorem sim_load {k : Key} {f : JVal → Except Exn α} {Q : α → α → Prop} (h : ∀ v, (∃ e, f v = .error e ∧ f (R.stored k v) = .error e) ∨ ∃ a b, f v = .ok a ∧ f (R.stored k v) = .ok b ∧ Q a b) :
    Sim (Remarked R) (fun a b => (a = none ∧ b = none) ∨ ∃ x y, a = some x ∧ b = some y ∧ Q x y) (call (.load k) >>= Maybe.fmap f) (call (.load k) >>= Maybe.fmap f) := by
  refine .op (fun r => r.map (Option.map (R.stored k))) (fun r => .load k r) fun r => ?_
  cases r with
  | error e => exact .raise e
  | ok v =>
    cases v with
    | none => exact .ret (.inl ⟨rfl, rfl⟩)
    | some v =>
      rcases h v with ⟨e, h1, h2⟩ | ⟨a, b, h1, h2, h3⟩
      · show Sim _ _ (Maybe.fmap f (some v)) (Maybe.fmap f (some (R.stored k v)))
        simp only [Maybe.fmap, h1, h2]
        exact .raise e
      · show Sim _ _ (Maybe.fmap f (some v)) (Maybe.fmap f (some (R.stored k v)))
        simp only [Maybe.fmap, h1, h2]
        exact .ret (.inr ⟨a, b, rfl, rfl, h3⟩)

theorem sim_active : Sim (Remarked R) (fun a b : Option (Dict Ns Bool) => (a = none ∧ b = none) ∨ ∃ x y, a = some x ∧ b = some y ∧ y.map (·.1) = x.map (·.1))
    (Sto.loadBools (.devActive jid d)) (Sto.loadBools (.devActive jid d)) := by
  refine sim_load fun v => ?_
  cases v with
  | dict l =>
    simp only [Remarks.stored, checkDict]
    have h : ∀ x : String × JVal, isInstance (match x.2 with | .bool b => JVal.bool (R.active jid d x.1 b) | v => v) .bool = isInstance x.2 .bool := by
      rintro ⟨a, v⟩
      cases v <;> rfl
    by_cases hl : l.all (fun x => isInstance x.2 .bool) = true
    · right
      refine ⟨_, _, by rw [if_pos hl]; rfl, by rw [if_pos (by simpa only [List.all_map, Function.comp_def, h] using hl)]; rfl, ?_⟩
      simp
    · left
      exact ⟨.typeError, by rw [if_neg hl]; rfl, by rw [if_neg (by simpa only [List.all_map, Function.comp_def, h] using hl)]; rfl⟩
  | _ => exact .inl ⟨_, rfl, rfl⟩

theorem sim_label : Sim (Remarked R) (fun a b : Option (Option String) => (a = none ∧ b = none) ∨ ∃ x y, a = some x ∧ b = some y ∧ True)
    (Sto.loadOptStr (.devLabel jid d)) (Sto.loadOptStr (.devLabel jid d)) := by
  refine sim_load fun v => ?_
  have key : ∀ o : Option String, ∃ b, ((checkOptional .str (.ofOptStr o)).map JVal.asOptStr) = .ok b := by
    intro o
    cases o <;> exact ⟨_, rfl⟩
  cases v with
  | null => obtain ⟨b, hb⟩ := key (R.label jid d none); exact .inr ⟨_, b, rfl, hb, trivial⟩
  | str s => obtain ⟨b, hb⟩ := key (R.label jid d (some s)); exact .inr ⟨_, b, rfl, hb, trivial⟩
  | _ => exact .inl ⟨_, rfl, rfl⟩

theorem sim_trust {ik : Bytes} : Sim (Remarked R) (fun a b : Option String => (a = none ∧ b = none) ∨ ∃ x y, a = some x ∧ b = some y ∧ True)
    (Sto.loadStr (.trust jid ik)) (Sto.loadStr (.trust jid ik)) := by
  refine sim_load fun v => ?_
  cases v with
  | str s => exact .inr ⟨_, _, rfl, rfl, trivial⟩
  | _ => exact .inl ⟨_, rfl, rfl⟩

theorem sim_just {Q : α → α → Prop} {a b : Option α} (h : (a = none ∧ b = none) ∨ ∃ x y, a = some x ∧ b = some y ∧ Q x y) : Sim (Remarked R) Q (Maybe.fromJust a) (Maybe.fromJust b) := by
  rcases h with ⟨rfl, rfl⟩ | ⟨x, y, rfl, rfl, h⟩
  · exact .raise _
  · exact .ret h

theorem fields {dev dev' : DeviceInfo} (h : bare dev' = bare dev) :
    dev'.namespaces = dev.namespaces ∧ dev'.bareJid = dev.bareJid ∧ dev'.deviceId = dev.deviceId ∧ dev'.identityKey = dev.identityKey :=
  ⟨by simpa [bare] using congrArg (fun x : DeviceInfo => x.namespaces) h, by simpa [bare] using congrArg (fun x : DeviceInfo => x.bareJid) h, by simpa [bare] using congrArg (fun x : DeviceInfo => x.deviceId) h, by simpa [bare] using congrArg (fun x : DeviceInfo => x.identityKey) h⟩

theorem get_keys {x y : Dict Ns Bool} (h : y.map (·.1) = x.map (·.1)) (ns : Ns) : (Dict.get y ns).isNone = (Dict.get x ns).isNone := by
  induction x generalizing y with
  | nil => cases y with
    | nil => rfl
    | cons a l => cases h
  | cons a l ih => cases y with
    | nil => cases h
    | cons b l' =>
      obtain ⟨a1, a2⟩ := a
      obtain ⟨b1, b2⟩ := b
      simp only [List.map_cons, List.cons.injEq] at h
      obtain ⟨rfl, h⟩ := h
      simp only [Dict.get]
      split
      · rfl
      · exact ih h

theorem repair_keys {nss : List Ns} {x y : Dict Ns Bool} (h : y.map (·.1) = x.map (·.1)) : repairNamespaces M jid d nss y = repairNamespaces M jid d nss x := by
  unfold repairNamespaces
  have h2 : Dict.keys y = Dict.keys x := by unfold Dict.keys; rw [h]
  simp only [get_keys h]
  rw [h2]

theorem plain_fetch (nss : List Ns) : AllOps (S := LibSig) Plain (fetchIdentityKey jid d nss) := by
  induction nss with
  | nil => exact .ret _
  | cons ns rest ih =>
    unfold fetchIdentityKey
    refine AllOps.tryElse (.perform rfl) (fun e => ?_) fun b => ?_
    · split
      · exact ih
      · exact .raise _
    · unfold Sto.storeBytes
      lib_ops [] <;> exact rfl

theorem plain_ik (nss : List Ns) : AllOps (S := LibSig) Plain (identityKeyOf M jid d nss) := by
  unfold identityKeyOf
  lib_ops [plain_fetch]
  all_goals exact rfl

def Alike (d : DevId) (a b : Option (DeviceInfo × Option Bundle)) : Prop :=
  (a = none ∧ b = none) ∨ ∃ dev dev' bundle, a = some (dev, bundle) ∧ b = some (dev', bundle) ∧ dev.deviceId = d ∧ bare dev' = bare dev

theorem sim_device : Sim (Remarked R) (Alike d) (deviceInformation M jid d) (deviceInformation M jid d) := by
  unfold deviceInformation
  refine after (by lib_ops [] <;> exact rfl) fun x => ?_
  refine after (by lib_ops []) fun nss => ?_
  refine after (plain_ik _) fun o => ?_
  split
  · exact .ret (.inl ⟨rfl, rfl⟩)
  · rename_i ik bundle
    refine sim_active.bind fun a a' ha => (sim_just ha).bind fun x y hxy => ?_
    refine sim_label.bind fun l l' hl => (sim_just (Q := fun _ _ => True) hl).bind fun l l' _ => ?_
    refine sim_trust.bind fun v v' hv => ?_
    dsimp only
    rw [repair_keys hxy]
    refine after (by unfold repairNamespaces; lib_ops [] <;> exact rfl) fun nss => ?_
    exact .ret (.inr ⟨_, _, _, rfl, rfl, rfl, rfl⟩)

/-- The devices found so far, in both executions. -/
structure Both (xs : List DevId) (a b : List DeviceInfo × List Bundle) : Prop where
  cache : b.2 = a.2
  same : b.1.map bare = a.1.map bare
  ids : (a.1.map (·.deviceId)).Nodup
  ahead : ∀ dev ∈ a.1, dev.deviceId ∉ xs

theorem ids_of_bare {a b : List DeviceInfo} (h : b.map bare = a.map bare) : b.map (·.deviceId) = a.map (·.deviceId) := by
  have := congrArg (List.map (·.deviceId)) h
  simpa [List.map_map, Function.comp_def, bare] using this

theorem setAdd_new {l : List DeviceInfo} {dev : DeviceInfo} (h : dev.deviceId ∉ l.map (·.deviceId)) : setAdd l dev = l ++ [dev] := by
  unfold setAdd
  rw [if_neg fun hm => h (List.mem_map_of_mem hm)]

theorem Both.add {xs : List DevId} {a b : List DeviceInfo × List Bundle} (h : Both (d :: xs) a b) (hx : (d :: xs).Nodup) {dev dev' : DeviceInfo} (c : List Bundle)
    (h1 : dev.deviceId = d) (h2 : bare dev' = bare dev) : Both xs (setAdd a.1 dev, c) (setAdd b.1 dev', c) := by
  have hn : dev.deviceId ∉ a.1.map (·.deviceId) := fun hm => by
    obtain ⟨x, hx1, hx2⟩ := List.mem_map.1 hm
    exact h.ahead x hx1 (by rw [hx2, h1]; exact List.mem_cons_self)
  have hn' : dev'.deviceId ∉ b.1.map (·.deviceId) := by rw [ids_of_bare h.same, (fields h2).2.2.1]; exact hn
  rw [setAdd_new hn, setAdd_new hn']
  refine ⟨rfl, by simp [h.same, h2], ?_, ?_⟩
  · rw [List.map_append, List.nodup_append]
    refine ⟨h.ids, by simp, fun x hx y hy => ?_⟩
    simp only [List.map_cons, List.map_nil, List.mem_singleton] at hy
    rintro rfl
    exact hn (hy ▸ hx)
  · intro x hm
    rcases List.mem_append.1 hm with hm | hm
    · exact fun hc => h.ahead x hm (List.mem_cons_of_mem _ hc)
    · rw [List.mem_singleton.1 hm, h1]
      exact (List.nodup_cons.1 hx).1

theorem sim_devices {xs : List DevId} (hx : xs.Nodup) {a b : List DeviceInfo × List Bundle} (h : Both xs a b) :
    Sim (Remarked R) (Both []) (Prog.fold xs a fun (devices, cache) d => do
      match ← deviceInformation M jid d with
      | none => pure (devices, cache)
      | some (dev, none) => pure (setAdd devices dev, cache)
      | some (dev, some bundle) => pure (setAdd devices dev, setAdd cache bundle))
    (Prog.fold xs b fun (devices, cache) d => do
      match ← deviceInformation M jid d with
      | none => pure (devices, cache)
      | some (dev, none) => pure (setAdd devices dev, cache)
      | some (dev, some bundle) => pure (setAdd devices dev, setAdd cache bundle)) := by
  induction xs generalizing a b with
  | nil => exact .ret h
  | cons d xs ih =>
    refine Sim.bind' (Q := Both xs) (sim_device.bind fun o o' ho => ?_) fun a b h => ih (List.nodup_cons.1 hx).2 h
    obtain ⟨a1, a2⟩ := a
    obtain ⟨b1, b2⟩ := b
    obtain rfl : b2 = a2 := h.cache
    rcases ho with ⟨rfl, rfl⟩ | ⟨dev, dev', bundle, rfl, rfl, h1, h2⟩
    · exact .ret ⟨rfl, h.same, h.ids, fun dev hd hm => h.ahead dev hd (List.mem_cons_of_mem _ hm)⟩
    · cases bundle with
      | none => exact .ret (h.add hx _ h1 h2)
      | some bundle => exact .ret (h.add hx _ h1 h2)

/-- The devices of a contact, in both executions. -/
structure Pair (a b : List DeviceInfo) : Prop where
  same : b.map bare = a.map bare
  ids : (a.map (·.deviceId)).Nodup

theorem sim_info : Sim (Remarked R) Pair (getDeviceInformation M jid) (getDeviceInformation M jid) := by
  unfold getDeviceInformation getDeviceInformation'
  refine Sim.bind (Q := Both []) ?_ fun a b h => .ret ⟨h.same, h.ids⟩
  refine after (by lib_ops [] <;> exact rfl) fun l => ?_
  exact sim_devices (M.O.nodup_iter.2 (nodup_dedup _)) ⟨rfl, rfl, List.nodup_nil, fun _ h => by cases h⟩

theorem find_unique {l : List DeviceInfo} (hl : (l.map (·.deviceId)).Nodup) {dev : DeviceInfo} (hm : dev ∈ l) : pickDevice M dev.deviceId l = some dev := by
  unfold pickDevice
  cases h : (M.O.iter l).find? fun x => decide (x.deviceId = dev.deviceId) with
  | none =>
    rw [List.find?_eq_none] at h
    exact absurd (h dev (M.O.mem_iter.2 hm)) (by simp)
  | some x =>
    have h1 := List.find?_some h
    have h2 := M.O.mem_iter.1 (List.mem_of_find?_eq_some h)
    have h3 : ∀ {l : List DeviceInfo}, (l.map (·.deviceId)).Nodup → ∀ {x y}, x ∈ l → y ∈ l → x.deviceId = y.deviceId → x = y := by
      intro l hl
      induction l with
      | nil => intro x y h; cases h
      | cons a l ih =>
        intro x y hx hy hxy
        rw [List.map_cons, List.nodup_cons] at hl
        rcases List.mem_cons.1 hx with hx1 | hx1 <;> rcases List.mem_cons.1 hy with hy1 | hy1
        · rw [hx1, hy1]
        · exact absurd (by rw [← hx1, hxy]; exact List.mem_map_of_mem hy1) hl.1
        · exact absurd (by rw [← hy1, ← hxy]; exact List.mem_map_of_mem hx1) hl.1
        · exact ih hl.2 hx1 hy1 hxy
    rw [h3 hl h2 hm (of_decide_eq_true h1)]

/-- The same device is found in both executions. -/
theorem Pair.pick {a b : List DeviceInfo} (h : Pair a b) (d : DevId) :
    (pickDevice M d a = none ∧ pickDevice M d b = none) ∨ ∃ dev dev', pickDevice M d a = some dev ∧ pickDevice M d b = some dev' ∧ bare dev' = bare dev := by
  have hb : (b.map (·.deviceId)).Nodup := ids_of_bare h.same ▸ h.ids
  cases h1 : pickDevice M d a with
  | some dev =>
    right
    have h2 := List.mem_of_find?_eq_some h1
    have h3 : dev.deviceId = d := of_decide_eq_true (List.find?_some (p := fun dev : DeviceInfo => decide (dev.deviceId = d)) h1)
    have h4 : bare dev ∈ b.map bare := h.same ▸ List.mem_map_of_mem (M.O.mem_iter.1 h2)
    obtain ⟨dev', h5, h6⟩ := List.mem_map.1 h4
    refine ⟨dev, dev', rfl, ?_, h6⟩
    have h7 := find_unique (M := M) hb h5
    rw [(fields h6).2.2.1, h3] at h7
    exact h7
  | none =>
    refine .inl ⟨rfl, ?_⟩
    unfold pickDevice at h1 ⊢
    rw [List.find?_eq_none] at h1 ⊢
    intro x hx
    have h4 : bare x ∈ a.map bare := h.same ▸ List.mem_map_of_mem (M.O.mem_iter.1 hx)
    obtain ⟨y, h5, h6⟩ := List.mem_map.1 h4
    have := h1 y (M.O.mem_iter.2 h5)
    rw [(fields h6).2.2.1] at this
    exact this

theorem sim_replace : Sim (Remarked R) Eq (replaceSessions M jid d) (replaceSessions M jid d) := by
  unfold replaceSessions
  refine sim_info.bind fun a b h => ?_
  refine Sim.bind (Q := fun dev dev' => bare dev' = bare dev) ?_ fun dev dev' hd => ?_
  · rcases h.pick (M := M) d with ⟨h1, h2⟩ | ⟨dev, dev', h1, h2, h3⟩
    · unfold pickDevice at h1 h2
      rw [h1, h2]
      exact .raise _
    · unfold pickDevice at h1 h2
      rw [h1, h2]
      exact .ret h3
  · obtain ⟨h1, h2, h3, h4⟩ := fields hd
    obtain ⟨n, a, j, d, k, l, l'⟩ := dev
    obtain ⟨n', a', j', d', k', l2, l2'⟩ := dev'
    dsimp only at h1 h2 h3 h4
    subst h1 h2 h3 h4
    refine refl_plain ?_
    unfold replaceSession
    lib_ops []
    all_goals exact rfl

theorem sim_own : Sim (Remarked R) (fun a b => bare b.1 = bare a.1 ∧ b.2.map bare = a.2.map bare) (getOwnDeviceInformation M) (getOwnDeviceInformation M) := by
  unfold getOwnDeviceInformation
  refine sim_info.bind fun a b h => ?_
  have hf : (b.filter fun dev => decide (dev.deviceId ≠ M.ownDev)).map bare = (a.filter fun dev => decide (dev.deviceId ≠ M.ownDev)).map bare := by
    have key : ∀ l : List DeviceInfo, (l.filter fun dev => decide (dev.deviceId ≠ M.ownDev)).map bare = (l.map bare).filter fun dev => decide (dev.deviceId ≠ M.ownDev) := by
      intro l
      rw [List.filter_map]
      rfl
    rw [key, key, h.same]
  have own : ∀ l : List DeviceInfo, (l.map (·.deviceId)).Nodup →
      (M.O.iter (setDiff l (l.filter fun dev => decide (dev.deviceId ≠ M.ownDev)))).head? = pickDevice M M.ownDev l := by
    intro l hl
    cases h1 : pickDevice M M.ownDev l with
    | none =>
      unfold pickDevice at h1
      rw [List.find?_eq_none] at h1
      rw [List.head?_eq_none_iff, M.O.iter_eq_nil]
      rw [List.eq_nil_iff_forall_not_mem]
      intro x hx
      simp only [setDiff, List.mem_filter, decide_eq_true_eq, not_and] at hx
      have := h1 x (M.O.mem_iter.2 hx.1)
      simp only [decide_eq_true_eq] at this
      exact hx.2 hx.1 this
    | some dev =>
      have h2 := M.O.mem_iter.1 (List.mem_of_find?_eq_some h1)
      have h3 : dev.deviceId = M.ownDev := of_decide_eq_true (List.find?_some (p := fun dev : DeviceInfo => decide (dev.deviceId = M.ownDev)) h1)
      have hd : dev ∈ M.O.iter (setDiff l (l.filter fun dev => decide (dev.deviceId ≠ M.ownDev))) := by
        rw [M.O.mem_iter]
        simp only [setDiff, List.mem_filter, decide_eq_true_eq, not_and]
        exact ⟨h2, fun _ hc => hc h3⟩
      cases hh : (M.O.iter (setDiff l (l.filter fun dev => decide (dev.deviceId ≠ M.ownDev)))).head? with
      | none => rw [List.head?_eq_none_iff] at hh; rw [hh] at hd; cases hd
      | some x =>
        have hx := M.O.mem_iter.1 (List.mem_of_mem_head? hh)
        simp only [setDiff, List.mem_filter, decide_eq_true_eq, not_and] at hx
        have hx2 : x.deviceId = M.ownDev := Decidable.byContradiction fun hc => hx.2 hx.1 hc
        have := find_unique (M := M) hl hx.1
        rw [hx2, h1] at this
        exact this.symm
  have hb : (b.map (·.deviceId)).Nodup := ids_of_bare h.same ▸ h.ids
  dsimp only
  rw [own a h.ids, own b hb]
  rcases h.pick (M := M) M.ownDev with ⟨h1, h2⟩ | ⟨dev, dev', h1, h2, h3⟩
  · rw [h1, h2]
    exact .raise _
  · rw [h1, h2]
    exact .ret ⟨h3, hf⟩

theorem sim_sender (msg : Message) : Sim (Remarked R) (fun dev dev' => bare dev' = bare dev) (findSender M msg) (findSender M msg) := by
  unfold findSender
  refine sim_info.bind fun a b h => ?_
  rcases h.pick (M := M) msg.deviceId with ⟨h1, h2⟩ | ⟨dev, dev', h1, h2, h3⟩
  · rw [h1, h2]
    exact .stop
  · rw [h1, h2]
    exact .ret h3

theorem sim_decrypt (msg : Message) : Sim (Remarked R) (fun a b => b.1 = a.1 ∧ bare b.2.1 = bare a.2.1 ∧ b.2.2 = a.2.2) (decrypt M msg) (decrypt M msg) := by
  unfold decrypt
  refine after (p := call .getBackends) (.perform (show Plain .getBackends from rfl)) fun bs => ?_
  split
  · exact .raise _
  · split
    · exact .raise _
    · rename_i ekm kex _
      refine (sim_sender msg).bind fun dev dev' hd => ?_
      obtain ⟨h1, h2, h3, h4⟩ := fields hd
      have hk : keyMaterial M msg dev' ekm kex = keyMaterial M msg dev ekm kex := by
        obtain ⟨n, a, j, d, k, l, l'⟩ := dev
        obtain ⟨n', a', j', d', k', l2, l2'⟩ := dev'
        dsimp only at h1 h2 h3 h4
        subst h1 h2 h3 h4
        rfl
      refine Sim.bind (Q := Eq) ?_ fun x y h => ?_
      · unfold decryptContent
        refine Sim.bind (Q := Eq) (p := call (.evalTrust dev)) (p' := call (.evalTrust dev')) (.op id (fun r => .eval r hd) fun r => ?_) fun level _ h => ?_
        · cases r with
          | ok a => exact .ret rfl
          | error e => exact .raise e
        · subst h
          rw [hk]
          refine refl_plain ?_
          unfold keyMaterial decryptKeyMaterial handleKeyExchange plaintextOf
          lib_ops []
          all_goals exact rfl
      · subst h
        have g3 : ∀ s, AllOps (S := LibSig) Plain (sendEmptyMessage M msg.ns s) := fun s =>
          (SM.ops_sendEmptyMessage M msg.ns s).mono fun _ h => by
            cases h <;> exact rfl
        refine after ?_ fun _ => .ret ⟨rfl, hd, rfl⟩
        unfold postDecrypt consumePreKey discardPreKey refillPreKeys autoReply queueEmpty
        lib_ops [g3]
        all_goals exact rfl

end Regard

open Regard in
/-- C118, reading a message whose sender is known: with other activity, labels and trust levels the same things happen. The outcome is the same, up to the
remarks about the sender that are returned. Trust levels have an influence through their evaluation only. -/
theorem C118_decrypt (R : Remarks) (M : Mgr) (msg : Message) {t r} (he : Exec (decrypt M msg) t r) (hn : ∀ e ∈ t, ∀ ns j, e.1 ≠ .downloadList ns j) :
    ∃ t' r', Exec (decrypt M msg) t' r' ∧ Along (Remarked R) t t' ∧
      Secrecy.Ends (fun a b => b.1 = a.1 ∧ bare b.2.1 = bare a.2.1 ∧ b.2.2 = a.2.2) r r' := (sim_decrypt msg).sound he hn

open Regard in
/-- C118, replacing sessions: neither trust nor activity are asked for. -/
theorem C118_replace (R : Remarks) (M : Mgr) (jid : Jid) (d : DevId) {t r} (he : Exec (replaceSessions M jid d) t r) :
    ∃ t', Exec (replaceSessions M jid d) t' r ∧ Along (Remarked R) t t' := by
  obtain ⟨t', r', h1, h2, h3⟩ := (sim_replace (R := R)).sound he fun e hm ns j hc =>
    absurd (hc ▸ (SM.ops_replaceSessions M jid d).exec he e hm) (fun h => by cases h; cases ‹Foot.Info _ _›)
  have : r' = r := by
    cases r <;> cases r' <;> first | (cases h3; done) | (cases h3; rfl) | rfl
  exact ⟨t', this ▸ h1, h2⟩

open Regard in
/-- C118, asking for the devices of a contact: the same devices are found, with the other remarks. -/
theorem C118_info (R : Remarks) (M : Mgr) (jid : Jid) {t r} (he : Exec (getDeviceInformation M jid) t r) :
    ∃ t' r', Exec (getDeviceInformation M jid) t' r' ∧ Along (Remarked R) t t' ∧ Secrecy.Ends (fun a b => b.map bare = a.map bare) r r' :=
  (sim_info.mono fun _ _ h => h.same).sound he fun e hm ns j hc =>
    absurd (hc ▸ (SM.ops_getDeviceInformation M jid).exec he e hm) (fun h => by cases h)

open Regard in
/-- C118, asking for the own devices. -/
theorem C118_own (R : Remarks) (M : Mgr) {t r} (he : Exec (getOwnDeviceInformation M) t r) :
    ∃ t' r', Exec (getOwnDeviceInformation M) t' r' ∧ Along (Remarked R) t t' ∧ Secrecy.Ends (fun a b => bare b.1 = bare a.1 ∧ b.2.map bare = a.2.map bare) r r' :=
  sim_own.sound he fun e hm ns j hc =>
    absurd (hc ▸ (SM.ops_getOwnDeviceInformation M).exec he e hm) (fun h => by cases h)

/-- C118: synchronizing, waiting replies, the background task and the remaining calls ask for no remarks. -/
theorem C118_others (M : Mgr) (c : Call)
    (hc : (∃ p f n, c = .rotation p f n) ∨ c = .beforeHistorySync ∨ c = .afterHistorySync ∨ (∃ dev, c = .getSendingChainLength dev) ∨ (∃ j ik l, c = .setTrust j ik l) ∨
      (∃ l, c = .setOwnLabel l) ∨ c = .getIdentityKeyPair) {t r}
    (he : Exec (c.run M) t r) : ∀ e ∈ t, Op.regards e.1 = false := by
  have g3 : ∀ ns s, AllOps (S := LibSig) (fun o => Op.regards o = false) (sendEmptyMessage M ns s) := fun ns s =>
    (SM.ops_sendEmptyMessage M ns s).mono fun _ h => by cases h <;> rfl
  refine AllOps.exec (S := LibSig) (φ := fun o => Op.regards o = false) ?_ he
  rcases hc with ⟨_, _, _, rfl⟩ | rfl | rfl | ⟨_, rfl⟩ | ⟨_, _, _, rfl⟩ | ⟨_, rfl⟩ | rfl
  · exact (SM.ops_manageRotation M _ _ _).mono fun _ h => by cases h <;> rfl
  · show AllOps (S := LibSig) _ beforeHistorySync
    unfold beforeHistorySync
    lib_ops []
  · show AllOps (S := LibSig) _ (afterHistorySync M)
    unfold afterHistorySync sendQueuedBackend sendQueuedJid sendQueued
    lib_ops [g3]
  · show AllOps (S := LibSig) _ (getSendingChainLength _ >>= _)
    unfold getSendingChainLength
    lib_ops []
  · exact .perform rfl
  · exact (SM.ops_setOwnLabel M _).mono fun _ h => by cases h <;> rfl
  · show AllOps (S := LibSig) _ (IdentityKeyPair.get >>= _)
    unfold IdentityKeyPair.get IdentityKeyPair.load IdentityKeyPair.generate
    lib_ops []

/-- The hypotheses of C118 are met where a message is read: the sender being inactive, labelled and having another trust level makes no difference. -/
theorem C118_example : ∃ (t t' : List Ev) (dev dev' : DeviceInfo) (km : PlainKM), Exec (decrypt Mgr.ex (firstMessage "n" 8)) t (.ok (some [5, 3], dev, km)) ∧
    Exec (decrypt Mgr.ex (firstMessage "n" 8)) t' (.ok (some [5, 3], dev', km)) ∧ bare dev' = bare dev ∧
    Along (Remarked ⟨fun _ _ _ _ => false, fun _ _ _ => some "phone", fun _ _ _ => "yes"⟩) t t' ∧
    t.any (fun e => match e with | ⟨.load (.devActive "a" 8), .ok (some (.dict (("n", .bool true) :: _)))⟩ => true | _ => false) = true ∧
    t.any (fun e => match e with | ⟨.evalTrust dev, .ok .trusted⟩ | ⟨.evalTrust dev, .ok .undecided⟩ => decide (dev.deviceId = 8) | _ => false) = true := by
  have hr : (Friendly.chatty.run (decrypt Mgr.ex (firstMessage "n" 8)) World.inbox2).2.1 =
      .ok (some [5, 3], ⟨["n", "o"], [("n", true), ("o", true)], "a", 8, [8], "undecided", none⟩, ⟨3⟩) := by decide +kernel
  have he := hr ▸ Friendly.chatty.exec (decrypt Mgr.ex (firstMessage "n" 8)) World.inbox2
  have hn : ∀ e ∈ (Friendly.chatty.run (decrypt Mgr.ex (firstMessage "n" 8)) World.inbox2).1, ∀ ns j, e.1 ≠ .downloadList ns j := by
    have : (Friendly.chatty.run (decrypt Mgr.ex (firstMessage "n" 8)) World.inbox2).1.all (fun e => match e.1 with | .downloadList .. => false | _ => true) = true := by decide +kernel
    intro e hm ns j hc
    have := List.all_eq_true.1 this e hm
    rw [hc] at this
    cases this
  obtain ⟨t', r', h1, h2, h3⟩ := C118_decrypt ⟨fun _ _ _ _ => false, fun _ _ _ => some "phone", fun _ _ _ => "yes"⟩ Mgr.ex _ he hn
  cases r' with
  | ok b =>
    obtain ⟨b1, b2, b3⟩ := b
    obtain ⟨h4, h5, h6⟩ := h3
    dsimp only at h4 h5 h6
    subst h4 h6
    exact ⟨_, t', _, b2, _, he, h1, h5, h2, by decide +kernel, by decide +kernel⟩
  | raised e => exact h3.elim
  | crashed => exact h3.elim

end Verif
