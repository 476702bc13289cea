import Verif.Props.Info
import Verif.Props.Create
/-
C56: purging a backend.
-/
namespace Verif
namespace Spec

/-- Interactions that change something, on the server, in storage, in a backend or in the session manager. -/
def Op.changes : Op → Bool
  | .load _ | .getBackends | .getSync | .downloadList .. | .downloadBundle .. => false
  | _ => true

/-- The own device list of `ns` was downloaded, and this device was not on it or has been removed from it. -/
def Unlisted (M : Mgr) (ns : Ns) (u : List Ev) : Prop :=
  ∃ dl, (⟨.downloadList ns M.ownJid, .ok dl⟩ : Ev) ∈ u ∧
    (M.ownDev ∉ Dict.keys dl ∨ (⟨.uploadList ns (Dict.erase dl M.ownDev), .ok ()⟩ : Ev) ∈ u)

/-- The order in which `purge_backend` proceeds: `u` happened before `e`. -/
structure PurgeOrder (M : Mgr) (ns : Ns) (u : List Ev) (e : Ev) : Prop where
  /-- nothing is changed before this device is off the list, and the list is uploaded for nothing else -/
  list : Op.changes e.1 = true →
    (∃ dl, u = [⟨.downloadList ns M.ownJid, .ok dl⟩] ∧ M.ownDev ∈ Dict.keys dl ∧ e.1 = .uploadList ns (Dict.erase dl M.ownDev)) ∨
    (Unlisted M ns u ∧ Op.uploadsList e.1 = false)
  /-- nothing happens after the deletion of the bundle -/
  bundle : ∀ x ∈ u, ∀ n d, x.1 ≠ .deleteBundle n d

end Spec
open Spec SM

namespace SM
variable {φ : Ev → Prop} {M : Mgr} {ns : Ns}

/-- The state of things once the device is off the list. -/
def Going (M : Mgr) (ns : Ns) (h : List Ev) : Prop :=
  Guarded (PurgeOrder M ns) h ∧ Unlisted M ns h ∧ ∀ x ∈ h, ∀ n d, x.1 ≠ .deleteBundle n d

theorem unlisted_mono {u u' : List Ev} (h : Unlisted M ns u) (hu : ∀ e ∈ u, e ∈ u') : Unlisted M ns u' :=
  h.imp fun _ hd => ⟨hu _ hd.1, hd.2.imp_right (hu _)⟩

theorem going_next {h : List Ev} (hg : Going M ns h) {o : Op} (ho : Op.uploadsList o = false ∧ ∀ n d, o ≠ .deleteBundle n d) (r : Except Exn o.Ret) :
    Going M ns (h ++ [⟨o, r⟩]) := by
  refine ⟨guarded_snoc.2 ⟨hg.1, fun _ => .inr ⟨hg.2.1, ho.1⟩, hg.2.2⟩, unlisted_mono hg.2.1 (by simp +contextual), fun x hx => ?_⟩
  rw [List.mem_append, List.mem_singleton] at hx
  rcases hx with hx | rfl
  · exact hg.2.2 x hx
  · exact ho.2

theorem going_ops {α : Type} {p : P α} (h : AllOps (fun o : Op => Op.uploadsList o = false ∧ ∀ n d, o ≠ .deleteBundle n d) p) :
    Pres (Rec φ) (Going M ns) p := Pres.ofOps h fun _ ho _ r _ hw => going_next hw ho r

/-- What is claimed about the end. -/
def PurgeEnd (M : Mgr) (ns : Ns) (r : Res Exn Unit) (h : List Ev) : Prop :=
  Guarded (PurgeOrder M ns) h ∧ (r = .ok () → ∃ u, h = u ++ [⟨.deleteBundle ns M.ownDev, .ok ()⟩])

theorem going_step {α : Type} {p : P α} {f : α → P Unit} {h : List Ev}
    (hp : AllOps (fun o : Op => Op.uploadsList o = false ∧ ∀ n d, o ≠ .deleteBundle n d) p) (hh : Going M ns h)
    (hf : ∀ a h', Going M ns h' → wp (Rec φ) (f a) (PurgeEnd M ns) h') : wp (Rec φ) (p >>= f) (PurgeEnd M ns) h := by
  rw [wp_bind]
  refine wp_mono (going_ops hp h hh) fun r h' hr => ?_
  cases r with
  | ok a => exact hf a h' hr
  | raised e => exact ⟨hr.1, nofun⟩
  | crashed => exact ⟨hr.1, nofun⟩

theorem order_purge : wp (Rec φ) (purgeBackend M ns) (PurgeEnd M ns) [] := by
  unfold purgeBackend
  rw [wp_bind, wp_perform]
  refine ⟨⟨guarded_nil, nofun⟩, fun dl _ => ?_, fun e _ => ⟨guarded_snoc.2 ⟨guarded_nil, nofun, by simp⟩, nofun⟩⟩
  simp only [andThen, Rec.next_eq, List.nil_append]
  have g0 : Guarded (PurgeOrder M ns) [⟨.downloadList ns M.ownJid, .ok dl⟩] := guarded_snoc (h := []).2 ⟨guarded_nil, nofun, by simp⟩
  have hrest : ∀ h, Going M ns h → wp (Rec φ) (do
      let (device, _) ← getOwnDeviceInformation M
      call (.store (.devActive M.ownJid M.ownDev) (.ofBools (device.active.erase ns)))
      call (.store (.devNamespaces M.ownJid M.ownDev) (.ofStrs (M.O.iter (setDiff device.namespaces [ns]))))
      let bs ← call .getBackends
      call (.setBackends (setDiff bs [ns]))
      Prog.when (ns ∈ bs) do
        call (.purge ns)
      call (.deleteBundle ns M.ownDev) : P Unit) (PurgeEnd M ns) h := by
    intro h hh
    refine going_step ((ops_getOwnDeviceInformation M).mono fun o ho => ?_) hh fun x h1 hh1 => ?_
    · cases ho <;> exact ⟨rfl, nofun⟩
    refine going_step (.perform ⟨rfl, nofun⟩) hh1 fun _ h2 hh2 => going_step (.perform ⟨rfl, nofun⟩) hh2 fun _ h3 hh3 =>
      going_step (.perform ⟨rfl, nofun⟩) hh3 fun bs h4 hh4 => going_step (.perform ⟨rfl, nofun⟩) hh4 fun _ h5 hh5 =>
      going_step (.when fun _ => .perform ⟨rfl, nofun⟩) hh5 fun _ h6 hh6 => ?_
    have hg : ∀ r, Guarded (PurgeOrder M ns) (h6 ++ [⟨.deleteBundle ns M.ownDev, r⟩]) :=
      fun r => guarded_snoc.2 ⟨hh6.1, fun _ => .inr ⟨hh6.2.1, rfl⟩, hh6.2.2⟩
    rw [wp_perform]
    exact ⟨⟨hh6.1, nofun⟩, fun _ _ => ⟨hg _, fun _ => ⟨h6, rfl⟩⟩, fun e _ => ⟨hg _, nofun⟩⟩
  rw [wp_bind]
  unfold Prog.when
  split
  · rename_i hd
    rw [wp_perform]
    have hg : ∀ r, Guarded (PurgeOrder M ns) ([⟨.downloadList ns M.ownJid, .ok dl⟩] ++ [⟨.uploadList ns (Dict.erase dl M.ownDev), r⟩]) :=
      fun r => guarded_snoc.2 ⟨g0, fun _ => .inl ⟨dl, rfl, hd, rfl⟩, by simp⟩
    refine ⟨⟨g0, nofun⟩, fun _ _ => ?_, fun e _ => ⟨hg _, nofun⟩⟩
    simp only [andThen, Rec.next_eq]
    exact hrest _ ⟨hg _, ⟨dl, by simp, .inr (by simp)⟩, by simp⟩
  · rename_i hd
    exact hrest _ ⟨g0, ⟨dl, by simp, .inl hd⟩, by simp⟩
end SM

/-- C56, order: whatever happens and wherever it ends, `purge_backend` changes nothing before this device is off the own device list of the
namespace; this takes the upload of the downloaded list without this device, if it was on it; nothing happens after the bundle is deleted,
which is the last step if the method succeeds. -/
theorem C56_order (M : Mgr) (ns : Ns) (t : List Ev) (r : Res Exn Unit) (h : Exec (purgeBackend M ns) t r) :
    Guarded (PurgeOrder M ns) t ∧ (r = .ok () → ∃ u, t = u ++ [⟨.deleteBundle ns M.ownDev, .ok ()⟩]) :=
  Rec.sound (φ := fun _ => True) (h := []) order_purge h fun _ _ => trivial

namespace SM
variable {M : Mgr} {ns : Ns}

/-- `getOwnDeviceInformation` against stored data. -/
theorem own_info (w : World) : wp Lib (getOwnDeviceInformation M) (ends (fun x w' => LookedW M.ownJid w w' ∧ x.1.deviceId = M.ownDev ∧
    Describes M.undecided M.ownJid w.disk w'.disk x.1) fun _ _ => True) w := by
  refine wp_iff.2 fun t r w' he hr => ?_
  cases r with
  | ok x =>
    obtain ⟨h1, h2, -⟩ := describes_own he hr
    exact ⟨wp_sound (looked_own w) he hr, h1, h2⟩
  | raised e => trivial
  | crashed => trivial
end SM

/-- C56, effect: after `purge_backend` succeeded, the backend is not loaded any more, the others are; if it was loaded, its data was
purged, otherwise nothing was; the own device does not advertise the namespace and has no activity information for it, but keeps the other
namespaces with their activity; identity keys, labels, lists and everything about other JIDs stay as they are. -/
theorem C56_effect (M : Mgr) (ns : Ns) (t : List Ev) (w w' : World) (he : Exec (purgeBackend M ns) t (.ok ())) (hr : Lib.Runs w t w') :
    (∀ n, n ∈ w'.backends ↔ n ∈ w.backends ∧ n ≠ ns) ∧
      ((∃ r, (⟨.purge ns, r⟩ : Ev) ∈ t) ↔ ns ∈ w.backends) ∧ (∀ n r, (⟨.purge n, r⟩ : Ev) ∈ t → n = ns ∧ r = .ok ()) ∧
      (∃ a, w'.disk (.devActive M.ownJid M.ownDev) = some (.ofBools a) ∧ a.get ns = none) ∧ (¬ Advertises w'.disk M.ownJid M.ownDev ns) ∧
      (∀ n, n ≠ ns → ∀ b, Activity w'.disk M.ownJid M.ownDev n b ↔ Activity w.disk M.ownJid M.ownDev n b) ∧
      (∀ n, n ≠ ns → (Advertises w'.disk M.ownJid M.ownDev n ↔
        Advertises w.disk M.ownJid M.ownDev n ∧ ∃ b, Activity w.disk M.ownJid M.ownDev n b)) ∧
      ∀ k, k ≠ .devActive M.ownJid M.ownDev → (∀ d, k ≠ .devIdentityKey M.ownJid d ∧ k ≠ .devNamespaces M.ownJid d) → w'.disk k = w.disk k := by
  unfold purgeBackend at he
  replace ⟨dl, t1, ht, he⟩ := exec_call_bind_ok.1 he
  subst ht
  replace ⟨t2, u, t3, ht, he2, he⟩ := exec_seq_ok.1 he
  subst ht
  replace ⟨t4, x, t5, ht, he4, he⟩ := exec_seq_ok.1 he
  subst ht
  replace ⟨u1, t6, ht, he⟩ := exec_call_bind_ok.1 he
  subst ht
  replace ⟨u2, t7, ht, he⟩ := exec_call_bind_ok.1 he
  subst ht
  replace ⟨bs, t8, ht, he⟩ := exec_call_bind_ok.1 he
  subst ht
  replace ⟨u3, t9, ht, he⟩ := exec_call_bind_ok.1 he
  subst ht
  replace ⟨t10, u4, t11, ht, he10, he⟩ := exec_seq_ok.1 he
  subst ht
  have ht := exec_call_ok.1 he
  subst ht
  -- the states in between
  replace hr := hr.2
  replace ⟨w2, hr2, hr⟩ := Sem.runs_append.1 hr
  replace ⟨w4, hr4, hr⟩ := Sem.runs_append.1 hr
  have hbs := hr.2.2.1
  replace hr := hr.2.2.2.2
  obtain ⟨w10, hr10, hr11⟩ := Sem.runs_append.1 hr
  have hw2 : w2.disk = w.disk ∧ w2.backends = w.backends := by
    rcases exec_when.1 he2 with ⟨-, h⟩ | ⟨-, rfl, -⟩
    · obtain rfl := exec_call_ok.1 h
      obtain ⟨-, rfl⟩ := hr2
      exact ⟨rfl, rfl⟩
    · cases hr2; exact ⟨rfl, rfl⟩
  obtain ⟨hL, hown, hD⟩ := wp_sound (own_info (M := M) w2) he4 hr4
  have hb : bs = w.backends := by
    have : Except.ok bs = Except.ok w4.backends := hbs
    cases this
    exact hL.backends.trans hw2.2
  subst hb
  have hw10 : w10.disk = (w4.disk.upd (.devActive M.ownJid M.ownDev) (some (.ofBools (x.1.active.erase ns)))).upd
      (.devNamespaces M.ownJid M.ownDev) (some (.ofStrs (M.O.iter (setDiff x.1.namespaces [ns])))) ∧ w10.backends = setDiff w.backends [ns] := by
    rcases exec_when.1 he10 with ⟨-, h⟩ | ⟨-, rfl, -⟩
    · obtain rfl := exec_call_ok.1 h
      obtain ⟨-, rfl⟩ := hr10
      exact ⟨rfl, rfl⟩
    · cases hr10; exact ⟨rfl, rfl⟩
  obtain ⟨-, rfl⟩ := hr11
  have hdisk : ∀ k, (Lib.next w10 ⟨.deleteBundle ns M.ownDev, .ok ()⟩).disk k = w10.disk k := fun _ => rfl
  have hback : (Lib.next w10 ⟨.deleteBundle ns M.ownDev, .ok ()⟩).backends = w10.backends := rfl
  generalize Lib.next w10 ⟨.deleteBundle ns M.ownDev, .ok ()⟩ = w' at *
  have ha : w.disk (.devActive M.ownJid M.ownDev) = some (.ofBools x.1.active) := by rw [← hw2.1, ← hown]; exact hD.active
  obtain ⟨l, hl, hmem⟩ := hD.namespaces
  rw [hw2.1, hown] at hl
  have ha' : w'.disk (.devActive M.ownJid M.ownDev) = some (.ofBools (x.1.active.erase ns)) := by
    rw [hdisk, hw10.1, Disk.upd_of_ne Key.noConfusion, Disk.upd_self]
  have hl' : w'.disk (.devNamespaces M.ownJid M.ownDev) = some (.ofStrs (M.O.iter (setDiff x.1.namespaces [ns]))) := by
    rw [hdisk, hw10.1, Disk.upd_self]
  have act : ∀ n b, Activity w.disk M.ownJid M.ownDev n b ↔ x.1.active.get n = some b := by
    intro n b
    constructor
    · rintro ⟨a, h1, h2⟩
      rw [ha] at h1
      simp only [Option.some.injEq] at h1
      rwa [ofBools_inj' h1]
    · exact fun h => ⟨_, ha, h⟩
  have adv : ∀ n, Advertises w.disk M.ownJid M.ownDev n ↔ n ∈ l := by
    intro n
    constructor
    · rintro ⟨a, h1, h2⟩
      rw [hl] at h1
      simp only [Option.some.injEq] at h1
      rwa [ofStrs_inj' h1]
    · exact fun h => ⟨_, hl, h⟩
  have adv' : ∀ n, Advertises w'.disk M.ownJid M.ownDev n ↔ (n ∈ l ∧ (x.1.active.get n).isSome = true) ∧ n ≠ ns := by
    intro n
    rw [← hmem]
    constructor
    · rintro ⟨a, h1, h2⟩
      rw [hl'] at h1
      simp only [Option.some.injEq] at h1
      rw [← ofStrs_inj' h1] at h2
      simpa using h2
    · exact fun h => ⟨_, hl', by simpa using h⟩
  have hpurge : ∀ n r, (⟨.purge n, r⟩ : Ev) ∈ t10 ↔ n = ns ∧ r = .ok () ∧ ns ∈ w.backends := by
    intro n r
    rcases exec_when.1 he10 with ⟨hns, h⟩ | ⟨hns, rfl, -⟩
    · obtain rfl := exec_call_ok.1 h
      rw [List.mem_singleton]
      constructor
      · intro h; cases h; exact ⟨rfl, rfl, hns⟩
      · rintro ⟨rfl, rfl, -⟩; rfl
    · simp [hns]
  have hno4 : ∀ n r, (⟨.purge n, r⟩ : Ev) ∉ t4 := fun n r h => by
    have := (ops_getOwnDeviceInformation M).exec he4 _ h
    cases this
  have hno2 : ∀ n r, (⟨.purge n, r⟩ : Ev) ∉ t2 := by
    intro n r h
    rcases exec_when.1 he2 with ⟨-, h'⟩ | ⟨-, rfl, -⟩
    · obtain rfl := exec_call_ok.1 h'
      cases List.mem_singleton.1 h
    · cases h
  have hall : ∀ n r, (⟨.purge n, r⟩ : Ev) ∈ (⟨.downloadList ns M.ownJid, .ok dl⟩ :: (t2 ++ (t4 ++
      ⟨.store (.devActive M.ownJid M.ownDev) (.ofBools (x.1.active.erase ns)), .ok u1⟩ ::
      ⟨.store (.devNamespaces M.ownJid M.ownDev) (.ofStrs (M.O.iter (setDiff x.1.namespaces [ns]))), .ok u2⟩ ::
      ⟨.getBackends, .ok w.backends⟩ :: ⟨.setBackends (setDiff w.backends [ns]), .ok u3⟩ :: (t10 ++ [⟨.deleteBundle ns M.ownDev, .ok ()⟩])))
      : List Ev) ↔ n = ns ∧ r = .ok () ∧ ns ∈ w.backends := by
    intro n r
    rw [← hpurge]
    constructor
    · intro h
      simp only [List.mem_cons, List.mem_append, hno2, hno4, false_or, List.not_mem_nil, or_false] at h
      rcases h with h | h | h | h | h | h | h
      all_goals first | exact h | (cases h; done)
    · intro h; simp [h]
  refine ⟨fun n => by rw [hback, hw10.2]; simp, ⟨?_, ?_⟩, fun n r h => ?_, ⟨_, ha', by simp [Dict.get_erase]⟩, ?_, fun n hn b => ?_, fun n hn => ?_, ?_⟩
  · rintro ⟨r, h⟩; exact ((hall ns r).1 h).2.2
  · exact fun h => ⟨.ok (), (hall _ _).2 ⟨rfl, rfl, h⟩⟩
  · exact ⟨((hall n r).1 h).1, ((hall n r).1 h).2.1⟩
  · rw [adv']; simp
  · rw [act]
    constructor
    · rintro ⟨a, h1, h2⟩
      rw [ha'] at h1
      simp only [Option.some.injEq] at h1
      rw [← ofBools_inj' h1, Dict.get_erase, if_neg (Ne.symm hn)] at h2
      exact h2
    · exact fun h => ⟨_, ha', by rw [Dict.get_erase, if_neg (Ne.symm hn)]; exact h⟩
  · rw [adv', adv]
    constructor
    · rintro ⟨⟨h1, h2⟩, -⟩
      obtain ⟨b, hb⟩ := Option.isSome_iff_exists.1 h2
      exact ⟨h1, b, (act _ _).2 hb⟩
    · rintro ⟨h1, b, h2⟩
      exact ⟨⟨h1, by rw [(act _ _).1 h2]; rfl⟩, hn⟩
  · intro k h1 h2
    rw [hdisk, hw10.1, Disk.upd_of_ne (h2 _).2, Disk.upd_of_ne h1, hL.disk.frame k h2, hw2.1]

/-- Purging "o" in the state after the first `create`, with this device on the list. -/
theorem C56_example : ∃ t w', Exec (purgeBackend Mgr.ex "o") t (.ok ()) ∧ Lib.Runs World.started t w' ∧ "o" ∈ World.started.backends ∧
    Advertises World.started.disk "me" 1 "o" ∧ w'.backends = ["n"] ∧ ¬ Advertises w'.disk "me" 1 "o" ∧ Activity w'.disk "me" 1 "n" true := by
  have h : (Friendly.genuine.run (purgeBackend Mgr.ex "o") World.started).2.1 = .ok () := by decide +kernel
  have he := h ▸ Friendly.genuine.exec (purgeBackend Mgr.ex "o") World.started
  have hr := Friendly.genuine.runs (purgeBackend Mgr.ex "o") World.started
  have hx := C56_effect Mgr.ex "o" _ _ _ he hr
  refine ⟨_, _, he, hr, by decide +kernel, ⟨["n", "o"], rfl, by simp⟩, by decide +kernel, hx.2.2.2.2.1,
    (hx.2.2.2.2.2.1 "n" (by decide) true).2 ⟨[("n", true), ("o", true)], rfl, rfl⟩⟩
end Verif
