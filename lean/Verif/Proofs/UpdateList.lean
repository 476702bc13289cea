import Verif.Proofs.LibLemmas
/-
What `update_device_list` does to the storage: on success it is exactly `Upd.target`, and at every earlier point each place
has its value from before or from `Upd.target`.
-/
namespace Verif

theorem Dict.get_set_ne {K V : Type} [DecidableEq K] {d : Dict K V} {k k' : K} {v : V} (h : k ≠ k') :
    (Dict.set d k v).get k' = d.get k' := by rw [Dict.get_set, if_neg h]

namespace Upd

def ints (v : Option JVal) : List Int := match rd chkInts v with | .ok l => l | .error _ => []
def strs (v : Option JVal) : List String := match rd chkStrs v with | .ok l => l | .error _ => []
def bools (v : Option JVal) : Dict String Bool := match rd chkBools v with | .ok l => l | .error _ => []
def optStr (v : Option JVal) : Option String := match rd chkOptStr v with | .ok l => l | .error _ => none

/-- The devices known before. -/
def old (m : Disk) (jid : Jid) : List DevId := dedup (ints (m (.devList jid)))

/-- The devices on the list that are not known yet. -/
def new (m : Disk) (jid : Jid) (dl : DevList) : List DevId := setDiff dl.keys (old m jid)

/-- The list after making sure that the own device is on it. -/
def eff (M : Mgr) (jid : Jid) (dl : DevList) (m : Disk) : DevList :=
  if jid = M.ownJid ∧ M.ownDev ∉ dl.keys then dl.set M.ownDev (optStr (m (.devLabel M.ownJid M.ownDev))) else dl

def activeAfter (ns : Ns) (entry : Option (Option String)) (nss : List Ns) (v : Option JVal) : Option JVal :=
  match entry with
  | some _ => if (bools v).get ns ≠ some true then some (.ofBools ((bools v).set ns true)) else v
  | none => if ns ∈ nss ∧ (bools v).get ns = some true then some (.ofBools ((bools v).set ns false)) else v

def labelAfter (entry : Option (Option String)) (v : Option JVal) : Option JVal :=
  match entry with
  | some l => if l ≠ none ∧ l ≠ optStr v then some (.ofOptStr l) else v
  | none => v

def nsAfter (M : Mgr) (ns : Ns) (entry : Option (Option String)) (v : Option JVal) : Option JVal :=
  match entry with
  | some _ => if ns ∉ dedup (strs v) then some (.ofStrs (M.O.iter (setAdd (dedup (strs v)) ns))) else v
  | none => v

/-- The storage after a successful update. -/
def target (M : Mgr) (ns : Ns) (jid : Jid) (dl : DevList) (m : Disk) : Disk := fun k =>
  match k with
  | .devActive j d =>
    if j = jid ∧ d ∈ new m jid dl then some (.ofBools [(ns, true)])
    else if j = jid ∧ d ∈ old m jid then activeAfter ns ((eff M jid dl m).get d) (dedup (strs (m (.devNamespaces j d)))) (m k)
    else m k
  | .devLabel j d =>
    if j = jid ∧ d ∈ new m jid dl then some (.ofOptStr (((eff M jid dl m).get d).getD none))
    else if j = jid ∧ d ∈ old m jid then labelAfter ((eff M jid dl m).get d) (m k)
    else m k
  | .devNamespaces j d =>
    if j = jid ∧ d ∈ new m jid dl then some (.ofStrs [ns])
    else if j = jid ∧ d ∈ old m jid then nsAfter M ns ((eff M jid dl m).get d) (m k)
    else m k
  | .devList j =>
    if j = jid ∧ (new m jid dl).length > 0 then some (.ofInts (M.O.iter (setUnion dl.keys (old m jid)))) else m k
  | k => m k

/-- The places of a device that an update may touch. -/
def Of (jid : Jid) (d : DevId) (k : Key) : Prop := k = .devActive jid d ∨ k = .devLabel jid d ∨ k = .devNamespaces jid d

/-- Everything apart from the storage is as before. -/
def Same (w w' : World) : Prop := w'.backends = w.backends ∧ w'.sync = w.sync ∧ w'.log = w.log

theorem Same.refl (w : World) : Same w w := ⟨rfl, rfl, rfl⟩
theorem Same.disk (w : World) (m : Disk) : Same w { w with disk := m } := ⟨rfl, rfl, rfl⟩
theorem Same.trans {a b c : World} (h1 : Same a b) (h2 : Same b c) : Same a c :=
  ⟨h2.1.trans h1.1, h2.2.1.trans h1.2.1, h2.2.2.trans h1.2.2⟩

/-- The places of device `d` have reached `T`, everything else is as before. -/
def Moved (T : Disk) (jid : Jid) (d : DevId) (w w' : World) : Prop :=
  Same w w' ∧ ∀ k, (Of jid d k → w'.disk k = T k) ∧ (¬ Of jid d k → w'.disk k = w.disk k)

/-- Some places of device `d` have reached `T`, everything else is as before. -/
def Moving (T : Disk) (jid : Jid) (d : DevId) (w w' : World) : Prop :=
  Same w w' ∧ ∀ k, w'.disk k = w.disk k ∨ (Of jid d k ∧ w'.disk k = T k)

theorem Moving.refl {T jid d w} : Moving T jid d w w := ⟨.refl w, fun _ => .inl rfl⟩

theorem Moving.upd {T : Disk} {jid d} {w w' : World} {k v} (h : Moving T jid d w w') (hk : Of jid d k) (hv : T k = v) :
    Moving T jid d w { w' with disk := w'.disk.upd k v } := by
  refine ⟨h.1.trans (.disk _ _), fun k' => ?_⟩
  by_cases hkk : k' = k
  · subst hkk; exact .inr ⟨hk, by simp [hv]⟩
  · simp only [Disk.upd_of_ne hkk]; exact h.2 k'

section parts
variable {M : Mgr} {ns : Ns} {jid : Jid} {dl dl' : DevList} {m : Disk} {d : DevId} {w : World}

theorem wp_addNewDevice {T : Disk} {l : Option String} (hd : dl'.get d = some l)
    (h1 : T (.devActive jid d) = some (.ofBools [(ns, true)])) (h2 : T (.devLabel jid d) = some (.ofOptStr l))
    (h3 : T (.devNamespaces jid d) = some (.ofStrs [ns])) :
    wp Lib (SM.addNewDevice ns jid dl' d) (ends (fun _ w' => Moved T jid d w w') (fun x w' => Fail x ∧ Moving T jid d w w')) w := by
  unfold SM.addNewDevice
  rw [ends_bind]
  refine Lib.store (fun x hx => ⟨hx, .refl⟩) ?_
  have s1 : Moving T jid d w _ := Moving.refl.upd (.inl rfl) h1
  rw [hd]
  dsimp only
  rw [ends_bind]
  refine Lib.store (fun x hx => ⟨hx, s1⟩) ?_
  have s2 := s1.upd (.inr (.inl rfl)) h2
  refine Lib.store (fun x hx => ⟨hx, s2⟩) ?_
  have s3 := s2.upd (.inr (.inr rfl)) h3
  refine ⟨s3.1, fun k => ⟨?_, fun hk => ?_⟩⟩
  · rintro (rfl | rfl | rfl)
    · simp [Disk.upd, h1]
    · simp [Disk.upd, h2]
    · simp [Disk.upd, h3]
  · rcases s3.2 k with h | h
    · exact h
    · exact absurd h.1 hk

/-- What a known device needs for its update not to raise an internal exception. -/
def DevReady (ns : Ns) (jid : Jid) (m : Disk) (listed : Bool) (d : DevId) : Prop :=
  ∃ nss act, rd chkStrs (m (.devNamespaces jid d)) = .ok nss ∧ rd chkBools (m (.devActive jid d)) = .ok act ∧
    (listed = true → ∃ lab, rd chkOptStr (m (.devLabel jid d)) = .ok lab) ∧ (listed = false → ns ∈ nss → act.get ns ≠ none)

theorem moved_of {T : Disk} {w' : World} (h : Moving T jid d w w') (h1 : w'.disk (.devActive jid d) = T (.devActive jid d))
    (h2 : w'.disk (.devLabel jid d) = T (.devLabel jid d)) (h3 : w'.disk (.devNamespaces jid d) = T (.devNamespaces jid d)) :
    Moved T jid d w w' := by
  refine ⟨h.1, fun k => ⟨?_, fun hk => ?_⟩⟩
  · rintro (rfl | rfl | rfl) <;> assumption
  · rcases h.2 k with h | h
    · exact h
    · exact absurd h.1 hk

theorem wp_updateKnownDevice {T : Disk}
    (h1 : T (.devActive jid d) = activeAfter ns (dl'.get d) (dedup (strs (w.disk (.devNamespaces jid d)))) (w.disk (.devActive jid d)))
    (h2 : T (.devLabel jid d) = labelAfter (dl'.get d) (w.disk (.devLabel jid d)))
    (h3 : T (.devNamespaces jid d) = nsAfter M ns (dl'.get d) (w.disk (.devNamespaces jid d))) :
    wp Lib (SM.updateKnownDevice M ns jid dl' d) (ends
      (fun _ w' => DevReady ns jid w.disk (dl'.get d).isSome d ∧ Moved T jid d w w') (fun x w' =>
      (DevReady ns jid w.disk (dl'.get d).isSome d → Fail x) ∧ Moving T jid d w w')) w := by
  unfold SM.updateKnownDevice
  refine Lib.typedJust (f := chkStrs) (fun x hx => ⟨fun _ => hx, .refl⟩) (fun e he => ⟨?_, .refl⟩) fun nss hn => ?_
  · rintro ⟨_, _, h, _⟩; rw [h] at he; cases he
  refine Lib.typedJust (f := chkBools) (fun x hx => ⟨fun _ => hx, .refl⟩) (fun e he => ⟨?_, .refl⟩) fun act ha => ?_
  · rintro ⟨_, _, _, h, _⟩; rw [h] at he; cases he
  have hn' : strs (w.disk (.devNamespaces jid d)) = nss := by simp [strs, hn]
  have ha' : bools (w.disk (.devActive jid d)) = act := by simp [bools, ha]
  cases hd : dl'.get d with
  | none =>
    dsimp only
    unfold SM.updateUnlisted
    simp only [hd, activeAfter, labelAfter, nsAfter, hn', ha'] at h1 h2 h3
    refine ends_when (fun hmem => ?_) fun hmem => ?_
    · cases hg : act.get ns with
      | none =>
        dsimp only
        refine ⟨?_, .refl⟩
        rintro ⟨nss', act', h4, h5, _, h6⟩
        rw [h4] at hn; cases hn
        rw [h5] at ha; cases ha
        exact absurd hg (h6 rfl (mem_dedup.1 hmem))
      | some b =>
        cases b with
        | false =>
          dsimp only
          simp only [hg] at h1
          simp at h1
          exact ⟨⟨nss, act, hn, ha, nofun, fun _ _ => by simp [hg]⟩, moved_of .refl h1.symm h2.symm h3.symm⟩
        | true =>
          dsimp only
          rw [if_pos ⟨hmem, hg⟩] at h1
          refine Lib.store (fun x hx => ⟨fun _ => hx, .refl⟩) ?_
          have s1 : Moving T jid d w _ := Moving.refl.upd (.inl rfl) h1
          exact ⟨⟨nss, act, hn, ha, nofun, fun _ _ => by simp [hg]⟩,
            moved_of s1 (by simp [h1]) (by simp [Disk.upd, h2]) (by simp [Disk.upd, h3])⟩
    · rw [if_neg (fun h => hmem h.1)] at h1
      exact ⟨⟨nss, act, hn, ha, nofun, fun _ h => absurd (mem_dedup.2 h) hmem⟩, moved_of .refl h1.symm h2.symm h3.symm⟩
  | some lab =>
    dsimp only
    unfold SM.updateListed
    simp only [hd, activeAfter, labelAfter, nsAfter, hn', ha'] at h1 h2 h3
    rw [ends_bind]
    refine ends_mono (Q := fun _ w' => Moving T jid d w w' ∧ w'.disk (.devActive jid d) = T (.devActive jid d) ∧
        w'.disk (.devLabel jid d) = w.disk (.devLabel jid d) ∧ w'.disk (.devNamespaces jid d) = w.disk (.devNamespaces jid d))
      (ends_when (fun hc => ?_) fun hc => ?_) ?_ (fun _ _ h => h)
    · rw [if_pos hc] at h1
      refine Lib.store (fun x hx => ⟨fun _ => hx, .refl⟩) ?_
      exact ⟨Moving.refl.upd (.inl rfl) h1, by simp [h1], by simp [Disk.upd], by simp [Disk.upd]⟩
    · rw [if_neg hc] at h1
      exact ⟨.refl, h1.symm, rfl, rfl⟩
    rintro _ w' ⟨s, e1, e2, e3⟩
    refine Lib.typedJust (f := chkOptStr) (fun x hx => ⟨fun _ => hx, s⟩) (fun e he => ⟨?_, s⟩) fun l hl => ?_
    · rintro ⟨_, _, _, _, h, _⟩
      obtain ⟨_, h⟩ := h rfl
      rw [e2, h] at he; cases he
    have hready : DevReady ns jid w.disk (some lab).isSome d := ⟨nss, act, hn, ha, fun _ => ⟨l, by rw [← e2]; exact hl⟩, nofun⟩
    have hl' : optStr (w.disk (.devLabel jid d)) = l := by rw [e2] at hl; simp [optStr, hl]
    rw [hl'] at h2
    rw [ends_bind]
    refine ends_mono (Q := fun _ w' => Moving T jid d w w' ∧ w'.disk (.devActive jid d) = T (.devActive jid d) ∧
        w'.disk (.devLabel jid d) = T (.devLabel jid d) ∧ w'.disk (.devNamespaces jid d) = w.disk (.devNamespaces jid d))
      (ends_when (fun hc => ?_) fun hc => ?_) ?_ (fun _ _ h => h)
    · rw [if_pos hc] at h2
      refine Lib.store (fun x hx => ⟨fun _ => hx, s⟩) ?_
      exact ⟨s.upd (.inr (.inl rfl)) h2, by simp [Disk.upd, e1], by simp [h2], by simp [Disk.upd, e3]⟩
    · rw [if_neg hc] at h2
      exact ⟨s, e1, by rw [e2, h2], e3⟩
    rintro _ w'' ⟨s, e1, e2, e3⟩
    refine ends_when (fun hc => ?_) fun hc => ?_
    · rw [if_pos hc] at h3
      refine Lib.store (fun x hx => ⟨fun _ => hx, s⟩) ?_
      exact ⟨hready, moved_of (s.upd (.inr (.inr rfl)) h3) (by simp [Disk.upd, e1]) (by simp [Disk.upd, e2]) (by simp [h3])⟩
    · rw [if_neg hc] at h3
      exact ⟨hready, moved_of s e1 e2 (by rw [e3, h3])⟩

theorem Of.unique {d d' : DevId} {k : Key} (h : Of jid d k) (h' : Of jid d' k) : d = d' := by
  rcases h with rfl | rfl | rfl <;> rcases h' with h | h | h <;> cases h <;> rfl

/-- The devices `ds` have reached `T`, everything else is as before. -/
def Phase (T : Disk) (jid : Jid) (ds : List DevId) (w w' : World) : Prop :=
  Same w w' ∧ ∀ k, (∀ d ∈ ds, Of jid d k → w'.disk k = T k) ∧ ((∀ d ∈ ds, ¬ Of jid d k) → w'.disk k = w.disk k)

/-- Some places of devices of `jid` have reached `T`, everything else is as before. -/
def Mid (T : Disk) (jid : Jid) (w w' : World) : Prop :=
  Same w w' ∧ ∀ k, w'.disk k = w.disk k ∨ ((∃ d, Of jid d k) ∧ w'.disk k = T k)

theorem Phase.nil {T : Disk} : Phase T jid [] w w := ⟨.refl w, fun _ => ⟨nofun, fun _ => rfl⟩⟩

theorem Phase.mid {T : Disk} {ds} {w' : World} (h : Phase T jid ds w w') : Mid T jid w w' := by
  refine ⟨h.1, fun k => ?_⟩
  by_cases hk : ∃ d ∈ ds, Of jid d k
  · obtain ⟨d, hd, hk⟩ := hk
    exact .inr ⟨⟨d, hk⟩, (h.2 k).1 d hd hk⟩
  · exact .inl ((h.2 k).2 fun d hd hk' => hk ⟨d, hd, hk'⟩)

theorem Mid.moving {T : Disk} {w' w'' : World} (h : Mid T jid w w') (h' : Moving T jid d w' w'') : Mid T jid w w'' := by
  refine ⟨h.1.trans h'.1, fun k => ?_⟩
  rcases h'.2 k with e | ⟨e, e'⟩
  · rw [e]; exact h.2 k
  · exact .inr ⟨⟨d, e⟩, e'⟩

theorem Phase.step {T : Disk} {ds} {w' w'' : World} (h : Phase T jid ds w w') (h' : Moved T jid d w' w'') :
    Phase T jid (ds ++ [d]) w w'' := by
  refine ⟨h.1.trans h'.1, fun k => ⟨fun d' hd' hk => ?_, fun hk => ?_⟩⟩
  · by_cases e : Of jid d k
    · exact (h'.2 k).1 e
    · rw [(h'.2 k).2 e]
      rcases List.mem_append.1 hd' with h1 | h1
      · exact (h.2 k).1 d' h1 hk
      · rw [List.mem_singleton.1 h1] at hk; exact absurd hk e
  · rw [(h'.2 k).2 (hk d (by simp)), (h.2 k).2 fun d' hd' => hk d' (by simp [hd'])]

theorem eff_get_of_mem (h : d ∈ dl.keys) : (eff M jid dl m).get d = dl.get d := by
  unfold eff
  split
  · rename_i hc
    rw [Dict.get_set_ne]
    rintro rfl
    exact hc.2 h
  · rfl

/-- What the stored data needs to look like for an update not to raise an internal exception. -/
def Ready (M : Mgr) (ns : Ns) (jid : Jid) (dl : DevList) (m : Disk) : Prop :=
  (∀ v, m (.devList jid) = some v → ∃ l, chkInts v = .ok l) ∧
  (jid = M.ownJid → M.ownDev ∉ dl.keys → ∃ lab, rd chkOptStr (m (.devLabel M.ownJid M.ownDev)) = .ok lab) ∧
  ∀ d ∈ old m jid, DevReady ns jid m ((eff M jid dl m).get d).isSome d

/-- The uploads of an update: the own device is added to its own list if it is missing. -/
def uploads (M : Mgr) (ns : Ns) (jid : Jid) (dl : DevList) (m : Disk) : List Ev :=
  if jid = M.ownJid ∧ M.ownDev ∉ dl.keys then [⟨.uploadList ns (eff M jid dl m), .ok ()⟩] else []

/-- The state of an update that ended early. -/
def Part (M : Mgr) (ns : Ns) (jid : Jid) (dl : DevList) (w w' : World) : Prop :=
  (w'.backends = w.backends ∧ w'.sync = w.sync) ∧
  (w'.log = w.log ∨ ∃ r, w'.log = w.log ++ [⟨.uploadList ns (eff M jid dl w.disk), r⟩]) ∧
  ∀ k, w'.disk k = w.disk k ∨ ((∃ d, Of jid d k) ∧ w'.disk k = target M ns jid dl w.disk k)

/-- The state of a successful update. -/
def Done (M : Mgr) (ns : Ns) (jid : Jid) (dl : DevList) (w w' : World) : Prop :=
  ns ∈ w.backends ∧ Ready M ns jid dl w.disk ∧ (w'.backends = w.backends ∧ w'.sync = w.sync) ∧
  w'.log = w.log ++ uploads M ns jid dl w.disk ∧ w'.disk = target M ns jid dl w.disk

theorem Part.refl : Part M ns jid dl w w := ⟨⟨rfl, rfl⟩, .inl rfl, fun _ => .inl rfl⟩

theorem wp_ensureOwnListed (hns : ns ∈ w.backends) :
    wp Lib (SM.ensureOwnListed M ns jid dl) (ends
      (fun dl' w' => (jid = M.ownJid → M.ownDev ∉ dl.keys → ∃ lab, rd chkOptStr (w.disk (.devLabel M.ownJid M.ownDev)) = .ok lab) ∧
        dl' = eff M jid dl w.disk ∧ w' = { w with log := w.log ++ uploads M ns jid dl w.disk })
      (fun x w' => (Ready M ns jid dl w.disk → Clean x) ∧ Part M ns jid dl w w')) w := by
  unfold SM.ensureOwnListed
  split
  · rename_i hj
    rw [ends_bind]
    refine Lib.getBackends ⟨fun _ => trivial, .refl⟩ ?_
    split
    · rename_i hc
      have hc' : jid = M.ownJid ∧ M.ownDev ∉ dl.keys := ⟨hj, hc.2⟩
      refine Lib.typedJust (f := chkOptStr) (fun x hx => ⟨fun _ => hx.clean, .refl⟩) (fun e he => ⟨fun hr => ?_, .refl⟩) fun lab hl => ?_
      · obtain ⟨lab, hl⟩ := hr.2.1 hj hc.2
        rw [hl] at he; cases he
      have he : eff M jid dl w.disk = dl.set M.ownDev lab := by
        unfold eff; rw [if_pos hc']; simp [optStr, hl]
      rw [ends_bind, ← he]
      refine Lib.ext rfl ⟨fun _ => trivial, .refl⟩ (fun e h => ⟨fun _ => h, ⟨rfl, rfl⟩, .inr ⟨_, rfl⟩, fun _ => .inl rfl⟩) fun _ => ?_
      refine ⟨fun _ _ => ⟨lab, hl⟩, rfl, ?_⟩
      unfold uploads
      rw [if_pos hc']; rfl
    · rename_i hc
      have hc' : ¬ (jid = M.ownJid ∧ M.ownDev ∉ dl.keys) := fun h => hc ⟨hns, h.2⟩
      refine ⟨fun h1 h2 => absurd ⟨h1, h2⟩ hc', by unfold eff; rw [if_neg hc'], ?_⟩
      unfold uploads
      rw [if_neg hc']; simp
  · rename_i hj
    have hc' : ¬ (jid = M.ownJid ∧ M.ownDev ∉ dl.keys) := fun h => hj h.1
    refine ⟨fun h1 h2 => absurd ⟨h1, h2⟩ hc', by unfold eff; rw [if_neg hc'], ?_⟩
    unfold uploads
    rw [if_neg hc']; simp

theorem wp_updateDeviceList :
    wp Lib (SM.updateDeviceList M ns jid dl) (ends (fun _ w' => Done M ns jid dl w w')
      (fun x w' => (Ready M ns jid dl w.disk → Clean x) ∧ Part M ns jid dl w w')) w := by
  unfold SM.updateDeviceList
  rw [ends_bind]
  refine Lib.getBackends ⟨fun _ => trivial, .refl⟩ ?_
  split
  · exact ⟨fun _ => rfl, .refl⟩
  rename_i hns
  have hns := Decidable.not_not.1 hns
  rw [ends_bind]
  refine Lib.typed (f := chkInts) (fun x hx => ⟨fun _ => hx.clean, .refl⟩) (fun v e hv he => ⟨fun hr => ?_, .refl⟩) ?_ ?_
  · obtain ⟨l, hl⟩ := hr.1 v hv
    rw [hl] at he; cases he
  all_goals
    first
    | (intro hv
       have ho : old w.disk jid = dedup (Maybe.maybe none []) := by simp [old, ints, hv, rd, Maybe.maybe]
       have hlist0 : ∀ v, w.disk (.devList jid) = some v → ∃ l, chkInts v = .ok l := by simp [hv]
       generalize (none : Option (List Int)) = b at ho ⊢)
    | (intro v b hv hb
       have ho : old w.disk jid = dedup (Maybe.maybe (some b) []) := by simp [old, ints, hv, rd, Maybe.maybe, hb]
       have hlist0 : ∀ v, w.disk (.devList jid) = some v → ∃ l, chkInts v = .ok l := by
         intro v' hv'; rw [hv] at hv'; cases hv'; exact ⟨_, hb⟩
       generalize (some b : Option (List Int)) = b at ho ⊢)
    rw [← ho]
    clear hv ho
    dsimp only
    rw [ends_bind]
    refine ends_mono (wp_ensureOwnListed hns) ?_ (fun _ _ h => h)
    rintro dl' w1 ⟨hown, rfl, rfl⟩
    rw [ends_bind]
    have hT : ∀ {x : Option Exn} {w' : World}, Clean x → Mid (target M ns jid dl w.disk) jid
        { w with log := w.log ++ uploads M ns jid dl w.disk } w' →
        (Ready M ns jid dl w.disk → Clean x) ∧ Part M ns jid dl w w' := by
      intro x w' hx h
      refine ⟨fun _ => hx, ⟨h.1.1, h.1.2.1⟩, ?_, h.2⟩
      rw [h.1.2.2]
      unfold uploads
      split
      · exact .inr ⟨_, rfl⟩
      · exact .inl (by simp)
    refine ends_forEach (fun done _ w' => Phase (target M ns jid dl w.disk) jid done
        { w with log := w.log ++ uploads M ns jid dl w.disk } w') .nil ?_ ?_
    · intro done d rest w' hx hp
      have hd : d ∈ new w.disk jid dl := by
        have : d ∈ M.O.iter (setDiff dl.keys (old w.disk jid)) := by rw [hx]; simp
        simpa [new] using this
      have hd1 : d ∈ dl.keys := by simp only [new, mem_setDiff] at hd; exact hd.1
      obtain ⟨l, hl⟩ : ∃ l, (eff M jid dl w.disk).get d = some l := by
        rw [eff_get_of_mem hd1]
        exact Option.isSome_iff_exists.1 (Dict.mem_keys.1 hd1)
      refine ends_mono (wp_addNewDevice (T := target M ns jid dl w.disk) hl ?_ ?_ ?_) (fun _ w'' h => hp.step h)
        (fun x w'' h => hT h.1.clean (hp.mid.moving h.2))
      · simp [target, hd]
      · simp [target, hd, hl]
      · simp [target, hd]
    intro w2 hp2
    rw [ends_bind]
    refine ends_forEach (fun done _ w' => (∀ d ∈ done, DevReady ns jid w.disk ((eff M jid dl w.disk).get d).isSome d) ∧
        Phase (target M ns jid dl w.disk) jid (M.O.iter (new w.disk jid dl) ++ done)
        { w with log := w.log ++ uploads M ns jid dl w.disk } w') ⟨nofun, by simpa [new] using hp2⟩ ?_ ?_
    · rintro done d rest w' hx ⟨hdone, hp⟩
      have hd : d ∈ old w.disk jid := by
        have : d ∈ M.O.iter (old w.disk jid) := by rw [hx]; simp
        simpa using this
      have hnd : (done ++ d :: rest).Nodup := by rw [← hx]; simp [old, nodup_dedup]
      have hdn : d ∉ new w.disk jid dl := fun h => by simp only [new, mem_setDiff] at h; exact h.2 hd
      have hsame : ∀ k, Of jid d k → w'.disk k = w.disk k := by
        intro k hk
        refine (hp.2 k).2 fun d' hd' hk' => ?_
        cases Of.unique hk hk'
        rcases List.mem_append.1 hd' with h | h
        · exact hdn (by simpa using h)
        · exact (List.nodup_append.1 hnd).2.2 d h d (by simp) rfl
      have e1 := hsame _ (.inl rfl)
      have e2 := hsame _ (.inr (.inl rfl))
      have e3 := hsame _ (.inr (.inr rfl))
      refine ends_mono (wp_updateKnownDevice (T := target M ns jid dl w.disk) (dl' := eff M jid dl w.disk) (w := w') ?_ ?_ ?_)
        (fun _ w'' h => ⟨?_, by rw [← List.append_assoc]; exact hp.step h.2⟩) ?_
      · simp [target, hd, hdn, e1, e3]
      · simp [target, hd, hdn, e2]
      · simp [target, hd, hdn, e3]
      · intro d' hd'
        rcases List.mem_append.1 hd' with hd' | hd'
        · exact hdone d' hd'
        · cases List.mem_singleton.1 hd'
          obtain ⟨nss, act, h1, h2, h3, h4⟩ := h.1
          exact ⟨nss, act, by rw [← e3]; exact h1, by rw [← e1]; exact h2, by rw [← e2]; exact h3, h4⟩
      · intro x w'' h
        refine ⟨fun hr => ?_, (hT (x := none) trivial (hp.mid.moving h.2)).2⟩
        refine (h.1 ?_).clean
        obtain ⟨nss, act, h1, h2, h3, h4⟩ := hr.2.2 d hd
        exact ⟨nss, act, by rw [e3]; exact h1, by rw [e1]; exact h2, by rw [e2]; exact h3, h4⟩
    rintro w3 ⟨hdone, hp3⟩
    have hready : Ready M ns jid dl w.disk := ⟨hlist0, hown, fun d hd => hdone d (by simpa using hd)⟩
    have hdisk : ∀ k, k ≠ .devList jid → w3.disk k = target M ns jid dl w.disk k := by
      intro k hk
      by_cases hex : ∃ d ∈ M.O.iter (new w.disk jid dl) ++ M.O.iter (old w.disk jid), Of jid d k
      · obtain ⟨d, hd, hk'⟩ := hex
        exact (hp3.2 k).1 d hd hk'
      · rw [(hp3.2 k).2 fun d hd hk' => hex ⟨d, hd, hk'⟩]
        have hno : ∀ d, Of jid d k → d ∉ new w.disk jid dl ∧ d ∉ old w.disk jid := by
          intro d hk'
          refine ⟨fun h => hex ⟨d, by simp [h], hk'⟩, fun h => hex ⟨d, by simp [h], hk'⟩⟩
        cases k with
        | devActive j d =>
          unfold target
          dsimp only
          rw [if_neg, if_neg]
          · rintro ⟨rfl, h⟩; exact (hno d (.inl rfl)).2 h
          · rintro ⟨rfl, h⟩; exact (hno d (.inl rfl)).1 h
        | devLabel j d =>
          unfold target
          dsimp only
          rw [if_neg, if_neg]
          · rintro ⟨rfl, h⟩; exact (hno d (.inr (.inl rfl))).2 h
          · rintro ⟨rfl, h⟩; exact (hno d (.inr (.inl rfl))).1 h
        | devNamespaces j d =>
          unfold target
          dsimp only
          rw [if_neg, if_neg]
          · rintro ⟨rfl, h⟩; exact (hno d (.inr (.inr rfl))).2 h
          · rintro ⟨rfl, h⟩; exact (hno d (.inr (.inr rfl))).1 h
        | devList j =>
          unfold target
          dsimp only
          rw [if_neg]
          rintro ⟨rfl, _⟩; exact hk rfl
        | _ => rfl
    have hlist : w3.disk (.devList jid) = w.disk (.devList jid) := by
      refine (hp3.2 _).2 fun d _ h => ?_
      rcases h with h | h | h <;> cases h
    refine ends_when (fun hc => ?_) fun hc => ?_
    · refine Lib.store (fun x hx => hT hx.clean hp3.mid) ?_
      refine ⟨hns, hready, ⟨hp3.1.1, hp3.1.2.1⟩, hp3.1.2.2, ?_⟩
      funext k
      by_cases hk : k = .devList jid
      · subst hk
        simp [target, new, hc]
      · exact (Disk.upd_of_ne hk).trans (hdisk k hk)
    · refine ⟨hns, hready, ⟨hp3.1.1, hp3.1.2.1⟩, hp3.1.2.2, ?_⟩
      funext k
      by_cases hk : k = .devList jid
      · subst hk
        rw [hlist]
        unfold target
        dsimp only
        rw [if_neg]
        rintro ⟨_, h⟩; exact hc h
      · exact hdisk k hk

end parts

end Upd
end Verif
