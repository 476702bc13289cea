import Verif.Proofs.Trace
import Verif.Spec.Trace
/-
What `get_device_information` returns, for arbitrary answers of storage and server.
-/
namespace Verif
namespace SM
open Spec
variable {φ : Ev → Prop} {M : Mgr} {h : List Ev}

theorem trace_fetchIdentityKey (jid : Jid) (d : DevId) (nss : List Ns) :
    wp (Rec φ) (fetchIdentityKey jid d nss) (ends (fun o h' => (∃ t, h' = h ++ t) ∧
      (∀ b, o = some b → ∃ ns ∈ nss, Downloaded h' ns jid d b) ∧
      (o = none → ∀ ns ∈ nss, (⟨.downloadBundle ns jid d, .error .bundleDownloadFailed⟩ : Ev) ∈ h' ∨
        (⟨.downloadBundle ns jid d, .error .bundleNotFound⟩ : Ev) ∈ h')) fun _ h' => ∃ t, h' = h ++ t) h := by
  induction nss generalizing h with
  | nil => exact ⟨⟨[], by simp⟩, nofun, by simp⟩
  | cons ns nss ih =>
    unfold fetchIdentityKey
    rw [wp_tryElse]
    refine wp_perform.2 ⟨⟨[], by simp⟩, fun b _ => ?_, fun e _ => ?_⟩
    · simp only [split3_ok, Rec.next_eq]
      rw [ends_bind]
      refine Rec.call ⟨_, rfl⟩ (fun _ _ => ?_) fun e _ => ⟨_, List.append_assoc ..⟩
      refine ⟨⟨_, List.append_assoc ..⟩, ?_, nofun⟩
      rintro _ ⟨⟩
      exact ⟨ns, by simp, by simp [Downloaded]⟩
    · simp only [split3_raised, Rec.next_eq]
      split
      · refine ends_mono (ih (h := h ++ [⟨.downloadBundle ns jid d, .error e⟩])) ?_ ?_
        · rename_i hor
          rintro o _ ⟨⟨t, rfl⟩, hb, hn⟩
          refine ⟨⟨_, List.append_assoc ..⟩, fun b hb' => ?_, fun ho n hm => ?_⟩
          · obtain ⟨n, hn, h'⟩ := hb b hb'
            exact ⟨n, by simp [hn], h'⟩
          · rcases List.mem_cons.1 hm with rfl | hm
            · rcases hor with rfl | rfl
              · exact .inl (by simp)
              · exact .inr (by simp)
            · exact hn ho n hm
        · rintro _ _ ⟨t, rfl⟩
          exact ⟨_, List.append_assoc ..⟩
      · exact ⟨_, rfl⟩

/-- An identity key is loaded, or that of a downloaded bundle. -/
theorem trace_identityKeyOf (jid : Jid) (d : DevId) (nss : List Ns) :
    wp (Rec φ) (identityKeyOf M jid d nss) (ends (fun o h' => (∃ t, h' = h ++ t) ∧
      (∀ ik, o = some (ik, none) → ∃ s, Loaded h' (.devIdentityKey jid d) (.str s) ∧ Base64.decode s = some ik) ∧
      (∀ ik b, o = some (ik, some b) → b.identityKey = ik ∧ ∃ ns ∈ nss, Downloaded h' ns jid d b) ∧
      (o = none → ((⟨.load (.devIdentityKey jid d), .ok none⟩ : Ev) ∈ h' ∨ (⟨.load (.devIdentityKey jid d), .error .nothingException⟩ : Ev) ∈ h') ∧
        ∀ ns ∈ nss, (⟨.downloadBundle ns jid d, .error .bundleDownloadFailed⟩ : Ev) ∈ h' ∨
          (⟨.downloadBundle ns jid d, .error .bundleNotFound⟩ : Ev) ∈ h'))
      fun _ _ => True) h := by
  unfold identityKeyOf
  rw [wp_onNothing]
  unfold Sto.loadBytes
  rw [wp_bind, wp_bind]
  refine wp_perform.2 ⟨trivial, fun v _ => ?_, fun e _ => ?_⟩
  · simp only [andThen_ok, Rec.next_eq]
    rw [wp_fmap]
    cases v with
    | none =>
      simp only [fmapRes, andThen_ok]
      rw [wp_bind, wp_fromJust]
      refine ⟨nofun, fun _ => ?_⟩
      simp only [andThen_raised, handled_raised]
      refine ⟨fun _ => ?_, fun h => absurd rfl h⟩
      rw [ends_bind]
      refine ends_mono (trace_fetchIdentityKey jid d _) ?_ fun _ _ _ => trivial
      rintro o _ ⟨⟨t, rfl⟩, hb, hn⟩
      cases o with
      | none => exact ⟨⟨_, List.append_assoc ..⟩, nofun, nofun, fun _ => ⟨.inl (by simp), fun ns hns => hn rfl ns (by simpa using hns)⟩⟩
      | some b =>
        refine ⟨⟨_, List.append_assoc ..⟩, nofun, ?_, nofun⟩
        rintro _ _ ⟨⟩
        obtain ⟨ns, hn, h'⟩ := hb b rfl
        exact ⟨rfl, ns, by simpa using hn, h'⟩
    | some v =>
      simp only [fmapRes]
      cases hf : checkBytes v with
      | error e =>
        simp only [andThen_raised, handled_raised]
        refine ⟨?_, fun _ => trivial⟩
        rintro rfl
        unfold checkBytes at hf
        split at hf
        · split at hf <;> cases hf
        · cases hf
      | ok ik =>
        simp only [andThen_ok]
        rw [wp_bind, wp_fromJust]
        refine ⟨?_, nofun⟩
        rintro _ ⟨⟩
        refine ⟨⟨_, rfl⟩, ?_, nofun, nofun⟩
        rintro _ ⟨⟩
        unfold checkBytes at hf
        split at hf
        · split at hf
          · cases hf; exact ⟨_, List.mem_append_right _ (List.mem_singleton.2 rfl), by assumption⟩
          · cases hf
        · cases hf
  · simp only [andThen_raised, handled_raised]
    refine ⟨?_, fun _ => trivial⟩
    rintro rfl
    rw [ends_bind]
    refine ends_mono (trace_fetchIdentityKey jid d _) ?_ fun _ _ _ => trivial
    rintro o _ ⟨⟨t, rfl⟩, hb, hn⟩
    cases o with
    | none => exact ⟨⟨_, List.append_assoc ..⟩, nofun, nofun, fun _ => ⟨.inr (by simp [Rec.next_eq]), fun ns hns => hn rfl ns (by simpa using hns)⟩⟩
    | some b =>
      refine ⟨⟨_, List.append_assoc ..⟩, nofun, ?_, nofun⟩
      rintro _ _ ⟨⟩
      obtain ⟨ns, hn, h'⟩ := hb b rfl
      exact ⟨rfl, ns, by simpa using hn, h'⟩

theorem trace_deviceInformation (jid : Jid) (d : DevId) :
    wp (Rec φ) (deviceInformation M jid d) (ends (fun o h' => (∃ t, h' = h ++ t) ∧
      (o = none → Keyless h' jid d) ∧
      ∀ dev b, o = some (dev, b) → dev.bareJid = jid ∧ dev.deviceId = d ∧ Seen M.undecided h' dev ∧
        ∀ x, b = some x → x.identityKey = dev.identityKey ∧ ∃ ns, Downloaded h' ns jid d x) fun _ _ => True) h := by
  unfold deviceInformation
  refine Rec.typedJust (f := chkStrs) (fun _ _ => trivial) fun v nss hv _ => ?_
  cases strs_of_check hv
  rw [ends_bind]
  refine ends_mono (trace_identityKeyOf jid d _) ?_ fun _ _ _ => trivial
  rintro o _ ⟨⟨t1, rfl⟩, h1, h2, h3⟩
  cases o with
  | none =>
    obtain ⟨h4, h5⟩ := h3 rfl
    exact ⟨⟨_, List.append_assoc ..⟩, fun _ => ⟨h4, nss, by simp [Loaded], fun ns hns => h5 ns (by simpa using hns)⟩, nofun⟩
  | some x =>
    obtain ⟨ik, bundle⟩ := x
    refine Rec.typedJust (f := chkBools) (fun _ _ => trivial) fun v a hv _ => ?_
    cases bools_of_check hv
    refine Rec.typedJust (f := chkOptStr) (fun _ _ => trivial) fun v label hv _ => ?_
    cases optStr_of_check hv
    rw [ends_bind]
    have key : ∀ (e : Ev) (lvl : String) (he : (e = ⟨.load (.trust jid ik), .ok (some (.str lvl))⟩) ∨
        (e = ⟨.load (.trust jid ik), .ok none⟩ ∧ lvl = M.undecided)), ∀ h0 : List Ev, (h0 = h ++ [⟨.load (.devNamespaces jid d), .ok (some (.ofStrs nss))⟩] ++ t1 ++
          [⟨.load (.devActive jid d), .ok (some (.ofBools a))⟩] ++ [⟨.load (.devLabel jid d), .ok (some (.ofOptStr label))⟩] ++ [e]) →
        wp (Rec φ) (do
          let namespaces ← repairNamespaces M jid d (dedup nss) a
          pure (some (⟨namespaces, a, jid, d, ik, lvl, label⟩, bundle)))
          (ends (fun o h' => (∃ t, h' = h ++ t) ∧
      (o = none → Keyless h' jid d) ∧
      ∀ dev b, o = some (dev, b) → dev.bareJid = jid ∧ dev.deviceId = d ∧ Seen M.undecided h' dev ∧
        ∀ x, b = some x → x.identityKey = dev.identityKey ∧ ∃ ns, Downloaded h' ns jid d x) fun _ _ => True) h0 := by
      rintro e lvl he h0 rfl
      have fin : ∀ (nss' : List Ns) (t : List Ev), nss'.Nodup → (∀ ns, ns ∈ nss' ↔ ns ∈ nss ∧ (a.get ns).isSome = true) →
          (fun (o : Option (DeviceInfo × Option Bundle)) h' => (∃ t, h' = h ++ t) ∧
            (o = none → Keyless h' jid d) ∧
            ∀ dev b, o = some (dev, b) → dev.bareJid = jid ∧ dev.deviceId = d ∧ Seen M.undecided h' dev ∧
              ∀ x, b = some x → x.identityKey = dev.identityKey ∧ ∃ ns, Downloaded h' ns jid d x)
          (some (⟨nss', a, jid, d, ik, lvl, label⟩, bundle))
          (h ++ [⟨.load (.devNamespaces jid d), .ok (some (.ofStrs nss))⟩] ++ t1 ++
          [⟨.load (.devActive jid d), .ok (some (.ofBools a))⟩] ++ [⟨.load (.devLabel jid d), .ok (some (.ofOptStr label))⟩] ++ [e] ++ t) := by
        intro nss' t hnd hm
        refine ⟨⟨_, by simp only [List.append_assoc]; rfl⟩, nofun, ?_⟩
        rintro _ _ ⟨⟩
        refine ⟨rfl, rfl, ⟨⟨nss, by simp [Loaded], hm, ?_⟩, hnd, by simp [Loaded], by simp [Loaded], ?_⟩, ?_⟩
        · cases bundle with
          | none =>
            obtain ⟨s, hs, hd⟩ := h1 ik rfl
            exact .inl ⟨s, by unfold Loaded at hs ⊢; simp only [List.mem_append] at hs ⊢; grind, hd⟩
          | some b =>
            obtain ⟨hb, ns, hns, hd⟩ := h2 ik b rfl
            exact .inr ⟨ns, b, by simpa using hns, by unfold Downloaded at hd ⊢; simp only [List.mem_append] at hd ⊢; grind, hb⟩
        · rcases he with rfl | ⟨rfl, rfl⟩
          · exact .inl (by simp [Loaded])
          · exact .inr ⟨by simp, rfl⟩
        · rintro x rfl
          obtain ⟨hb, ns, hns, hd⟩ := h2 ik x rfl
          exact ⟨hb, ns, by unfold Downloaded at hd ⊢; simp only [List.mem_append] at hd ⊢; grind⟩
      unfold repairNamespaces
      split
      · rw [ends_bind, ends_bind]
        refine Rec.call trivial (fun _ _ => ?_) fun _ _ => trivial
        refine fin _ _ ((nodup_dedup nss).sublist List.filter_sublist) fun ns => ?_
        simp
      · rename_i hany
        rw [ends_bind]
        have := fin (dedup nss) [] (nodup_dedup nss) (fun ns => by
          simp only [mem_dedup]
          refine ⟨fun hn => ⟨hn, ?_⟩, fun hn => hn.1⟩
          simp only [List.any_eq_true, mem_dedup, not_exists, not_and, Bool.not_eq_true] at hany
          have := hany ns hn
          cases hg : a.get ns with
          | none => rw [hg] at this; cases this
          | some b => rfl)
        simpa using this
    refine Rec.typed (f := chkStr) (fun _ _ => trivial) (fun _ => ?_) fun v b hv _ => ?_
    · exact key _ M.undecided (.inr ⟨rfl, rfl⟩) _ rfl
    · cases str_of_check hv
      exact key _ b (.inl rfl) _ rfl

/-- What `__get_device_information` returns: one entry per device, made of what was loaded; and cached bundles belong to the entries. -/
structure InfoOk (M : Mgr) (jid : Jid) (h : List Ev) (x : List DeviceInfo × List Bundle) : Prop where
  bareJid : ∀ dev ∈ x.1, dev.bareJid = jid
  nodup : (x.1.map (·.deviceId)).Nodup
  seen : ∀ dev ∈ x.1, Seen M.undecided h dev
  cache : ∀ b ∈ x.2, ∃ dev ∈ x.1, b.identityKey = dev.identityKey ∧ ∃ ns, Downloaded h ns jid dev.deviceId b
  complete : ∃ ids, LoadedIds h jid ids ∧ (∀ dev ∈ x.1, dev.deviceId ∈ ids) ∧ ∀ d ∈ ids, (∃ dev ∈ x.1, dev.deviceId = d) ∨ Keyless h jid d

theorem InfoOk.mono {jid : Jid} {h h' : List Ev} {x : List DeviceInfo × List Bundle} (hi : InfoOk M jid h x) (hh : ∀ e ∈ h, e ∈ h') :
    InfoOk M jid h' x :=
  ⟨hi.bareJid, hi.nodup, fun dev hd => (hi.seen dev hd).mono hh, fun b hb => by
    obtain ⟨dev, hd, h1, ns, h2⟩ := hi.cache b hb
    exact ⟨dev, hd, h1, ns, hh _ h2⟩, by
    obtain ⟨ids, h1, h2, h3⟩ := hi.complete
    exact ⟨ids, h1.mono hh, h2, fun d hd => (h3 d hd).imp_right fun h => h.mono hh⟩⟩

/-- Like `InfoOk` for a part of the device list. -/
structure InfoPart (M : Mgr) (jid : Jid) (ids : List DevId) (h : List Ev) (x : List DeviceInfo × List Bundle) : Prop where
  bareJid : ∀ dev ∈ x.1, dev.bareJid = jid
  nodup : (x.1.map (·.deviceId)).Nodup
  seen : ∀ dev ∈ x.1, Seen M.undecided h dev
  cache : ∀ b ∈ x.2, ∃ dev ∈ x.1, b.identityKey = dev.identityKey ∧ ∃ ns, Downloaded h ns jid dev.deviceId b
  listed : ∀ dev ∈ x.1, dev.deviceId ∈ ids
  complete : ∀ d ∈ ids, (∃ dev ∈ x.1, dev.deviceId = d) ∨ Keyless h jid d

theorem InfoPart.mono {jid : Jid} {ids : List DevId} {h h' : List Ev} {x : List DeviceInfo × List Bundle} (hi : InfoPart M jid ids h x)
    (hh : ∀ e ∈ h, e ∈ h') : InfoPart M jid ids h' x :=
  ⟨hi.bareJid, hi.nodup, fun dev hd => (hi.seen dev hd).mono hh, fun b hb => by
    obtain ⟨dev, hd, h1, ns, h2⟩ := hi.cache b hb
    exact ⟨dev, hd, h1, ns, hh _ h2⟩, hi.listed, fun d hd => (hi.complete d hd).imp_right fun h => h.mono hh⟩

theorem setAdd_of_not_mem {α : Type} [DecidableEq α] {xs : List α} {x : α} (h : x ∉ xs) : setAdd xs x = xs ++ [x] := by simp [setAdd, h]

theorem trace_getDeviceInformation' (jid : Jid) :
    wp (Rec φ) (getDeviceInformation' M jid) (ends (fun x h' => (∃ t, h' = h ++ t) ∧ InfoOk M jid h' x) fun _ _ => True) h := by
  unfold getDeviceInformation'
  rw [ends_bind]
  have main : ∀ (l : List DevId) (h1 : List Ev), (∃ t, h1 = h ++ t) → l.Nodup →
    wp (Rec φ) (Prog.fold l ([], []) fun (devices, cache) d => do
      match ← deviceInformation M jid d with
      | none => pure (devices, cache)
      | some (dev, none) => pure (setAdd devices dev, cache)
      | some (dev, some bundle) => pure (setAdd devices dev, setAdd cache bundle))
      (ends (fun x h' => (∃ t, h' = h1 ++ t) ∧ InfoPart M jid l h' x) fun _ _ => True) h1 := by
    intro l h1 hh1 hl
    refine ends_fold (fun done _ x h' => (∃ t, h' = h1 ++ t) ∧ InfoPart M jid done h' x)
      ⟨⟨[], by simp⟩, ⟨by simp, by simp, by simp, by simp, by simp, by simp⟩⟩ ?_ fun b w hb => hb
    rintro done d rest ⟨devs, cache⟩ h' rfl ⟨⟨t, rfl⟩, hi⟩
    rw [ends_bind]
    refine ends_mono (trace_deviceInformation jid d) ?_ fun _ _ _ => trivial
    rintro o _ ⟨⟨t', rfl⟩, hno, hd⟩
    have hi' := hi.mono (h' := h1 ++ t ++ t') fun e he => by simp only [List.mem_append] at he ⊢; grind
    have hnd : ∀ dev ∈ devs, dev.deviceId ≠ d := by
      intro dev hm he
      have := hi.listed dev hm
      simp only [List.nodup_append, List.mem_cons, ne_eq] at hl
      exact hl.2.2 _ this _ (.inl rfl) he
    cases o with
    | none =>
      refine ⟨⟨_, List.append_assoc ..⟩, ⟨hi'.bareJid, hi'.nodup, hi'.seen, hi'.cache, fun dev hm => by simp [hi'.listed dev hm], ?_⟩⟩
      intro x hx
      rcases List.mem_append.1 hx with hx | hx
      · exact hi'.complete x hx
      · cases List.mem_singleton.1 hx
        exact .inr (hno rfl)
    | some x =>
      obtain ⟨dev, ob⟩ := x
      obtain ⟨rfl, rfl, hseen, hb⟩ := hd dev ob rfl
      have hnm : dev ∉ devs := fun hm => hnd dev hm rfl
      have hadd : InfoPart M dev.bareJid (done ++ [dev.deviceId]) (h1 ++ t ++ t') (setAdd devs dev, cache) := by
        rw [setAdd_of_not_mem hnm]
        refine ⟨?_, ?_, ?_, ?_, ?_, ?_⟩
        · intro x hx
          rcases List.mem_append.1 hx with hx | hx
          · exact hi'.bareJid x hx
          · cases List.mem_singleton.1 hx; rfl
        · simp only [List.map_append, List.map_cons, List.map_nil, List.nodup_append]
          refine ⟨hi'.nodup, by simp, ?_⟩
          intro a ha b hb he
          obtain ⟨x, hx, rfl⟩ := List.mem_map.1 ha
          cases List.mem_singleton.1 hb
          exact hnd x hx he
        · intro x hx
          rcases List.mem_append.1 hx with hx | hx
          · exact hi'.seen x hx
          · cases List.mem_singleton.1 hx; exact hseen
        · intro b hb
          obtain ⟨x, hx, h2⟩ := hi'.cache b hb
          exact ⟨x, by simp [hx], h2⟩
        · intro x hx
          rcases List.mem_append.1 hx with hx | hx
          · simp [hi'.listed x hx]
          · cases List.mem_singleton.1 hx; simp
        · intro x hx
          rcases List.mem_append.1 hx with hx | hx
          · refine (hi'.complete x hx).imp_left ?_
            rintro ⟨y, hy, h2⟩
            exact ⟨y, by simp [hy], h2⟩
          · cases List.mem_singleton.1 hx
            exact .inl ⟨dev, by simp, rfl⟩
      cases ob with
      | none => exact ⟨⟨_, List.append_assoc ..⟩, hadd⟩
      | some b =>
        obtain ⟨h1, ns, h2⟩ := hb b rfl
        refine ⟨⟨_, List.append_assoc ..⟩, ⟨hadd.bareJid, hadd.nodup, hadd.seen, ?_, hadd.listed, hadd.complete⟩⟩
        intro c hc
        rcases mem_setAdd.1 hc with hc | rfl
        · exact hadd.cache c hc
        · exact ⟨dev, by simp, h1, ns, h2⟩
  have fin : ∀ (ids : List DevId) (e : Ev), LoadedIds (h ++ [e]) jid ids →
    wp (Rec φ) (Prog.fold (M.O.iter (dedup ids)) ([], []) fun (devices, cache) d => do
      match ← deviceInformation M jid d with
      | none => pure (devices, cache)
      | some (dev, none) => pure (setAdd devices dev, cache)
      | some (dev, some bundle) => pure (setAdd devices dev, setAdd cache bundle))
      (ends (fun x h' => (∃ t, h' = h ++ t) ∧ InfoOk M jid h' x) fun _ _ => True) (h ++ [e]) := by
    intro ids e hl
    refine ends_mono (main _ _ ⟨_, rfl⟩ (by simpa using nodup_dedup _)) ?_ fun _ _ _ => trivial
    rintro x _ ⟨⟨t, rfl⟩, hx⟩
    refine ⟨⟨_, List.append_assoc ..⟩, hx.bareJid, hx.nodup, hx.seen, hx.cache, ids, ?_, ?_, ?_⟩
    · exact hl.mono fun e he => List.mem_append_left _ he
    · intro dev hd; simpa using hx.listed dev hd
    · intro d hd; exact hx.complete d (by simpa using hd)
  refine Rec.typed (f := chkInts) (fun _ _ => trivial) (fun _ => ?_) fun v b hv _ => ?_
  · exact fin [] _ (.inr ⟨by simp, rfl⟩)
  · refine fin b _ (.inl ?_)
    unfold chkInts checkList at hv
    split at hv
    · split at hv
      · cases hv; exact ⟨_, by simp [Loaded], rfl⟩
      · cases hv
    · cases hv

theorem trace_getDeviceInformation (jid : Jid) :
    wp (Rec φ) (getDeviceInformation M jid) (ends (fun x h' => (∃ t, h' = h ++ t) ∧ (∀ dev ∈ x, dev.bareJid = jid) ∧
      (x.map (·.deviceId)).Nodup ∧ ∀ dev ∈ x, Seen M.undecided h' dev) fun _ _ => True) h := by
  unfold getDeviceInformation
  rw [ends_bind]
  refine ends_mono (trace_getDeviceInformation' jid) ?_ fun _ _ _ => trivial
  rintro ⟨x, c⟩ h' ⟨h1, h2⟩
  exact ⟨h1, h2.bareJid, h2.nodup, h2.seen⟩

end SM
end Verif
