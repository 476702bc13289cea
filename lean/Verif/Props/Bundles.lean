import Verif.Props.Encrypt
import Verif.Props.Frame
/-
Bundles are not downloaded twice by an encryption (C82).
-/
namespace Verif
open Spec SM

/-- The bundle was obtained from the server. -/
def Spec.Got (h : List Ev) (ns : Ns) (j : Jid) (d : DevId) : Prop := ∃ b, Downloaded h ns j d b

/-- The identity key of the device was looked up in storage and found missing. -/
def Spec.KeyMissing (h : List Ev) (j : Jid) (d : DevId) : Prop :=
  (⟨.load (.devIdentityKey j d), .ok none⟩ : Ev) ∈ h ∨ (⟨.load (.devIdentityKey j d), .error .nothingException⟩ : Ev) ∈ h

/-- A bundle is downloaded only if it was not obtained before and is needed: for the identity key, if this was not found in storage and no
bundle of the device was obtained before, or for a session, if there is none. -/
def Spec.Needed (h : List Ev) (e : Ev) : Prop := ∀ ns j d, e.1 = .downloadBundle ns j d →
  ¬ Got h ns j d ∧ ((KeyMissing h j d ∧ ∀ ns', ¬ Got h ns' j d) ∨ (⟨.loadSession ns j d, .ok none⟩ : Ev) ∈ h)

/-- The download of a bundle. -/
def Op.getsBundle : Op → Bool
  | .downloadBundle .. => true
  | _ => false

/-- Not the download of a bundle. -/
def Op.noBundle (o : Op) : Prop := Op.getsBundle o = false

theorem Op.noBundle.ne {o : Op} (h : Op.noBundle o) (ns j d) : o ≠ .downloadBundle ns j d := by
  rintro rfl
  cases h

namespace SM
variable {φ : Ev → Prop} {M : Mgr} {h : List Ev}

theorem KeyMissing.mono {h h' : List Ev} {j d} (hk : KeyMissing h j d) (hh : ∀ e ∈ h, e ∈ h') : KeyMissing h' j d := hk.imp (hh _) (hh _)

theorem got_append {h t : List Ev} {ns j d} : Got (h ++ t) ns j d ↔ Got h ns j d ∨ Got t ns j d := by
  unfold Got Downloaded
  simp only [List.mem_append]
  exact ⟨fun ⟨b, hb⟩ => hb.imp (⟨b, ·⟩) (⟨b, ·⟩), fun hb => hb.elim (fun ⟨b, hb⟩ => ⟨b, .inl hb⟩) fun ⟨b, hb⟩ => ⟨b, .inr hb⟩⟩

theorem not_got {t : List Ev} (ht : ∀ e ∈ t, Op.noBundle e.1) {ns j d} : ¬ Got t ns j d := fun ⟨_, hb⟩ => (ht _ hb).ne ns j d rfl

theorem needed_append {t : List Ev} (hg : Guarded Needed h) (ht : ∀ e ∈ t, Op.noBundle e.1) : Guarded Needed (h ++ t) :=
  hg.append fun e he _ ns j d ho => absurd ho ((ht e he).ne ns j d)

/-- Programs that do not download bundles. -/
theorem quiet_step {α : Type} {p : P α} (hp : AllOps Op.noBundle p) (hg : Guarded Needed h) :
    wp (Rec φ) p (ends (fun _ h' => ∃ t, h' = h ++ t ∧ ∀ e ∈ t, Op.noBundle e.1) fun _ h' => Guarded Needed h') h := by
  refine wp_mono (Rec.ops hp) ?_
  rintro r _ ⟨t, rfl, ht⟩
  cases r with
  | ok a => exact ⟨t, rfl, ht⟩
  | raised e => exact needed_append hg ht
  | crashed => exact needed_append hg ht

/-- What was obtained since `h` is at most the bundle `ob` of this device. -/
def Adds (h h' : List Ev) (j : Jid) (d : DevId) (ob : Option Bundle) : Prop :=
  ∃ t, h' = h ++ t ∧ Guarded Needed h' ∧ ∀ ns j' d' b, Downloaded t ns j' d' b → j' = j ∧ d' = d ∧ ob = some b

theorem Adds.after {h h' t : List Ev} {j d ob} (ha : Adds h h' j d ob) (ht : ∀ e ∈ t, Op.noBundle e.1) : Adds h (h' ++ t) j d ob := by
  obtain ⟨t', rfl, hg, hd⟩ := ha
  refine ⟨t' ++ t, by simp, needed_append hg ht, fun ns j' d' b hb => ?_⟩
  rcases List.mem_append.1 hb with hb | hb
  · exact hd ns j' d' b hb
  · exact absurd rfl ((ht _ hb).ne ns j' d')

theorem Adds.before {h h' t : List Ev} {j d ob} (ha : Adds (h ++ t) h' j d ob) (ht : ∀ e ∈ t, Op.noBundle e.1) : Adds h h' j d ob := by
  obtain ⟨t', rfl, hg, hd⟩ := ha
  refine ⟨t ++ t', by simp, hg, fun ns j' d' b hb => ?_⟩
  rcases List.mem_append.1 hb with hb | hb
  · exact absurd rfl ((ht _ hb).ne ns j' d')
  · exact hd ns j' d' b hb

theorem Adds.guard {h h' : List Ev} {j d ob} (ha : Adds h h' j d ob) : Guarded Needed h' := by
  obtain ⟨_, _, hg, _⟩ := ha
  exact hg

theorem Adds.seq {α β : Type} {p : P α} {f : α → P β} {Q : β → List Ev → Prop} {h h' : List Ev} {j d ob} (ha : Adds h h' j d ob)
    (hp : AllOps Op.noBundle p)
    (hf : ∀ a h'', Adds h h'' j d ob → wp (Rec φ) (f a) (ends Q fun _ h' => Guarded Needed h') h'') :
    wp (Rec φ) (p >>= f) (ends Q fun _ h' => Guarded Needed h') h' := by
  rw [ends_bind]
  refine ends_mono (quiet_step hp ha.guard) ?_ fun _ _ h => h
  rintro a _ ⟨t, rfl, ht⟩
  exact hf a _ (ha.after ht)

theorem needed_fetch (jid : Jid) (d : DevId) (nss : List Ns) (hg : Guarded Needed h) (hk : KeyMissing h jid d) (hn : ∀ ns, ¬ Got h ns jid d) :
    wp (Rec φ) (fetchIdentityKey jid d nss) (ends (fun ob h' => Adds h h' jid d ob) fun _ h' => Guarded Needed h') h := by
  induction nss generalizing h with
  | nil => exact ⟨[], by simp, hg, by simp [Downloaded]⟩
  | cons ns nss ih =>
    unfold fetchIdentityKey
    rw [wp_tryElse]
    have hnd : ∀ a, Needed h ⟨.downloadBundle ns jid d, a⟩ := by
      rintro a _ _ _ ⟨⟩
      exact ⟨hn ns, .inl ⟨hk, hn⟩⟩
    refine wp_perform.2 ⟨hg, fun b _ => ?_, fun e _ => ?_⟩
    · simp only [split3_ok, Rec.next_eq]
      have hg1 := hg.snoc (hnd (.ok b))
      have ha : Adds h (h ++ [⟨.downloadBundle ns jid d, .ok b⟩]) jid d (some b) := by
        refine ⟨_, rfl, hg1, fun ns' j' d' b' hb => ?_⟩
        cases List.mem_singleton.1 hb
        exact ⟨rfl, rfl, rfl⟩
      rw [ends_bind]
      refine ends_mono (quiet_step (p := Sto.storeBytes (.devIdentityKey jid d) b.identityKey) ?_ hg1) ?_ fun _ _ h => h
      · exact AllOps.perform rfl
      · rintro _ _ ⟨t, rfl, ht⟩
        exact ha.after ht
    · simp only [split3_raised, Rec.next_eq]
      have hg1 := hg.snoc (hnd (.error e))
      have hno : ∀ ns', ¬ Got (h ++ [⟨.downloadBundle ns jid d, .error e⟩]) ns' jid d := by
        intro ns' hx
        rcases got_append.1 hx with hx | ⟨b, hb⟩
        · exact hn ns' hx
        · cases List.mem_singleton.1 hb
      split
      · refine ends_mono (ih hg1 (KeyMissing.mono hk fun x hx => by simp [hx]) hno) ?_ fun _ _ h => h
        rintro ob _ ⟨t, rfl, hg2, hd⟩
        refine ⟨_, List.append_assoc .., by simpa using hg2, fun ns' j' d' b hb => ?_⟩
        rcases List.mem_append.1 hb with hb | hb
        · cases List.mem_singleton.1 hb
        · exact hd ns' j' d' b hb
      · exact hg1

theorem needed_identityKeyOf (jid : Jid) (d : DevId) (nss : List Ns) (hg : Guarded Needed h) (hn : ∀ ns, ¬ Got h ns jid d) :
    wp (Rec φ) (identityKeyOf M jid d nss) (ends (fun o h' => Adds h h' jid d (o.bind (·.2))) fun _ h' => Guarded Needed h') h := by
  unfold identityKeyOf
  rw [wp_onNothing]
  unfold Sto.loadBytes
  rw [wp_bind, wp_bind]
  have hq : ∀ a, ∀ e ∈ [(⟨.load (.devIdentityKey jid d), a⟩ : Ev)], Op.noBundle e.1 := by
    intro a e he
    cases List.mem_singleton.1 he
    rfl
  have fetch : ∀ a, KeyMissing (h ++ [⟨.load (.devIdentityKey jid d), a⟩]) jid d →
      wp (Rec φ) (do
      match ← fetchIdentityKey jid d (M.O.iter nss) with
      | none => pure none
      | some bundle => pure (some (bundle.identityKey, some bundle)))
        (ends (fun o h' => Adds h h' jid d (o.bind (·.2))) fun _ h' => Guarded Needed h') (h ++ [⟨.load (.devIdentityKey jid d), a⟩]) := by
    intro a hk
    rw [ends_bind]
    refine ends_mono (needed_fetch jid d _ (needed_append hg (hq a)) hk ?_) ?_ fun _ _ h => h
    · intro ns hx
      rcases got_append.1 hx with hx | hx
      · exact hn ns hx
      · exact not_got (hq a) hx
    · rintro ob h' ha
      cases ob with
      | none => exact ha.before (hq a)
      | some b => exact ha.before (hq a)
  refine wp_perform.2 ⟨hg, fun v _ => ?_, fun e _ => ?_⟩
  · simp only [andThen_ok, Rec.next_eq]
    rw [wp_fmap]
    have hg1 := needed_append hg (hq (.ok v))
    cases v with
    | none =>
      simp only [fmapRes, andThen_ok]
      rw [wp_bind, wp_fromJust]
      refine ⟨nofun, fun _ => ?_⟩
      simp only [andThen_raised, handled_raised]
      exact ⟨fun _ => fetch _ (.inl (by simp)), fun h => absurd rfl h⟩
    | some v =>
      simp only [fmapRes]
      cases hf : checkBytes v with
      | error e =>
        simp only [andThen_raised, handled_raised]
        refine ⟨?_, fun _ => hg1⟩
        rintro rfl
        unfold checkBytes at hf
        split at hf
        · split at hf <;> cases hf
        · cases hf
      | ok ik =>
        simp only [andThen_ok]
        rw [wp_bind, wp_fromJust]
        refine ⟨?_, nofun⟩
        rintro _ ⟨⟩
        exact ⟨_, rfl, hg1, fun ns j' d' b hb => absurd rfl ((hq _ _ hb).ne ns j' d')⟩
  · simp only [andThen_raised, handled_raised]
    refine ⟨?_, fun _ => needed_append hg (hq _)⟩
    rintro rfl
    exact fetch _ (.inr (by simp))

theorem needed_deviceInformation (jid : Jid) (d : DevId) (hg : Guarded Needed h) (hn : ∀ ns, ¬ Got h ns jid d) :
    wp (Rec φ) (deviceInformation M jid d) (ends (fun o h' => Adds h h' jid d (o.bind (·.2))) fun _ h' => Guarded Needed h') h := by
  unfold deviceInformation
  have q1 : AllOps Op.noBundle (Sto.loadStrs (.devNamespaces jid d)) := by
    lib_ops []
    all_goals rfl
  rw [ends_bind]
  refine ends_mono (quiet_step q1 hg) ?_ fun _ _ h => h
  rintro o _ ⟨t1, rfl, ht1⟩
  have hg1 := needed_append hg ht1
  rw [ends_bind]
  refine ends_mono (quiet_step (by lib_ops []) hg1) ?_ fun _ _ h => h
  rintro nss _ ⟨t2, rfl, ht2⟩
  have hg2 := needed_append hg1 ht2
  rw [ends_bind]
  refine ends_mono (needed_identityKeyOf jid d _ hg2 ?_) ?_ fun _ _ h => h
  · intro ns hx
    rcases got_append.1 hx with hx | hx
    · rcases got_append.1 hx with hx | hx
      · exact hn ns hx
      · exact not_got ht1 hx
    · exact not_got ht2 hx
  · rintro o h' ha
    replace ha := (ha.before ht2).before ht1
    cases o with
    | none => exact ha
    | some x =>
      obtain ⟨ik, ob⟩ := x
      have load : ∀ {α : Type} (k : Key) (f : JVal → Except Exn α), AllOps Op.noBundle (call (.load k) >>= fun v => Maybe.fmap f v) := by
        intro α k f
        lib_ops []
      refine ha.seq (load ..) fun a h1 ha => ha.seq (by lib_ops []) fun active h1 ha => ha.seq (load ..) fun a h1 ha => ha.seq (by lib_ops [])
        fun label h1 ha => ha.seq (load ..) fun lvl h1 ha => ha.seq ?_ fun nss h1 ha => ha
      unfold repairNamespaces
      lib_ops []

/-- What was obtained since `h` belongs to these devices and was kept. -/
def Kept (h h' : List Ev) (p : Jid → DevId → Prop) (cache : List Bundle) : Prop :=
  ∃ t, h' = h ++ t ∧ Guarded Needed h' ∧ ∀ ns j d b, Downloaded t ns j d b → p j d ∧ b ∈ cache

theorem Kept.guard {h h' : List Ev} {p cache} (hk : Kept h h' p cache) : Guarded Needed h' := by
  obtain ⟨_, _, hg, _⟩ := hk
  exact hg

theorem Kept.mono {h h' : List Ev} {p p' : Jid → DevId → Prop} {cache cache' : List Bundle} (hk : Kept h h' p cache)
    (hp : ∀ j d, p j d → p' j d) (hc : ∀ b ∈ cache, b ∈ cache') : Kept h h' p' cache' := by
  obtain ⟨t, rfl, hg, hd⟩ := hk
  exact ⟨t, rfl, hg, fun ns j d b hb => (hd ns j d b hb).imp (hp j d) (hc b)⟩

theorem Kept.trans {h h' h'' : List Ev} {p : Jid → DevId → Prop} {cache : List Bundle} (h1 : Kept h h' p cache) (h2 : Kept h' h'' p cache) :
    Kept h h'' p cache := by
  obtain ⟨t, rfl, hg, hd⟩ := h1
  obtain ⟨t', rfl, hg', hd'⟩ := h2
  refine ⟨t ++ t', by simp, hg', fun ns j d b hb => ?_⟩
  rcases List.mem_append.1 hb with hb | hb
  · exact hd ns j d b hb
  · exact hd' ns j d b hb

theorem Kept.refl {p : Jid → DevId → Prop} {cache : List Bundle} (hg : Guarded Needed h) : Kept h h p cache :=
  ⟨[], by simp, hg, by simp [Downloaded]⟩

theorem Kept.not_got {h h' : List Ev} {p cache ns j d} (hk : Kept h h' p cache) (hn : ¬ Got h ns j d) (hp : ¬ p j d) : ¬ Got h' ns j d := by
  obtain ⟨t, rfl, _, hd⟩ := hk
  intro hx
  rcases got_append.1 hx with hx | ⟨b, hb⟩
  · exact hn hx
  · exact hp (hd ns j d b hb).1

theorem needed_info (jid : Jid) (hg : Guarded Needed h) (hn : ∀ ns d, ¬ Got h ns jid d) :
    wp (Rec φ) (getDeviceInformation' M jid) (ends (fun x h' => Kept h h' (fun j _ => j = jid) x.2) fun _ h' => Guarded Needed h') h := by
  unfold getDeviceInformation'
  have q1 : AllOps Op.noBundle (Sto.loadInts (.devList jid)) := by
    lib_ops []
    all_goals rfl
  rw [ends_bind]
  refine ends_mono (quiet_step q1 hg) ?_ fun _ _ h => h
  rintro o _ ⟨t, rfl, ht⟩
  have hg1 := needed_append hg ht
  have hn1 : ∀ ns d, ¬ Got (h ++ t) ns jid d := fun ns d hx => (got_append.1 hx).elim (hn ns d) (SM.not_got ht)
  have hk1 : Kept h (h ++ t) (fun j _ => j = jid) [] := ⟨t, rfl, hg1, fun ns j d b hb => absurd rfl ((ht _ hb).ne ns j d)⟩
  have hl : (M.O.iter (dedup (Maybe.maybe o []))).Nodup := by simpa using nodup_dedup _
  refine ends_fold (fun done _ x h' => Kept (h ++ t) h' (fun j d => j = jid ∧ d ∈ done) x.2) (.refl hg1) ?_ fun x h' hx =>
    (hk1.mono (fun _ _ h => h) (by simp)).trans (hx.mono (fun _ _ h => h.1) fun _ h => h)
  rintro done d rest ⟨devs, cache⟩ h' hl' hk
  rw [hl'] at hl
  rw [ends_bind]
  refine ends_mono (needed_deviceInformation jid d hk.guard fun ns => hk.not_got (hn1 ns d) fun hx => ?_) ?_ fun _ _ h => h
  · rw [List.nodup_append] at hl
    exact hl.2.2 _ hx.2 _ (by simp) rfl
  rintro o h'' ⟨t', rfl, hg2, hd⟩
  have step : ∀ cache', (∀ b ∈ cache, b ∈ cache') → (∀ b, o.bind (·.2) = some b → b ∈ cache') →
      Kept (h ++ t) (h' ++ t') (fun j d' => j = jid ∧ d' ∈ done ++ [d]) cache' := by
    intro cache' h1 h2
    refine (hk.mono (fun _ _ h => ⟨h.1, by simp [h.2]⟩) h1).trans ⟨t', rfl, hg2, fun ns j d' b hb => ?_⟩
    obtain ⟨rfl, rfl, hb⟩ := hd ns j d' b hb
    exact ⟨⟨rfl, by simp⟩, h2 b hb⟩
  rcases o with _ | ⟨dev, _ | b⟩
  · exact step cache (fun _ h => h) nofun
  · exact step cache (fun _ h => h) nofun
  · refine step (setAdd cache b) (fun _ h => mem_setAdd.2 (.inl h)) ?_
    rintro _ ⟨⟩
    exact mem_setAdd.2 (.inr rfl)

theorem needed_infos (jids : List Jid) (hnd : jids.Nodup) (hg : Guarded Needed h) (hn : ∀ ns, ∀ j ∈ jids, ∀ d, ¬ Got h ns j d) :
    wp (Rec φ) (Prog.mapAll jids (getDeviceInformation' M)) (ends
      (fun tmp h' => Kept h h' (fun j _ => j ∈ jids) (tmp.map (·.2)).flatten) fun _ h' => Guarded Needed h') h := by
  induction jids generalizing h with
  | nil => exact .refl hg
  | cons j jids ih =>
    unfold Prog.mapAll
    obtain ⟨hj, hnd⟩ := List.nodup_cons.1 hnd
    rw [wp_bind_def, andThen_ends]
    refine ends_mono (needed_info j hg fun ns d => hn ns j (by simp) d) ?_ fun _ _ h => h
    rintro x h1 hk
    rw [wp_bind_def, andThen_ends]
    refine ends_mono (ih hnd hk.guard fun ns j' hj' d => hk.not_got (hn ns j' (by simp [hj']) d) fun he => hj (he ▸ hj')) ?_ fun _ _ h => h
    rintro xs h2 hk2
    refine (hk.mono ?_ ?_).trans (hk2.mono ?_ ?_)
    · rintro _ _ rfl; simp
    · intro b hb; simp only [List.map_cons, List.flatten_cons, List.mem_append]; exact .inl hb
    · intro _ _ h; simp [h]
    · intro b hb; simp only [List.map_cons, List.flatten_cons, List.mem_append]; exact .inr hb

theorem needed_recipients (order : List Ns) (jids : List Jid) (hnd : jids.Nodup) (hg : Guarded Needed h) (hn : ∀ ns j d, ¬ Got h ns j d) :
    wp (Rec φ) (recipientDevices M order jids) (ends (fun x h' => Kept h h' (fun _ _ => True) x.2) fun _ h' => Guarded Needed h') h := by
  unfold recipientDevices
  rw [ends_bind]
  refine ends_mono (needed_infos _ (by simpa using hnd) hg fun ns j _ d => hn ns j d) ?_ fun _ _ h => h
  rintro tmp h' hk
  replace hk : Kept h h' (fun _ _ => True) (dedup (tmp.map (·.2)).flatten) := hk.mono (fun _ _ _ => trivial) fun b hb => mem_dedup.2 hb
  rw [ends_bind]
  refine pureFilter (fun _ _ _ _ => hk.guard) fun _ => ?_
  rw [ends_bind]
  exact pureMap (fun _ _ _ _ => hk.guard) fun ys _ => hk

/-! ### The encryption loops -/

/-- Every bundle that was obtained is cached, or belongs to these devices. -/
def Covered (cache : List Bundle) (p : Ns → Jid → DevId → Prop) (h : List Ev) : Prop :=
  Guarded Needed h ∧ ∀ ns j d, Got h ns j d → (∃ b ∈ cache, b.ns = ns ∧ b.bareJid = j ∧ b.deviceId = d) ∨ p ns j d

theorem Covered.mono {cache : List Bundle} {p p' : Ns → Jid → DevId → Prop} (hc : Covered cache p h) (hp : ∀ ns j d, p ns j d → p' ns j d) :
    Covered cache p' h := ⟨hc.1, fun ns j d hg => (hc.2 ns j d hg).imp_right (hp ns j d)⟩

theorem Covered.after {cache : List Bundle} {p : Ns → Jid → DevId → Prop} {t : List Ev} (hc : Covered cache p h) (ht : ∀ e ∈ t, Op.noBundle e.1) :
    Covered cache p (h ++ t) :=
  ⟨needed_append hc.1 ht, fun ns j d hg => (got_append.1 hg).elim (hc.2 ns j d) fun h => absurd h (SM.not_got ht)⟩

theorem Covered.step {α : Type} {q : P α} {cache : List Bundle} {p : Ns → Jid → DevId → Prop} (hc : Covered cache p h) (hq : AllOps Op.noBundle q) :
    wp (Rec φ) q (ends (fun _ h' => Covered cache p h') fun _ h' => Guarded Needed h') h := by
  refine ends_mono (quiet_step hq hc.1) ?_ fun _ _ h => h
  rintro _ _ ⟨t, rfl, ht⟩
  exact hc.after ht

theorem covered_encryptDevice (ns : Ns) {cache : List Bundle} (km : PlainKM) (st : EncState) (dev : DeviceInfo) {p : Ns → Jid → DevId → Prop}
    (hc : Covered cache p h) (hp : ¬ p ns dev.bareJid dev.deviceId) :
    wp (Rec φ) (encryptDevice M ns cache km st dev) (ends
      (fun st' h' => st'.devices.Sublist st.devices ∧ Covered cache (fun n j d => p n j d ∨ n = ns ∧ j = dev.bareJid ∧ d = dev.deviceId) h')
      fun _ h' => Guarded Needed h') h := by
  unfold encryptDevice
  rw [ends_bind]
  have hq : ∀ a, ∀ e ∈ [(⟨.loadSession ns dev.bareJid dev.deviceId, a⟩ : Ev)], Op.noBundle e.1 := by
    intro a e he
    cases List.mem_singleton.1 he
    rfl
  refine Rec.call hc.1 (fun s _ => ?_) fun e _ => needed_append hc.1 (hq _)
  have hc1 := hc.after (hq (.ok s))
  rw [wp_tryElse]
  have main : wp (Rec φ) (encryptForDevice ns dev s ((M.O.iter cache).find? fun b => decide (b.ns = ns ∧ b.bareJid = dev.bareJid ∧ b.deviceId = dev.deviceId)) km)
      (fun _ h' => Covered cache (fun n j d => p n j d ∨ n = ns ∧ j = dev.bareJid ∧ d = dev.deviceId) h')
      (h ++ [⟨.loadSession ns dev.bareJid dev.deviceId, .ok s⟩]) := by
    have hc2 : Covered cache (fun n j d => p n j d ∨ n = ns ∧ j = dev.bareJid ∧ d = dev.deviceId) _ := hc1.mono fun _ _ _ h => .inl h
    have op : ∀ (o : Op) {h : List Ev}, Op.noBundle o → Covered cache (fun n j d => p n j d ∨ n = ns ∧ j = dev.bareJid ∧ d = dev.deviceId) h →
        wp (Rec φ) (call o) (fun _ h' => Covered cache (fun n j d => p n j d ∨ n = ns ∧ j = dev.bareJid ∧ d = dev.deviceId) h') h := by
      intro o h ho hc
      refine wp_mono (Rec.ops (AllOps.perform ho)) ?_
      rintro _ _ ⟨t, rfl, ht⟩
      exact hc.after ht
    unfold encryptForDevice
    cases s with
    | none =>
      dsimp only
      rw [wp_bind]
      unfold bundleFor
      cases hf : (M.O.iter cache).find? fun b => decide (b.ns = ns ∧ b.bareJid = dev.bareJid ∧ b.deviceId = dev.deviceId) with
      | some b => exact op _ rfl hc2
      | none =>
        have hno : ¬ Got (h ++ [⟨.loadSession ns dev.bareJid dev.deviceId, .ok none⟩]) ns dev.bareJid dev.deviceId := by
          intro hg
          rcases hc1.2 _ _ _ hg with ⟨b, hb, h1⟩ | h1
          · have := List.find?_eq_none.1 hf b (SetOrder.mem_iter.2 hb)
            simp [h1] at this
          · exact hp h1
        have hnd : ∀ a, Needed (h ++ [⟨.loadSession ns dev.bareJid dev.deviceId, .ok none⟩]) ⟨.downloadBundle ns dev.bareJid dev.deviceId, a⟩ := by
          rintro a _ _ _ ⟨⟩
          exact ⟨hno, .inr (by simp)⟩
        have hc3 : ∀ a, Covered cache (fun n j d => p n j d ∨ n = ns ∧ j = dev.bareJid ∧ d = dev.deviceId)
            (h ++ [⟨.loadSession ns dev.bareJid dev.deviceId, .ok none⟩] ++ [⟨.downloadBundle ns dev.bareJid dev.deviceId, a⟩]) := by
          intro a
          refine ⟨hc1.1.snoc (hnd a), fun n j d hg => ?_⟩
          rcases got_append.1 hg with hg | ⟨b, hb⟩
          · exact hc2.2 n j d hg
          · cases List.mem_singleton.1 hb
            exact .inr (.inr ⟨rfl, rfl, rfl⟩)
        refine wp_perform.2 ⟨hc2, fun b _ => ?_, fun e _ => hc3 _⟩
        simp only [andThen_ok, Rec.next_eq]
        exact op _ rfl (hc3 _)
    | some s =>
      dsimp only
      rw [wp_bind]
      refine wp_mono (op _ rfl hc2) ?_
      rintro r h' hr
      cases r <;> exact hr
  refine wp_mono main ?_
  rintro r h' hr
  cases r with
  | ok x => exact ⟨List.Sublist.refl _, hr⟩
  | crashed => exact hr.1
  | raised e =>
    simp only [split3_raised]
    split
    · exact ⟨List.filter_sublist, hr⟩
    · exact hr.1

theorem covered_encryptBackend (ns : Ns) {cache : List Bundle} (pt : Dict Ns Bytes) (st : EncAll) {devices : List DeviceInfo}
    {done : List Ns} (hd : (devices.map addr).Nodup) (hs : st.devices.Sublist devices) (hns : ns ∉ done)
    (hc : Covered cache (fun n _ _ => n ∈ done) h) :
    wp (Rec φ) (encryptBackend M cache pt st ns) (ends
      (fun st' h' => st'.devices.Sublist devices ∧ Covered cache (fun n _ _ => n ∈ done ++ [ns]) h')
      fun _ h' => Guarded Needed h') h := by
  have hmono : ∀ {h}, Covered cache (fun n _ _ => n ∈ done) h → Covered cache (fun n _ _ => n ∈ done ++ [ns]) h :=
    fun hc => hc.mono fun _ _ _ h => by simp [h]
  unfold encryptBackend
  dsimp only
  split
  · exact ⟨hs, hmono hc⟩
  split
  · exact hc.1
  rename_i p hp
  rw [ends_bind]
  refine ends_mono (hc.step (AllOps.perform rfl)) ?_ fun _ _ h => h
  rintro ⟨content, km⟩ h' hc
  dsimp only
  rw [ends_bind]
  have hn : ((M.O.iter (st.devices.filter fun dev => decide (dev.namespaces.head? = some ns))).map addr).Nodup := by
    refine nodup_map_on (fun x hx y hy he => ?_) ?_
    · simp only [SetOrder.mem_iter, List.mem_filter] at hx hy
      exact inj_of_nodup_map hd (hs.subset hx.1) (hs.subset hy.1) he
    · have := (nodup_of_map hd).sublist hs
      simpa using this.sublist List.filter_sublist
  refine ends_mono (Q := fun st' h' => st'.devices.Sublist devices ∧ Covered cache (fun n _ _ => n ∈ done ++ [ns]) h') ?_ ?_ fun _ _ h => h
  · refine ends_fold (fun dn _ (st' : EncState) h' => st'.devices.Sublist devices ∧ Covered cache (fun n j d => n ∈ done ∨ n = ns ∧ (j, d) ∈ dn.map addr) h')
      ⟨hs, hc.mono fun _ _ _ h => .inl h⟩ ?_ fun st' h' hx => ⟨hx.1, hx.2.mono fun n j d h => ?_⟩
    · rintro dn dev rest st' h'' hx ⟨hs', hc'⟩
      refine ends_mono (covered_encryptDevice ns km st' dev hc' ?_) ?_ fun _ _ h => h
      · rintro (h | ⟨_, h⟩)
        · exact hns h
        · rw [hx] at hn
          simp only [List.map_append, List.map_cons, List.nodup_append] at hn
          exact hn.2.2 _ h (addr dev) List.mem_cons_self rfl
      · rintro st'' h3 ⟨h4, h5⟩
        refine ⟨h4.trans hs', h5.mono ?_⟩
        rintro n j d ((h | ⟨rfl, h⟩) | ⟨rfl, rfl, rfl⟩)
        · exact .inl h
        · exact .inr ⟨rfl, by simp only [List.map_append, List.mem_append]; exact .inl h⟩
        · exact .inr ⟨rfl, by simp [addr]⟩
    · rcases h with h | ⟨rfl, _⟩ <;> simp [*]
  · rintro st' h'' ⟨h1, h2⟩
    exact ⟨h1, h2⟩

theorem covered_encryptTrusted {cache : List Bundle} (pt : Dict Ns Bytes) (jids : List Jid) {devices : List DeviceInfo}
    (hd : (devices.map addr).Nodup) (hφ : ∀ e, φ e → OnceIn e) (hc : Covered cache (fun _ _ _ => False) h) :
    wp (Rec φ) (encryptTrusted M jids cache pt devices) (ends (fun _ h' => Guarded Needed h') fun _ h' => Guarded Needed h') h := by
  unfold encryptTrusted
  rw [ends_bind]
  have q1 : AllOps Op.noBundle (devicesWithTrust .trusted (M.O.iter devices)) := by
    unfold devicesWithTrust
    lib_ops []
    all_goals rfl
  have hdn : (M.O.iter devices).Nodup := by simpa using nodup_of_map hd
  refine ends_mono (ends_and (hc.step q1) (trace_devicesWithTrust .trusted _ hdn)) ?_ fun _ _ h => h.1
  rintro ds h1 ⟨hc, v, _, hds⟩
  rw [ends_bind]
  refine Rec.call hc.1 (fun bs hb => ?_) fun e _ => needed_append hc.1 (by simp [Op.noBundle, Op.getsBundle])
  replace hc := hc.after (t := [⟨.getBackends, .ok bs⟩]) (by simp [Op.noBundle, Op.getsBundle])
  have hbs : bs.Nodup := hφ _ hb bs rfl
  have hdm : (ds.map addr).Nodup := by
    refine nodup_map_on (fun x hx y hy he => ?_) (hds ▸ hdn.sublist List.filter_sublist)
    rw [hds] at hx hy
    simp only [List.mem_filter, SetOrder.mem_iter] at hx hy
    exact inj_of_nodup_map hd hx.1 hy.1 he
  rw [ends_bind]
  refine ends_mono (Q := fun _ h' => Guarded Needed h') ?_ ?_ fun _ _ h => h
  · refine ends_fold (fun done _ (st : EncAll) h' => st.devices.Sublist ds ∧ Covered cache (fun n _ _ => n ∈ done) h')
      ⟨List.Sublist.refl _, hc.mono fun _ _ _ h => h.elim⟩ ?_ fun st h' hx => hx.2.1
    rintro done ns rest st h' rfl ⟨h2, h3⟩
    refine covered_encryptBackend ns pt st hdm h2 ?_ h3
    intro hm
    rw [List.nodup_append] at hbs
    exact hbs.2.2 _ hm _ (by simp) rfl
  · rintro st h' hg
    dsimp only
    split
    · exact hg
    · refine wp_mono (quiet_step (h := h') ?_ hg) ?_
      · lib_ops []
        all_goals rfl
      · rintro r h'' hr
        cases r with
        | ok x => obtain ⟨t, rfl, ht⟩ := hr; exact needed_append hg ht
        | raised e => exact hr
        | crashed => exact hr

/-- Bundles are labelled with the namespace and the device they were downloaded for. -/
def LabelledIn (e : Ev) : Prop := ∀ ns j d b, e = ⟨.downloadBundle ns j d, .ok b⟩ → b.ns = ns ∧ b.bareJid = j ∧ b.deviceId = d

theorem needed_encrypt (jids : List Jid) (pt : Dict Ns Bytes) (prio : Option (List Ns)) (i : Option String)
    (hdec : ∀ ds i, AllOps Op.noBundle (M.decide ds i)) (hφ : ∀ e, φ e → OnceIn e) (hl : ∀ e, φ e → LabelledIn e) :
    wp (Rec φ) (encrypt M jids pt prio i) (ends (fun _ h' => Guarded Needed h') fun _ h' => Guarded Needed h') [] := by
  unfold encrypt
  rw [ends_bind]
  have hfirst : ∀ a, Guarded Needed [(⟨.getBackends, a⟩ : Ev)] := fun a =>
    needed_append (h := []) Guarded.nil (by simp [Op.noBundle, Op.getsBundle])
  refine Rec.call Guarded.nil (fun bs _ => ?_) fun e _ => hfirst _
  rw [ends_bind]
  cases effectiveOrder bs prio with
  | error e => exact hfirst _
  | ok order =>
    show wp (Rec φ) (recipientDevices M order (setUnion jids [M.ownJid]) >>= fun x => decideTrust M x.1 i >>= fun devices =>
      encryptTrusted M (setUnion jids [M.ownJid]) x.2 pt devices) _ _
    have hnd : (setUnion jids [M.ownJid]).Nodup := nodup_dedup _
    have hno : ∀ ns j d, ¬ Got [(⟨.getBackends, .ok bs⟩ : Ev)] ns j d := fun _ _ _ => SM.not_got (by simp [Op.noBundle, Op.getsBundle])
    rw [ends_bind]
    have hlab : wp (Rec φ) (recipientDevices M order (setUnion jids [M.ownJid])) (ends (fun _ h' => ∀ e ∈ h', LabelledIn e) fun _ _ => True)
        [⟨.getBackends, .ok bs⟩] := by
      refine wp_mono Rec.exec ?_
      rintro r _ ⟨t, rfl, _, ht⟩
      cases r with
      | ok =>
        intro e he
        rcases List.mem_append.1 he with he | he
        · cases List.mem_singleton.1 he
          exact nofun
        · exact hl e (ht e he)
      | raised => trivial
      | crashed => trivial
    refine ends_mono (ends_and (ends_and (needed_recipients order _ hnd (hfirst _) hno) (trace_recipientDevices order _ hnd)) hlab) ?_
      fun _ _ h => h.1.1
    rintro ⟨devices, cache⟩ h' ⟨⟨⟨t, rfl, hg, hk⟩, _, infos, hr⟩, hlab⟩
    dsimp only at hk hr ⊢
    have hc : Covered cache (fun _ _ _ => False) ([⟨.getBackends, .ok bs⟩] ++ t) := by
      refine ⟨hg, fun ns j d hx => .inl ?_⟩
      rcases got_append.1 hx with hx | ⟨b, hb⟩
      · exact absurd hx (hno ns j d)
      · exact ⟨b, (hk ns j d b hb).2, hlab _ (List.mem_append_right _ hb) ns j d b rfl⟩
    have q : AllOps Op.noBundle (decideTrust M devices i) := by
      unfold decideTrust askTrust devicesWithTrust reloadTrust
      lib_ops [hdec]
      all_goals rfl
    rw [ends_bind]
    refine ends_mono (ends_and (hc.step q) (trace_decideTrust devices i hr.addrs)) ?_ fun _ _ h => h.1
    rintro out h' ⟨hc, t', v1, v2, tm, h0, _, _, hd, _⟩
    exact covered_encryptTrusted pt _ hd.nodup hφ hc

end SM

/-- C82: `encrypt` downloads a bundle only if it did not obtain it before, and only for a device whose identity key is not stored or that has
no session.  Assumed: bundles are labelled with the device they were downloaded for, and the trust decision downloads no bundles. -/
theorem C82 (M : Mgr) (jids : List Jid) (pt : Dict Ns Bytes) (prio : Option (List Ns)) (i : Option String) (t : List Ev)
    (r : Res Exn (Dict Message PlainKM × List EncError)) (he : Exec (encrypt M jids pt prio i) t r) (hb : BackendsOnce t)
    (hdec : ∀ ds i t r, Exec (M.decide ds i) t r → ∀ e ∈ t, ∀ ns j d, e.1 ≠ .downloadBundle ns j d)
    (hlab : ∀ ns j d b, (⟨.downloadBundle ns j d, .ok b⟩ : Ev) ∈ t → b.ns = ns ∧ b.bareJid = j ∧ b.deviceId = d) :
    Guarded Needed t := by
  have hd : ∀ ds i, AllOps Op.noBundle (M.decide ds i) := fun ds i => .of_exec (fun o => ⟨.error .keyError⟩) fun t r hx e hm => by
    obtain ⟨o, a⟩ := e
    cases o <;> first | rfl | exact absurd rfl (hdec ds i t r hx _ hm _ _ _)
  have := Rec.sound (needed_encrypt (φ := fun e => OnceIn e ∧ LabelledIn e) jids pt prio i hd (fun _ h => h.1) fun _ h => h.2) he fun e hm => ⟨?_, ?_⟩
  · cases r <;> exact this
  · rintro bs rfl; exact hb bs hm
  · rintro ns j d b rfl; exact hlab ns j d b hm

/-- The same for `get_device_information`: one bundle per device that is on the list and has no stored key. -/
theorem C82_info (M : Mgr) (jid : Jid) (t : List Ev) (r : Res Exn (List DeviceInfo)) (he : Exec (getDeviceInformation M jid) t r) :
    Guarded (fun h e => ∀ ns j d, e.1 = .downloadBundle ns j d → j = jid ∧ KeyMissing h j d ∧ ∀ ns', ¬ Got h ns' j d) t := by
  intro h1 e h2 ht ns j d hop
  have hf : ∀ x ∈ t, Foot.Info jid x.1 := (ops_getDeviceInformation M jid).exec he
  have hg : Guarded Needed t := by
    have : wp (Rec fun _ => True) (getDeviceInformation M jid) (ends (fun _ h' => Guarded Needed h') fun _ h' => Guarded Needed h') [] := by
      unfold getDeviceInformation
      rw [ends_bind]
      exact ends_mono (needed_info jid Guarded.nil fun _ _ => SM.not_got (by simp)) (fun _ _ h => h.guard) fun _ _ h => h
    have := Rec.sound this he fun _ _ => trivial
    cases r <;> exact this
  refine ⟨?_, ?_⟩
  · have := hf e (by simp [ht])
    rw [hop] at this
    cases this
    rfl
  · rcases (hg h1 e h2 ht ns j d hop).2 with h3 | h3
    · exact h3
    · have := hf _ (by rw [ht]; exact List.mem_append_left _ h3)
      cases this

/-- A consequence for trust, sharpening C36: a session is built from a bundle with another key than the one evaluated as trusted only if the
bundle was not among those obtained when the devices were looked up, but was downloaded for this session. -/
theorem C82_key (M : Mgr) (jids : List Jid) (pt : Dict Ns Bytes) (prio : Option (List Ns)) (i : Option String) (t : List Ev)
    (r : Res Exn (Dict Message PlainKM × List EncError)) (he : Exec (encrypt M jids pt prio i) t r) (hb : BackendsOnce t)
    (hq : CallbackQuiet M.decide)
    (hdec : ∀ ds i t r, Exec (M.decide ds i) t r → ∀ e ∈ t, ∀ ns j d, e.1 ≠ .downloadBundle ns j d)
    (hlab : ∀ ns j d b, (⟨.downloadBundle ns j d, .ok b⟩ : Ev) ∈ t → b.ns = ns ∧ b.bareJid = j ∧ b.deviceId = d) :
    Guarded (fun h e => ∀ ns j d b m, e.1 = .buildActive ns j d b m →
      ∃ dev, dev.bareJid = j ∧ dev.deviceId = d ∧ LastEval h dev .trusted ∧
        (b.identityKey = dev.identityKey ∨ ∃ h', h = h' ++ [⟨.downloadBundle ns j d, .ok b⟩] ∧ ¬ Got h' ns j d)) t := by
  intro h1 e h2 ht ns j d b m hop
  obtain ⟨dev, h3, h4, h5, h6⟩ := C36_evaluated_key_partial M jids pt prio i t r hq he hb (fun ns j d b hm => (hlab ns j d b hm).2) h1 e h2 ht ns j d b m hop
  refine ⟨dev, h3, h4, h5, h6.imp_right fun hl => ?_⟩
  obtain ⟨h', rfl⟩ := List.getLast?_eq_some_iff.1 hl
  refine ⟨h', rfl, ?_⟩
  exact (C82 M jids pt prio i t r he hb hdec hlab h' ⟨.downloadBundle ns j d, .ok b⟩ (e :: h2) (by simp [ht]) ns j d rfl).1

/-- Like `polite`, but there are no sessions, and no bundles for the backend "n". -/
def sparse : World → (o : Op) → Except Exn o.Ret
  | _, .downloadBundle ns j d => if ns = "n" then .error .bundleNotFound else .ok ⟨ns, j, d, [UInt8.ofNat d.toNat], 0⟩
  | _, .loadSession .. => .ok none
  | w, o => polite w o

theorem sparse_ok (w : World) (o : Op) (e : Exn) (h : sparse w o = .error e) : e.isInternal = false := by
  cases o with
  | downloadBundle ns j d =>
    simp only [sparse] at h
    split at h <;> cases h
    rfl
  | _ => cases h <;> rfl

def sparseRun := runProg (Lib.env sparse) Lib.next 200 (encrypt Mgr.ex ["a"] [("o", [1]), ("n", [2])] (some ["o", "n"]) none) World.chat

/-- The bundle of device 8 of "a" for "o" is downloaded to learn the identity key and used again for the session; that of device 7, whose key is
known, is downloaded for the session. -/
theorem C82_example :
    Exec (encrypt Mgr.ex ["a"] [("o", [1]), ("n", [2])] (some ["o", "n"]) none) sparseRun.1 sparseRun.2.1 ∧ BackendsOnce sparseRun.1 ∧
    (∀ ns j d b, (⟨.downloadBundle ns j d, .ok b⟩ : Ev) ∈ sparseRun.1 → b.ns = ns ∧ b.bareJid = j ∧ b.deviceId = d) ∧
    sparseRun.1.filterMap (fun e => match e.1 with
      | .downloadBundle ns j d => some (ns, j, d)
      | .buildActive ns j d _ _ => some (ns ++ "!", j, d)
      | _ => none) = [("n", "a", 8), ("o", "a", 8), ("o", "a", 7), ("o!", "a", 7), ("o!", "a", 8)] := by
  have hset : sparseRun.1.all (fun e => match e.1 with | .setBackends _ => false | _ => true) = true := by decide +kernel
  have hr : Lib.Runs World.chat sparseRun.1 sparseRun.2.2 := runProg_runs Lib (Lib.env sparse) (Lib.env_ok sparse sparse_ok) 200 _ World.chat
  refine ⟨runProg_exec .., fun bs hm => ?_, fun ns j d b hm => ?_, by decide +kernel⟩
  · rw [lib_backends hr ?_ bs hm]
    · decide
    · rw [List.all_eq_true] at hset
      intro e he bs hb
      have := hset e he
      rw [hb] at this
      cases this
  · obtain ⟨w, hw⟩ := runProg_answers _ _ _ _ _ _ hm
    simp only [Lib.env, sparse] at hw
    split at hw
    · cases hw
    · cases hw; exact ⟨rfl, rfl, rfl⟩

end Verif
