import Verif.Props.Own
/-
Starting again with the same backends.
-/
namespace Verif
open SM Spec Foot

/-- Every interaction of `p` from `w` satisfies `φ`. -/
def Doing (φ : Op → Prop) {α : Type} : P α → World → Prop
  | .ret _, _ => True
  | .raise _, _ => True
  | .op o k, w => φ o ∧ ∀ r, Lib.ok w ⟨o, r⟩ → Doing φ (k r) (Lib.next w ⟨o, r⟩)

namespace Doing
variable {φ : Op → Prop} {α β : Type} {w : World}

theorem exec {p : P α} (h : Doing φ p w) {t : List Ev} {r : Res Exn α} {w' : World} (he : Exec p t r) (hr : Lib.Runs w t w') : ∀ e ∈ t, φ e.1 := by
  induction he generalizing w with
  | ret a => simp
  | raise e => simp
  | crash o k => simp
  | op x _ ih =>
    intro e hm
    rcases List.mem_cons.1 hm with rfl | hm
    · exact h.1
    · exact ih (h.2 x hr.1) hr.2 e hm

theorem ofOps {p : P α} (h : AllOps φ p) : Doing φ p w := by
  induction p generalizing w with
  | ret a => trivial
  | raise e => trivial
  | op o k ih => exact ⟨h.1, fun r _ => ih r (h.2 r)⟩

theorem bind {p : P α} {f : α → P β} (hp : Doing φ p w) (hf : wp Lib p (ends (fun a w' => Doing φ (f a) w') (fun _ _ => True)) w) : Doing φ (p >>= f) w := by
  show Doing φ (Prog.bind p f) w
  induction p generalizing w with
  | ret a => exact hf
  | raise e => trivial
  | op o k ih => exact ⟨hp.1, fun r hr => ih r (hp.2 r hr) (hf.2 r hr)⟩

theorem tryCatch {p : P α} {h : Exn → P α} (hp : Doing φ p w) (hh : wp Lib p (fun r w' => ∀ e, r = .raised e → Doing φ (h e) w') w) :
    Doing φ (p.tryCatch h) w := by
  induction p generalizing w with
  | ret a => trivial
  | raise e => exact hh e rfl
  | op o k ih => exact ⟨hp.1, fun r hr => ih r (hp.2 r hr) (hh.2 r hr)⟩

theorem onNothing {p h : P α} (hp : Doing φ p w) (hh : wp Lib p (fun r _ => r ≠ .raised .nothingException) w) : Doing φ (Verif.onNothing p h) w := by
  refine tryCatch hp (wp_mono hh fun r w' hr e he => ?_)
  split
  · rename_i h
    exact (hr (h ▸ he)).elim
  · trivial

theorem op {o : Op} (h : φ o) : Doing φ (call o) w := ofOps (.perform h)

/-- With an invariant. -/
theorem fold {γ : Type} (I : World → Prop) {xs : List β} {b : γ} {f : γ → β → P γ} (hw : I w) (hp : ∀ b, ∀ x ∈ xs, Pres Lib I (f b x))
    (h : ∀ b, ∀ x ∈ xs, ∀ w, I w → Doing φ (f b x) w) : Doing φ (Prog.fold xs b f) w := by
  induction xs generalizing b w with
  | nil => trivial
  | cons x xs ih =>
    refine bind (h b x (by simp) w hw) (wp_mono (hp b x (by simp) w hw) fun r w' hr => ?_)
    cases r with
    | ok a => exact ih hr (fun b y hy => hp b y (by simp [hy])) fun b y hy => h b y (by simp [hy])
    | raised e => trivial
    | crashed => trivial

end Doing

namespace Restart
open OwnData

/-- The own device matches the loaded backends, which are `bs` in some order. -/
def ExactS (own : Jid) (dev : DevId) (bs : List Ns) (w : World) : Prop := Exact own dev w.backends w ∧ ∀ ns, ns ∈ w.backends ↔ ns ∈ bs

section
variable {M : Mgr} {own : Jid} {dev : DevId} {bs : List Ns} {α : Type} {x : XEdDSA} {kp : IdentityKeyPair}

theorem exactS_of {w w' : World} (hb : w'.backends = w.backends) (h1 : w'.disk (.devNamespaces own dev) = w.disk (.devNamespaces own dev))
    (h2 : w'.disk (.devActive own dev) = w.disk (.devActive own dev)) (h : ExactS own dev bs w) : ExactS own dev bs w' :=
  ⟨⟨rfl, by rw [h1, hb]; exact h.1.2, by rw [h2, hb]; exact h.1.3⟩, by rw [hb]; exact h.2⟩

theorem exactS_calm : OpsKeep (ExactS own dev bs) Calm := fun o ho w r hok hw => by
  have h := exact_calm (own := own) (dev := dev) (bs := w.backends) o ho w r hok hw.1
  refine ⟨?_, ?_⟩
  · rw [h.loaded]; exact h
  · rw [h.loaded]; exact hw.2

theorem exactS_looked {jid : Jid} {w w' : World} (h : LookedW jid w w') (hw : ExactS own dev bs w) : ExactS own dev bs w' := by
  have h' := exact_looked h hw.1
  exact ⟨by rw [h'.loaded]; exact h', by rw [h'.loaded]; exact hw.2⟩

/-- An update leaves what is stored for the own device alone, wherever it ends. -/
theorem exactS_update (hj : M.ownJid = own) (hd : M.ownDev = dev) {ns : Ns} {jid : Jid} {dl : DevList} {w : World} (hk : Known w.disk own dev)
    (hw : ExactS own dev bs w) : wp Lib (updateDeviceList M ns jid dl) (fun _ w' => ExactS own dev bs w') w := by
  by_cases hns : ns ∈ w.backends
  · have key : ∀ k, k = .devNamespaces own dev ∨ k = .devActive own dev → Upd.target M ns jid dl w.disk k = w.disk k := by
      obtain ⟨l, hl, hl'⟩ := hw.1.namespaces
      obtain ⟨a, ha, ha'⟩ := hw.1.active
      have hnew : ¬ (own = jid ∧ dev ∈ Upd.new w.disk jid dl) := by
        rintro ⟨rfl, h2⟩
        unfold Upd.new at h2
        rw [mem_setDiff] at h2
        exact h2.2 (Keep.known_old hk)
      have heff : jid = own → ∃ e, (Upd.eff M jid dl w.disk).get dev = some e := by
        rintro rfl
        unfold Upd.eff
        split
        · exact ⟨_, by rw [hd]; exact Dict.get_set_self⟩
        · rename_i h
          have : M.ownDev ∈ dl.keys := Decidable.not_not.1 fun h' => h ⟨hj.symm, h'⟩
          rw [hd] at this
          exact Option.isSome_iff_exists.1 (Dict.mem_keys.1 this)
      rintro k (rfl | rfl)
      · unfold Upd.target
        dsimp only
        rw [if_neg hnew]
        split
        · rename_i h
          obtain ⟨e, he⟩ := heff h.1.symm
          rw [he]
          unfold Upd.nsAfter
          dsimp only
          rw [if_neg]
          rw [Decidable.not_not, hl]
          simp [Upd.strs, rd, hl', hns]
        · rfl
      · unfold Upd.target
        dsimp only
        rw [if_neg hnew]
        split
        · rename_i h
          obtain ⟨e, he⟩ := heff h.1.symm
          rw [he]
          unfold Upd.activeAfter
          dsimp only
          rw [if_neg]
          rw [Decidable.not_not, ha]
          simp [Upd.bools, rd, ha' ns hns]
        · rfl
    refine wp_mono Upd.wp_updateDeviceList fun r w' hr => ?_
    have hpart : Upd.Part M ns jid dl w w' → ExactS own dev bs w' := by
      rintro ⟨hb, _, h⟩
      refine exactS_of hb.1 ?_ ?_ hw
      · rcases h (.devNamespaces own dev) with h | h
        · exact h
        · exact h.2.trans (key _ (.inl rfl))
      · rcases h (.devActive own dev) with h | h
        · exact h
        · exact h.2.trans (key _ (.inr rfl))
    cases r with
    | raised e => exact hpart hr.2
    | crashed => exact hpart hr.2
    | ok a =>
      obtain ⟨_, _, hb, _, hdisk⟩ := hr
      exact exactS_of hb.1 (by rw [hdisk]; exact key _ (.inl rfl)) (by rw [hdisk]; exact key _ (.inr rfl)) hw
  · unfold updateDeviceList
    rw [wp_ends]
    rw [ends_bind]
    refine Lib.getBackends hw ?_
    rw [if_pos hns]
    exact hw

/-- Sound, with the own device matching the backends. -/
def FitS (own : Jid) (x : XEdDSA) (kp : IdentityKeyPair) (dev : DevId) (bs : List Ns) (w : World) : Prop :=
  SoundK own x kp dev w ∧ ExactS own dev bs w

theorem fitS_parts (hj : M.ownJid = own) (hd : M.ownDev = dev) : CalmParts (FitS own x kp dev bs) M := by
  have hs : Parts (SoundK own x kp dev) M := by
    have h := sound_parts (x := x) (kp := kp) hj dev (M := M)
    rwa [← hd] at h ⊢
  refine ⟨fun o ho w r hok hw => ⟨hs.quiet o ho.1 w r hok hw.1, exactS_calm o ho w r hok hw.2⟩, fun jid w hw => ?_, fun ns jid dl w hw => ?_⟩
  · exact wp_mono (wp_and (hs.info jid w hw.1) (looked_info' jid w)) fun _ _ h => ⟨h.1, exactS_looked h.2 hw.2⟩
  · exact wp_and (hs.update ns jid dl w hw.1) (exactS_update hj hd (hw.1.2.2.2.known dev rfl) hw.2)

theorem exactS_keep {φ : Op → Prop} (h : ∀ o, φ o → (∀ k, k = .devNamespaces own dev ∨ k = .devActive own dev → (∀ v, o ≠ .store k v) ∧ o ≠ .delete k) ∧ ∀ l, o ≠ .setBackends l) :
    OpsKeep (ExactS own dev bs) φ := fun o ho w r _ hw => by
  obtain ⟨h1, h2⟩ := h o ho
  have hk : ∀ k, k = .devNamespaces own dev ∨ k = .devActive own dev → (Lib.next w ⟨o, r⟩).disk k = w.disk k := by
    intro k hk
    obtain ⟨h3, h4⟩ := h1 k hk
    cases o with
    | store k' v => cases r with
      | ok a => exact Disk.upd_of_ne fun e => h3 v (e ▸ rfl)
      | error e => rfl
    | delete k' => cases r with
      | ok a => exact Disk.upd_of_ne fun e => h4 (e ▸ rfl)
      | error e => rfl
    | _ => cases r <;> rfl
  exact exactS_of (backends_next h2 w r) (hk _ (.inl rfl)) (hk _ (.inr rfl)) hw

theorem exactS_ikp : Pres Lib (ExactS own dev bs) IdentityKeyPair.get :=
  (exactS_keep (φ := Ikp) fun o ho => by
    cases ho <;> refine ⟨?_, (fun _ h => by cases h)⟩ <;> rintro k (rfl | rfl) <;> exact ⟨(fun _ h => by cases h), (fun h => by cases h)⟩).pres ops_ikp

theorem fitS_extra (hj : M.ownJid = own) (hd : M.ownDev = dev) {c : Call} (hc : Between own bs c) (hn : ∀ bs l f, c ≠ .create bs l f) (happ : ViaApi M)
    (hdec : c.inDecision = false → ∀ ds i, Pres Lib (FitS own x kp dev bs) (M.decide ds i)) : CalmParts.Extra (FitS own x kp dev bs) M c := by
  cases c with
  | getIdentityKeyPair => exact sound_ikp.and exactS_ikp
  | create bs l f => exact (hn _ _ _ rfl).elim
  | purgeBackend ns => exact hc.elim
  | purgeBareJid jid =>
    have hne : jid ≠ own := hc
    refine (sound_call (x := x) (kp := kp) hj hd (c := .purgeBareJid jid) nofun (fun h => hne (by cases h; rfl)) happ).and ?_
    refine (exactS_keep (φ := PurgeJid jid) fun o ho => ?_).pres (SM.ops_purgeBareJid M jid)
    cases ho <;> refine ⟨?_, (fun _ h => by cases h)⟩ <;> rintro k (rfl | rfl) <;> exact ⟨(fun _ h => by cases h), (fun h => by cases h <;> exact hne rfl)⟩
  | setTrust j ik l =>
    refine (sound_call (x := x) (kp := kp) hj hd (c := .setTrust j ik l) nofun nofun happ).and ?_
    refine (exactS_keep (φ := fun o => o = .store (.trust j ik) (.str l)) fun o ho => ?_).pres (.perform rfl)
    subst ho
    refine ⟨?_, (fun _ h => by cases h)⟩
    rintro k (rfl | rfl) <;> exact ⟨(fun _ h => by cases h), (fun h => by cases h)⟩
  | setOwnLabel l =>
    have hs : Pres Lib (SoundK own x kp dev) (call (.store (.devLabel M.ownJid M.ownDev) (.ofOptStr l))) := by
      intro w hw
      have h := sound_call (x := x) (kp := kp) hj hd (c := .setOwnLabel l) nofun nofun happ w hw
      have h : wp Lib (call (.store (.devLabel M.ownJid M.ownDev) (.ofOptStr l)) >>= fun _ => _) _ w := h
      rw [wp_bind] at h
      refine wp_mono (wp_and (wp_iff.2 fun _ _ _ _ _ => trivial : wp Lib (call (.store (.devLabel M.ownJid M.ownDev) (.ofOptStr l))) (fun _ _ => True) w) h) fun r w' h => ?_
      cases r with
      | ok a => exact h.2.1
      | raised e => exact h.2
      | crashed => exact h.2
    refine hs.and ?_
    refine (exactS_keep (φ := fun o => o = .store (.devLabel M.ownJid M.ownDev) (.ofOptStr l)) fun o ho => ?_).pres (.perform rfl)
    subst ho
    refine ⟨?_, (fun _ h => by cases h)⟩
    rintro k (rfl | rfl) <;> exact ⟨(fun _ h => by cases h), (fun h => by cases h)⟩
  | encrypt => exact hdec rfl
  | _ => trivial

theorem retainsAll_via (h : RetainsAll M) : ViaApi M := fun ds i => (h ds i).via fun _ h => h.1

theorem between_retains {c : Call} (h : Retains c) : Between own bs c := by
  cases c with
  | create => cases h.1
  | purgeBackend ns => exact (h.2 ns rfl).elim
  | purgeBareJid => cases h.1
  | _ => trivial

theorem fitS_call (hj : M.ownJid = own) (hd : M.ownDev = dev) {c : Call} (hc : Between own bs c) (hn : ∀ bs l f, c ≠ .create bs l f) (happ : RetainsAll M) :
    Pres Lib (FitS own x kp dev bs) (c.run M) := by
  refine (fitS_parts hj hd).call c (fitS_extra hj hd hc hn (retainsAll_via happ) fun _ ds i => ?_)
  refine (fitS_parts hj hd).app (fun c h => ?_) (happ ds i)
  refine fitS_extra hj hd (between_retains h) (fun bs l f e => ?_) (retainsAll_via happ) fun h' => ?_
  · subst e; cases h.1
  · rw [h.1] at h'; cases h'

/-! ### Creating again -/

theorem _root_.Verif.Doing.typedJust {φ : Op → Prop} {β : Type} {k : Key} {w : World} {f : JVal → Except Exn β} {g : β → P α} (hl : φ (.load k))
    (h : ∀ b, rd f (w.disk k) = .ok b → Doing φ (g b) w) :
    Doing φ ((call (.load k) >>= fun v => Maybe.fmap f v) >>= fun o => Maybe.fromJust o >>= g) w := by
  refine .bind (.ofOps (.bind (.perform hl) fun _ => allOps_fmap _ _)) (Lib.typed (f := f) (fun _ _ => trivial) (fun _ _ _ _ => trivial) (fun _ => trivial) fun v b hv hb => ?_)
  exact h b (by rw [hv]; exact hb)

/-- Everything device `d` is stored as supporting has activity information. -/
def Full (m : Disk) (j : Jid) (d : DevId) : Prop :=
  ∀ l a, m (.devNamespaces j d) = some (.ofStrs l) → m (.devActive j d) = some (.ofBools a) → ∀ n ∈ l, (a.get n).isSome = true

theorem full_looked {j : Jid} {d : DevId} {m m' : Disk} (h : Looked j m m') (hf : Full m j d) : Full m' j d := by
  intro l a hl ha n hn
  rw [h.active] at ha
  rcases h.namespaces d with h1 | ⟨l0, a0, l', h1, h2, h3, h4⟩
  · exact hf l a (h1.symm.trans hl) ha n hn
  · rw [h2] at ha
    rw [h3] at hl
    simp only [Option.some.injEq] at ha hl
    obtain rfl := ofStrs_inj' hl
    obtain rfl := ofBools_inj' ha
    exact ((h4 n).1 hn).2

theorem full_fitS {w : World} (hw : FitS own x kp dev bs w) {d : DevId} (hk : Known w.disk own d) : Full w.disk own d := by
  intro l a hl ha n hn
  by_cases hd : d = dev
  · subst hd
    obtain ⟨l', h1, h2⟩ := hw.2.1.namespaces
    obtain ⟨a', h3, h4⟩ := hw.2.1.active
    rw [hl] at h1
    rw [ha] at h3
    simp only [Option.some.injEq] at h1 h3
    obtain rfl := ofStrs_inj' h1
    obtain rfl := ofBools_inj' h3
    rw [h4 n ((h2 n).1 hn)]
    rfl
  · obtain ⟨b, a', h1, h2⟩ := hw.1.1.covered own d hk (fun h => hd h.2) n ⟨l, hl, hn⟩
    rw [ha] at h1
    simp only [Option.some.injEq] at h1
    obtain rfl := ofBools_inj' h1
    rw [h2]
    rfl

theorem doing_fetch (d : DevId) (hd : d ≠ dev) (nss : List Ns) : AllOps (Startup own dev) (fetchIdentityKey own d nss) := by
  induction nss with
  | nil => trivial
  | cons ns nss ih =>
    unfold fetchIdentityKey Sto.storeBytes
    have h1 : ∀ ns, Startup own dev (.downloadBundle ns own d) := fun ns => .download ns d hd
    have h2 : ∀ v, Startup own dev (.store (.devIdentityKey own d) v) := fun v => .identityKey d v hd
    lib_ops [h1, h2]

theorem doing_device {d : DevId} {w : World} (hf : Full w.disk own d) (hk : d = dev → ∃ b, HasKey w.disk own dev b) :
    Doing (Startup own dev) (deviceInformation M own d) w := by
  unfold deviceInformation
  refine .typedJust (.load _) fun l hl => ?_
  have hl' : w.disk (.devNamespaces own d) = some (.ofStrs l) := by
    cases hv : w.disk (.devNamespaces own d) with
    | none => rw [hv] at hl; cases hl
    | some v => rw [hv] at hl; rw [strs_of_check hl]
  dsimp only
  refine .bind ?_ (wp_mono (looked_identityKeyOf _ w) fun r w1 h1 => ?_)
  · unfold identityKeyOf
    by_cases hd : d = dev
    · subst hd
      obtain ⟨b, hb⟩ := hk rfl
      refine .onNothing (.ofOps ?_) ?_
      · have h1 : ∀ k, Startup own d (.load k) := .load
        unfold Sto.loadBytes
        lib_ops [h1]
      · rw [wp_ends]
        refine Lib.typedJust (fun x hx => ?_) (fun e he => ?_) fun _ _ => nofun
        · cases x with
          | none => nofun
          | some e => rintro ⟨⟩; cases hx
        · rintro ⟨⟩
          rw [hb] at he
          simp only [rd] at he
          exact absurd rfl (bytes_not_nothing he)
    · refine .ofOps ?_
      have h1 : ∀ k, Startup own dev (.load k) := .load
      have h2 := doing_fetch (own := own) (dev := dev) d hd
      unfold Verif.onNothing Sto.loadBytes
      lib_ops [h1, h2]
  · obtain ⟨h1, h2⟩ := h1
    cases r with
    | raised e => trivial
    | crashed => trivial
    | ok o =>
      simp only [ends_ok]
      split
      · trivial
      · refine .typedJust (.load _) fun a ha => ?_
        have ha' : w1.disk (.devActive own d) = some (.ofBools a) := by
          cases hv : w1.disk (.devActive own d) with
          | none => rw [hv] at ha; cases ha
          | some v => rw [hv] at ha; rw [bools_of_check ha]
        refine .typedJust (.load _) fun lab _ => ?_
        refine .bind (.ofOps (.bind (.perform (.load _)) fun _ => allOps_fmap _ _)) (wp_iff.2 fun t r w2 _ _ => ?_)
        cases r with
        | raised e => trivial
        | crashed => trivial
        | ok lv =>
          simp only [ends_ok]
          have hrep : repairNamespaces M own d (dedup l) a = pure (dedup l) := by
            unfold repairNamespaces
            rw [if_neg]
            simp only [List.any_eq_true, not_exists, not_and]
            intro n hn
            have := hf l a hl' ((h2 (.devActive own d) nofun).symm.trans ha') n (by simpa using hn)
            cases h : a.get n with
            | none => rw [h] at this; cases this
            | some b => simp
          rw [hrep]
          trivial

theorem doing_own {w : World} (hj : M.ownJid = own) (hw : FitS own x kp dev bs w) : Doing (Startup own dev) (getOwnDeviceInformation M) w := by
  subst hj
  have hid : ∀ {α : Type} (o : Option α) w, Doing (Startup M.ownJid dev) (nextOrRuntimeError o) w := fun o w => .ofOps (allOps_next o)
  unfold getOwnDeviceInformation getDeviceInformation getDeviceInformation'
  refine .bind (.bind ?_ (wp_iff.2 fun _ r _ _ _ => ?_)) (wp_iff.2 fun _ r _ _ _ => ?_)
  · refine .bind (.ofOps (.bind (.perform (.load _)) fun _ => allOps_fmap _ _)) ?_
    refine wp_mono (Q := ends (fun o w' => w' = w ∧ dedup (Maybe.maybe o []) = Upd.old w.disk M.ownJid) (fun _ _ => True)) ?_ fun r w' h => ?_
    · refine Lib.typed (f := chkInts) (fun _ _ => trivial) (fun _ _ _ _ => trivial) (fun h0 => ⟨rfl, ?_⟩) fun v b hv hb => ⟨rfl, ?_⟩
      · simp [Upd.old, Upd.ints, h0, rd, Maybe.maybe]
      · simp [Upd.old, Upd.ints, hv, rd, Maybe.maybe, hb]
    · cases r with
      | raised e => trivial
      | crashed => trivial
      | ok o =>
        obtain ⟨rfl, ho⟩ := h
        simp only [ends_ok]
        rw [ho]
        refine .fold (fun w1 => LookedW M.ownJid w' w1) (.refl _ _) (fun b d _ => ?_) fun b d hd w1 h1 => ?_
        · refine Pres.bind (fun w1 h1 => wp_mono (looked_deviceInformation d w1) fun _ _ h => h1.trans h) fun o => ?_
          obtain ⟨_, _⟩ := b
          dsimp only
          split <;> exact Pres.pure _
        · rw [SetOrder.mem_iter] at hd
          have hk := Keep.old_known hw.1.2.2.2.complete hd
          refine .bind (doing_device (full_looked h1.disk (full_fitS hw hk)) fun _ => ⟨_, h1.disk.pinned _ _ hw.1.2.1⟩) (wp_iff.2 fun _ r _ _ _ => ?_)
          cases r with
          | raised e => trivial
          | crashed => trivial
          | ok o =>
            obtain ⟨_, _⟩ := b
            simp only [ends_ok]
            split <;> trivial
  · cases r <;> trivial
  · cases r with
    | raised e => trivial
    | crashed => trivial
    | ok all => exact .bind (hid _ _) (wp_iff.2 fun _ r _ _ _ => by cases r <;> trivial)

/-- Looking at the own devices: the invariant is kept, and the own device reported matches the backends. -/
theorem own_matches (hj : M.ownJid = own) (hd : M.ownDev = dev) {w : World} (hw : FitS own x kp dev bs w) :
    wp Lib (getOwnDeviceInformation M) (ends (fun r w' => FitS own x kp dev bs w' ∧ setEq (dedup w'.backends) r.1.namespaces = true) (fun _ w' => FitS own x kp dev bs w')) w := by
  have h1 := (fitS_parts (x := x) (kp := kp) (bs := bs) hj hd).getOwnDeviceInformation w hw
  refine wp_mono (wp_and h1 (recorded_own (M := M) w)) fun r w' h => ?_
  cases r with
  | raised e => exact h.1
  | crashed => exact h.1
  | ok r =>
    obtain ⟨h1, hid, hrec⟩ := h
    refine ⟨h1, ?_⟩
    obtain ⟨l, h2, h3⟩ := hrec.namespaces
    obtain ⟨l', h4, h5⟩ := h1.2.1.namespaces
    rw [hid, hj, hd, h4] at h2
    cases ofStrs_inj' (Option.some.inj h2)
    simp only [setEq, Bool.and_eq_true, List.all_eq_true, decide_eq_true_eq, mem_dedup]
    exact ⟨fun n hn => (h3 n).1 ((h5 n).2 hn), fun n hn => (h5 n).1 ((h3 n).2 hn)⟩

theorem wp_handle (hj : M.ownJid = own) (hd : M.ownDev = dev) {w : World} (hw : FitS own x kp dev bs w) :
    wp Lib (handleChangedBackends M) (fun _ w' => FitS own x kp dev bs w') w ∧ Doing (Startup own dev) (handleChangedBackends M) w := by
  unfold handleChangedBackends
  constructor
  · rw [wp_ends, ends_bind]
    refine ends_mono (own_matches hj hd hw) (fun r w' h => ?_) fun x w' h => by cases x <;> exact h
    obtain ⟨r, _⟩ := r
    dsimp only
    rw [ends_bind]
    refine Lib.getBackends h.1 ?_
    exact ends_when (fun hc => (hc h.2).elim) fun _ => h.1
  · refine .bind (doing_own hj hw) (ends_mono (own_matches hj hd hw) (fun r w' h => ?_) fun _ _ _ => trivial)
    obtain ⟨r, _⟩ := r
    dsimp only
    refine .bind (.op .getBackends) (Lib.getBackends trivial ?_)
    have : setEq (dedup w'.backends) r.namespaces = true := h.2
    unfold Prog.when
    rw [if_neg (fun hc => hc this)]
    trivial

/-- Creating a manager again, with the same backends. -/
theorem wp_again (hj : M.ownJid = own) {bs' : List Ns} (hb : ∀ ns, ns ∈ bs' ↔ ns ∈ bs) (label : Option String) (fuel : Nat) {w : World} (hw : FitS own x kp dev bs w) :
    wp Lib (SM.create M bs' label fuel) (ends (fun d w' => d = dev ∧ FitS own x kp dev bs w') (fun _ w' => FitS own x kp dev bs w')) w ∧
    Doing (Startup own dev) (SM.create M bs' label fuel) w := by
  have hw0 : FitS own x kp dev bs { w with backends := bs' } := by
    obtain ⟨⟨_, ⟨l, h1, h2⟩, ⟨a, h3, h4⟩⟩, h5⟩ := hw.2
    exact ⟨hw.1, ⟨rfl, ⟨l, h1, fun n => by rw [h2, h5, hb]⟩, ⟨a, h3, fun n hn => h4 n ((h5 n).2 ((hb n).1 hn))⟩⟩, hb⟩
  have hikp : Pres Lib (FitS own x kp dev bs) IdentityKeyPair.get := sound_ikp.and exactS_ikp
  have hrest : ∀ kp' w, FitS own x kp dev bs w →
      wp Lib (SM.createRest M label kp' fuel) (ends (fun d w' => d = dev ∧ FitS own x kp dev bs w') (fun _ w' => FitS own x kp dev bs w')) w ∧
      Doing (Startup own dev) (SM.createRest M label kp' fuel) w := by
    intro kp' w hw
    have hw1 : FitS own x kp dev bs { w with sync := true } := ⟨hw.1, ⟨rfl, hw.2.1.2, hw.2.1.3⟩, hw.2.2⟩
    have hid : ∀ {Q : Int → World → Prop} {X : Option Exn → World → Prop}, (∀ x, X x { w with sync := true }) → Q dev { w with sync := true } →
        wp Lib (onNothing (do Maybe.fromJust (← Sto.loadInt .ownDeviceId)) (SM.firstRun M label (kp'.identityKey M.x) fuel)) (ends Q X) { w with sync := true } := by
      intro Q X hX hQ
      refine wp_ownId (fun _ _ => hX _) (fun _ _ _ _ => hX _) (fun hn => ?_) fun v d hv hc => ?_
      · rw [hw1.1.1.id] at hn; cases hn
      · rw [hw1.1.1.id] at hv
        cases hv
        rw [chkInt_of] at hc
        cases hc
        exact hQ
    unfold SM.createRest
    constructor
    · rw [ends_bind]
      refine Lib.setSync hw ?_
      rw [ends_bind]
      refine hid (fun _ => hw1) ?_
      rw [ends_bind]
      refine wp_mono (wp_handle (M := { M with ownDev := dev }) hj rfl hw1).1 fun r w' h => ?_
      cases r with
      | ok a => exact ⟨rfl, h⟩
      | raised e => exact h
      | crashed => exact h
    · refine .bind (.op .setSync) (Lib.setSync trivial ?_)
      refine .bind (.onNothing (.ofOps ?_) ?_) (hid (fun _ => trivial) ?_)
      · have h1 : ∀ k, Startup own dev (.load k) := .load
        unfold Sto.loadInt
        lib_ops [h1]
      · rw [wp_bind]
        refine wp_mono (Q := ends (fun o w' => o ≠ none) (fun x _ => x ≠ some .nothingException)) ?_ fun r w' h => ?_
        · refine Lib.typed (fun x hf' => ?_) (fun v e hv hc => ?_) (fun h0 => ?_) (fun v b hv hb => nofun)
          · rintro rfl; cases hf'
          · rintro ⟨⟩; exact chkInt_not_nothing hc rfl
          · rw [hw1.1.1.id] at h0; cases h0
        · cases r with
          | ok o => cases o with
            | none => exact (h rfl).elim
            | some d => nofun
          | raised e => rintro ⟨⟩; exact h rfl
          | crashed => nofun
      · exact .bind (wp_handle (M := { M with ownDev := dev }) hj rfl hw1).2 (wp_iff.2 fun _ r _ _ _ => by cases r <;> trivial)
  rw [SM.create_eq]
  split
  · exact ⟨hw, trivial⟩
  split
  · exact ⟨hw, trivial⟩
  constructor
  · rw [ends_bind]
    refine Lib.setBackends hw ?_
    rw [ends_bind]
    refine wp_mono (hikp _ hw0) fun r w' h => ?_
    cases r with
    | ok kp' => exact (hrest kp' w' h).1
    | raised e => exact h
    | crashed => exact h
  · refine .bind (.op (.setBackends _)) (Lib.setBackends trivial ?_)
    refine .bind ?_ (wp_mono (hikp _ hw0) fun r w' h => ?_)
    · unfold IdentityKeyPair.get
      refine .bind (.onNothing (.ofOps ?_) ?_) (wp_iff.2 fun _ r _ _ _ => by cases r <;> trivial)
      · have h1 : ∀ k, Startup own dev (.load k) := .load
        unfold IdentityKeyPair.load Sto.loadBool Sto.loadBytes
        lib_ops [h1]
      · refine wp_iff.2 fun t r w' he hr => ?_
        have h2 := (wp_sound (wp_ikp_load _) he (Lib.runs_kv hr)).2
        rintro rfl
        rcases h2 with ⟨_, h2⟩ | ⟨h2, _⟩
        · obtain ⟨s, h3, h4⟩ := (hw0.1.2.2.1 : HoldsIkp w.disk kp)
          change w.disk .ikpIsSeed = none ∨ w.disk .ikpKey = none at h2
          rcases h2 with h2 | h2
          · cases kp <;> simp [h2] at h4
          · rw [h2] at h3; cases h3
        · exact h2 rfl
    · cases r with
      | ok kp' => exact (hrest kp' w' h).2
      | raised e => trivial
      | crashed => trivial

theorem fitS_step {s s' : Use} {c : Mgr × Call} (h : Step own x s c s') (hc : Between own bs c.2) (happ : RetainsAll c.1) (hi : InUse own x s)
    (hs : FitS own x kp dev bs s.world) : FitS own x kp dev bs s'.world := by
  cases h with
  | @ikp w' t r M he hr =>
    exact wp_sound (((sound_ikp.and exactS_ikp).bind fun _ => Pres.pure _ : Pres Lib (FitS own x kp dev bs) (Call.getIdentityKeyPair.run M)) _ hs) he hr
  | @create w' t r M bs' label fuel hj hx he hr =>
    have h := wp_sound (wp_again hj hc label fuel hs).1 he hr
    cases r with
    | ok d => exact h.2
    | raised e => exact h
    | crashed => exact h
  | @call w' t r M c hM hn he hr =>
    rcases hi with ⟨_, h2⟩ | ⟨d, h1, h2⟩
    · rw [h2] at hM; cases hM
    · obtain ⟨hj, hx, hd⟩ := h2 M hM
      cases hs.1.1.id.symm.trans h1
      exact wp_sound (fitS_call hj hd hc hn happ _ hs) he hr

theorem fitS_life {s s' : Use} {cs : List (Mgr × Call)} (h : Life own x s cs s') (hc : ∀ c ∈ cs, Between own bs c.2) (happ : ∀ c ∈ cs, RetainsAll c.1)
    (hi : InUse own x s) (hs : FitS own x kp dev bs s.world) : FitS own x kp dev bs s'.world := by
  induction h with
  | nil => exact hs
  | cons hst _ ih =>
    exact ih (fun c h => hc c (.tail _ h)) (fun c h => happ c (.tail _ h)) (inUse_step hst (retainsAll_via (happ _ (.head _))) hi)
      (fitS_step hst (hc _ (.head _)) (happ _ (.head _)) hi hs)

end
end Restart

/-! ### C91 -/

/-- Creating a manager again with the same backends, after a life in which nothing about the own device was purged: only what is stored is read, and the identity
keys of other devices of the account are looked up, however the creation ends.  The same device id is returned, and the own device stays as it is. -/
theorem C91 (own : Jid) (x : XEdDSA) (s0 s s' : Use) (cs cs' : List (Mgr × Call)) (M0 M : Mgr) (bs bs' : List Ns) (label0 label : Option String) (fuel0 fuel : Nat)
    (d : DevId) (t0 t : List Ev) (w0 w' : World) (r : Res Exn DevId) (hnew : New s0)
    (h : Life own x s0 cs s) (happ : ∀ c ∈ cs, ViaApi c.1) (hp : ∀ c ∈ cs, c.2 ≠ .purgeBareJid own)
    (hj0 : M0.ownJid = own) (hx0 : M0.x = x) (hv : ViaApi M0) (he0 : Exec (SM.create M0 bs label0 fuel0) t0 (.ok d)) (hr0 : Lib.Runs s.world t0 w0)
    (h' : Life own x ⟨w0, s.mgrs ++ [{ M0 with ownDev := d }]⟩ cs' s') (hc : ∀ c ∈ cs', Between own bs c.2) (hk : ∀ c ∈ cs', RetainsAll c.1)
    (hj : M.ownJid = own) (hb : ∀ ns, ns ∈ bs' ↔ ns ∈ bs) (he : Exec (SM.create M bs' label fuel) t r) (hr : Lib.Runs s'.world t w') :
    (∀ e ∈ t, Startup own d e.1) ∧ (∀ d', r = .ok d' → d' = d) ∧ ∃ kp, HoldsIkp w'.disk kp ∧ OwnDevice w'.disk own d (kp.identityKey x) bs := by
  have h1 := OwnData.usable_life h happ hp (inUse_new hnew) (OwnData.usable_new hnew)
  have h2 := inUse_life h happ (inUse_new hnew)
  obtain ⟨kp, hfit⟩ := wp_sound (OwnData.fit_create hj0 hx0 label0 fuel0 _ h1) he0 hr0
  have h3 : InUse own x ⟨w0, s.mgrs ++ [{ M0 with ownDev := d }]⟩ :=
    inUse_step (Step.create (s := s) M0 bs label0 fuel0 hj0 hx0 he0 hr0) hv h2
  have h4 : Restart.FitS own x kp d bs w0 := ⟨hfit.1, by rw [hfit.2.loaded]; exact hfit.2, by rw [hfit.2.loaded]; exact fun _ => Iff.rfl⟩
  have h5 := Restart.fitS_life h' hc hk h3 h4
  obtain ⟨h6, h7⟩ := Restart.wp_again hj hb label fuel h5
  have h8 := wp_sound h6 he hr
  have h9 : Restart.FitS own x kp d bs w' := by
    cases r with
    | ok d' => exact h8.2
    | raised e => exact h8
    | crashed => exact h8
  refine ⟨h7.exec he hr, ?_, kp, h9.1.2.2.1, h9.1.2.2.2.known d rfl, h9.1.2.1, fun ns => ?_, fun ns hns => ?_⟩
  · rintro d' rfl
    exact h8.1
  · obtain ⟨l, h2, h3⟩ := h9.2.1.namespaces
    refine Iff.trans ⟨?_, fun h => ⟨l, h2, h⟩⟩ ((h3 ns).trans (h9.2.2 ns))
    rintro ⟨l', h4, h5⟩
    rw [h2] at h4
    rwa [ofStrs_inj' (Option.some.inj h4)]
  · obtain ⟨a, h2, h3⟩ := h9.2.1.active
    exact ⟨a, h2, h3 ns ((h9.2.2 ns).2 hns)⟩

/-- A second device of the account showed up. -/
def Use.second : Use := Friendly.genuine.use Mgr.ex (.updateDeviceList "n" "me" [(1, none), (2, none)]) Use.started

theorem second_life : Life "me" Mgr.ex.x Use.started [(Mgr.ex, .updateDeviceList "n" "me" [(1, none), (2, none)])] Use.second :=
  Friendly.genuine.life (.nil _) (M := Mgr.ex) (c := .updateDeviceList "n" "me" [(1, none), (2, none)]) (by simp [Use.started]) nofun

/-- The account is started a second time, with the backends in a different order: the identity key of the second device is looked up.  With other backends, things are
published. -/
theorem C91_example : ∃ t w', Exec (SM.create Mgr.ex ["o", "n"] none 5) t (.ok 1) ∧ Lib.Runs Use.second.world t w' ∧ (∀ e ∈ t, Startup "me" 1 e.1) ∧
    (∃ e ∈ t, e.1 = .downloadBundle "n" "me" 2) ∧
    ∃ t', Exec (SM.create Mgr.ex ["o"] none 5) t' (.ok 1) ∧ (∃ w'', Lib.Runs Use.second.world t' w'') ∧ ∃ e ∈ t', ¬ Startup "me" 1 e.1 := by
  have hr : (Friendly.genuine.run (SM.create Mgr.ex ["o", "n"] none 5) Use.second.world).2.1 = .ok 1 := by decide +kernel
  have hr' : (Friendly.genuine.run (SM.create Mgr.ex ["o"] none 5) Use.second.world).2.1 = .ok 1 := by decide +kernel
  have he : Exec (SM.create Mgr.ex ["n", "o"] (some "pc") 5) firstCreate.1 (.ok 1) := firstCreate_result ▸ genuineRun_exec _ World.fresh
  have ha : RetainsAll Mgr.ex := fun _ _ => .ret ()
  have h := C91 "me" Mgr.ex.x Use.fresh Use.fresh Use.second [] _ Mgr.ex Mgr.ex ["n", "o"] ["o", "n"] (some "pc") none 5 5 1 _ _ _ _ _ fresh_new (.nil _) nofun nofun rfl rfl
    (Restart.retainsAll_via ha) he (genuineRun_runs _ _) second_life (by simp [Between]) (by simp [ha]) rfl (by simp [or_comm])
    (Friendly.genuine.exec _ _) (Friendly.genuine.runs _ _)
  have hd : (Friendly.genuine.run (SM.create Mgr.ex ["o", "n"] none 5) Use.second.world).1.any (fun e => match e.1 with
      | .downloadBundle ns j d => ns = "n" && j = "me" && d = 2
      | _ => false) = true := by decide +kernel
  have hd' : (Friendly.genuine.run (SM.create Mgr.ex ["o"] none 5) Use.second.world).1.any (fun e => match e.1 with
      | .deleteBundle .. => true
      | _ => false) = true := by decide +kernel
  refine ⟨_, _, hr ▸ Friendly.genuine.exec _ _, Friendly.genuine.runs _ _, h.1, ?_, _, hr' ▸ Friendly.genuine.exec _ _, ⟨_, Friendly.genuine.runs _ _⟩, ?_⟩
  · obtain ⟨e, h1, h2⟩ := List.any_eq_true.1 hd
    refine ⟨e, h1, ?_⟩
    split at h2
    · rename_i ns j d heq
      simp only [Bool.and_eq_true, decide_eq_true_eq] at h2
      rw [heq, h2.1.1, h2.1.2, h2.2]
    · cases h2
  · obtain ⟨e, h1, h2⟩ := List.any_eq_true.1 hd'
    refine ⟨e, h1, fun hs => ?_⟩
    split at h2
    · rename_i heq
      rw [heq] at hs
      cases hs
    · cases h2

end Verif
