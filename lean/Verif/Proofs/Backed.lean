import Verif.Proofs.Tidy
import Verif.Spec.Account
/-
What the calls of one device do to the data of its account on the server, function by function.
-/
namespace Verif
open Spec Foot

theorem grown_refl {s : Account} : Grown s s := fun _ _ h => h
theorem Spec.Grown.trans {a b c : Account} (h : Grown a b) (h' : Grown b c) : Grown a c := fun ns d x => h' ns d (h ns d x)

/-- The library and the server. -/
abbrev Net (own : Jid) : Sem LibSig Exn (World × Account) := Lib.prod (Online own)

/-- Interactions that neither change the data on the server, except by publishing a bundle, nor the backends or the namespaces of this device. -/
def Tame (own : Jid) (dev : DevId) : Op → Prop
  | .uploadList .. | .deleteBundle .. | .setBackends _ => False
  | .store k _ => k ≠ .devNamespaces own dev
  | _ => True

section
variable {own : Jid} {dev : DevId} {B : List Ns} {L K : Ns → Prop} {w w' : World} {s s' : Account}

theorem Spec.Agree.mono (h : Agree own dev B L K w s) (hs : Grown s s') (hl : s'.lists = s.lists) (hb : w'.backends = w.backends)
    (hd : ∀ ns, Advertises w'.disk own dev ns → Advertises w.disk own dev ns) : Agree own dev B L K w' s' :=
  ⟨hb.trans h.same, fun ns d hd => hs _ _ (h.listed ns d (by rw [hl] at hd; exact hd)), fun ns hn hK => hs _ _ (h.loaded ns hn hK),
    fun ns hn hK => hs _ _ (h.stored ns (hd ns hn) hK)⟩

theorem grown_upload {b : Bundle} {r : Except Exn Unit} : Grown s ((Online own).next s ⟨.uploadBundle b, r⟩) ∧
    ((Online own).next s ⟨.uploadBundle b, r⟩).lists = s.lists := by
  cases r with
  | error e => exact ⟨grown_refl, rfl⟩
  | ok _ =>
    show Grown s (if _ then _ else _) ∧ (if _ then _ else _ : Account).lists = _
    split
    · refine ⟨fun ns d h => ?_, rfl⟩
      show Option.isSome (if _ then _ else _) = true
      split
      · rfl
      · exact h
    · exact ⟨grown_refl, rfl⟩

/-- A tame interaction keeps the agreement. -/
theorem tame_next {o : Op} (ho : Tame own dev o) {r : Except Exn o.Ret} (h : Agree own dev B L K w s) :
    Agree own dev B L K (Lib.next w ⟨o, r⟩) ((Online own).next s ⟨o, r⟩) ∧ Grown s ((Online own).next s ⟨o, r⟩) := by
  have hup : ∀ k v, k ≠ Key.devNamespaces own dev → Agree own dev B L K { w with disk := w.disk.upd k v } s := by
    intro k v hk
    refine h.mono grown_refl rfl rfl fun ns hn => ?_
    obtain ⟨l, hl, hm⟩ := hn
    exact ⟨l, (Disk.upd_of_ne hk.symm).symm.trans hl, hm⟩
  cases o with
  | uploadList | deleteBundle | setBackends => exact ho.elim
  | store k v =>
    cases r with
    | ok _ => exact ⟨hup k _ ho, grown_refl⟩
    | error e => exact ⟨h, grown_refl⟩
  | delete k =>
    cases r with
    | error e => exact ⟨h, grown_refl⟩
    | ok _ =>
      refine ⟨h.mono grown_refl rfl rfl fun ns hn => ?_, grown_refl⟩
      obtain ⟨l, hl, hm⟩ := hn
      refine ⟨l, ?_, hm⟩
      have hl : Disk.upd w.disk k none (.devNamespaces own dev) = some (.ofStrs l) := hl
      unfold Disk.upd at hl
      split at hl
      · cases hl
      · exact hl
  | uploadBundle b =>
    obtain ⟨h1, h2⟩ := grown_upload (own := own) (s := s) (b := b) (r := r)
    refine ⟨h.mono h1 h2 ?_ ?_, h1⟩
    · cases r <;> rfl
    · cases r <;> exact fun _ h => h
  | _ => cases r <;> exact ⟨⟨h.same, h.listed, h.loaded, h.stored⟩, grown_refl⟩

end

/-- Facts: bundles that are on the server. -/
abbrev Facts := Ns → DevId → Prop

/-- `p` keeps device and server in agreement and removes no bundles; if the bundles `F` are there before, then those of `G` are there
afterwards. -/
def Keep (own : Jid) (dev : DevId) (B : List Ns) (L K : Ns → Prop) {α : Type} (F : Facts) (p : P α) (G : α → Facts) : Prop :=
  ∀ w s, Agree own dev B L K w s → (∀ ns d, F ns d → Backed s ns d) →
    wp (Net own) p (ends (fun a x => Agree own dev B L K x.1 x.2 ∧ Grown s x.2 ∧ ∀ ns d, G a ns d → Backed x.2 ns d)
      (fun _ x => Agree own dev B L K x.1 x.2 ∧ Grown s x.2)) (w, s)

namespace Keep
variable {own : Jid} {dev : DevId} {B : List Ns} {L K : Ns → Prop} {α β : Type} {F F' : Facts}

/-- No facts. -/
abbrev no : Facts := fun _ _ => False

theorem pre {p : P α} {G : α → Facts} (h : Keep own dev B L K F p G) (hF : ∀ ns d, F ns d → F' ns d) : Keep own dev B L K F' p G :=
  fun w s ha hf => h w s ha fun ns d h' => hf ns d (hF ns d h')

theorem post {p : P α} {G G' : α → Facts} (h : Keep own dev B L K F p G) (hG : ∀ a ns d, G' a ns d → G a ns d) : Keep own dev B L K F p G' :=
  fun w s ha hf => ends_mono (h w s ha hf) (fun a _ ⟨h1, h2, h3⟩ => ⟨h1, h2, fun ns d x => h3 ns d (hG a ns d x)⟩) fun _ _ h => h

/-- The facts that held before still hold. -/
theorem keep {p : P α} {G : α → Facts} (h : Keep own dev B L K F p G) : Keep own dev B L K F p (fun a ns d => F ns d ∨ G a ns d) :=
  fun w s ha hf => ends_mono (h w s ha hf)
    (fun _ _ ⟨h1, h2, h3⟩ => ⟨h1, h2, fun ns d x => x.elim (fun x => h2 _ _ (hf ns d x)) (h3 ns d)⟩) fun _ _ h => h

theorem bind {p : P α} {f : α → P β} {G : α → Facts} {H : β → Facts} (hp : Keep own dev B L K F p G)
    (hf : ∀ a, Keep own dev B L K (fun ns d => F ns d ∨ G a ns d) (f a) H) : Keep own dev B L K F (p >>= f) H := by
  intro w s ha hF
  rw [ends_bind]
  refine ends_mono (hp.keep w s ha hF) ?_ fun _ _ h => h
  rintro a ⟨w', s'⟩ ⟨h1, h2, h3⟩
  exact ends_mono (hf a w' s' h1 h3) (fun _ _ ⟨h4, h5, h6⟩ => ⟨h4, h2.trans h5, h6⟩) fun _ _ ⟨h4, h5⟩ => ⟨h4, h2.trans h5⟩

/-- ... when the result does not matter. -/
theorem seq {p : P α} {f : α → P β} {G : α → Facts} {H : β → Facts} (hp : Keep own dev B L K F p G)
    (hf : ∀ a, Keep own dev B L K F (f a) H) : Keep own dev B L K F (p >>= f) H :=
  hp.bind fun a => (hf a).pre fun _ _ h => .inl h

theorem pure {a : α} {G : α → Facts} (h : ∀ ns d, G a ns d → F ns d) : Keep own dev B L K F (Pure.pure a : P α) G :=
  fun _ _ ha hF => ⟨ha, grown_refl, fun ns d x => hF ns d (h ns d x)⟩

theorem ret {a : α} : Keep own dev B L K F (.ret a : P α) fun _ => F := pure fun _ _ h => h

theorem raise {e : Exn} {G : α → Facts} : Keep own dev B L K F (.raise e : P α) G := fun _ _ ha _ => ⟨ha, grown_refl⟩

theorem tame {p : P α} {φ : Op → Prop} (hp : AllOps φ p) (h : ∀ o, φ o → Tame own dev o) : Keep own dev B L K F p fun _ => no := by
  intro w s ha _
  have hpres : Pres (Net own) (fun x => Agree own dev B L K x.1 x.2 ∧ Grown s x.2) p := by
    refine Pres.ofOps (N := Net own) hp fun o ho x r _ hx => ?_
    have := tame_next (h o ho) (r := r) hx.1
    exact ⟨this.1, hx.2.trans this.2⟩
  refine wp_mono (hpres (w, s) ⟨ha, grown_refl⟩) fun r x hx => ?_
  cases r with
  | ok a => exact ⟨hx.1, hx.2, nofun⟩
  | raised e => exact hx
  | crashed => exact hx

theorem perform {o : Op} (h : Tame own dev o) : Keep own dev B L K F (call o) fun _ => no := tame (φ := (· = o)) (.perform rfl) (by rintro _ rfl; exact h)

theorem fromJust {o : Option β} {f : β → P α} {G : α → Facts} (h : ∀ b, o = some b → Keep own dev B L K F (f b) G) :
    Keep own dev B L K F (Maybe.fromJust o >>= f) G := by
  cases o with
  | none => exact raise
  | some b => exact h b rfl

theorem when {c : Prop} [Decidable c] {p : P Unit} {G : Unit → Facts} (h : c → Keep own dev B L K F p G) : Keep own dev B L K F (Prog.when c p) fun _ => no := by
  unfold Prog.when
  split
  · exact (h ‹_›).post fun _ _ _ x => x.elim
  · exact pure nofun

theorem forEach {xs : List β} {f : β → P Unit} {G : β → Facts} (h : ∀ x ∈ xs, Keep own dev B L K F (f x) fun _ => G x) :
    Keep own dev B L K F (Prog.forEach xs f) fun _ ns d => ∃ x ∈ xs, G x ns d := by
  induction xs with
  | nil => exact pure nofun
  | cons x xs ih =>
    refine Keep.post (bind (h x (by simp)) fun _ => ((ih fun y hy => h y (by simp [hy])).pre (fun _ _ h => .inl h)).keep) ?_
    rintro _ ns d ⟨y, hy, hg⟩
    rcases List.mem_cons.1 hy with rfl | hy
    · exact .inl (.inr hg)
    · exact .inr ⟨y, hy, hg⟩

theorem fold {γ : Type} {xs : List β} {b : γ} {f : γ → β → P γ} {G : γ → Facts} (h0 : ∀ ns d, G b ns d → F ns d)
    (h : ∀ b, ∀ x ∈ xs, Keep own dev B L K (fun ns d => F ns d ∨ G b ns d) (f b x) G) : Keep own dev B L K F (Prog.fold xs b f) G := by
  induction xs generalizing b F with
  | nil => exact pure h0
  | cons x xs ih =>
    refine bind ((h b x (by simp)).pre ?_) fun b' => ?_
    · rintro ns d (h | h)
      · exact h
      · exact h0 ns d h
    · refine ih (fun _ _ h => .inr h) fun c y hy => (h c y (by simp [hy])).pre ?_
      rintro ns d (h | h)
      · exact .inl (.inl h)
      · exact .inr h

theorem mapAll {xs : List β} {f : β → P α} {G : α → Facts} (h : ∀ x ∈ xs, Keep own dev B L K F (f x) G) :
    Keep own dev B L K F (Prog.mapAll xs f) fun as ns d => ∃ a ∈ as, G a ns d := by
  induction xs with
  | nil => exact pure nofun
  | cons x xs ih =>
    refine bind (h x (by simp)) fun a => bind ((ih fun y hy => h y (by simp [hy])).pre fun _ _ h => .inl h) fun as => pure ?_
    rintro ns d ⟨y, hy, hg⟩
    rcases List.mem_cons.1 hy with rfl | hy
    · exact .inl (.inr hg)
    · exact .inr ⟨y, hy, hg⟩

theorem filterAll {xs : List β} {f : β → P Bool} {G : Bool → Facts} (h : ∀ x ∈ xs, Keep own dev B L K F (f x) G) :
    Keep own dev B L K F (Prog.filterAll xs f) fun _ => no := by
  induction xs with
  | nil => exact pure nofun
  | cons x xs ih => exact seq (h x (by simp)) fun _ => seq (ih fun y hy => h y (by simp [hy])) fun _ => pure nofun

theorem tryCatch {p : P α} {h : Exn → P α} {G : α → Facts} (hp : Keep own dev B L K F p G) (hh : ∀ e, Keep own dev B L K F (h e) G) :
    Keep own dev B L K F (p.tryCatch h) G := by
  intro w s ha hF
  rw [wp_tryCatch]
  refine wp_mono (hp w s ha hF) fun r x hr => ?_
  cases r with
  | ok a => exact hr
  | crashed => exact hr
  | raised e =>
    obtain ⟨h1, h2⟩ := hr
    exact ends_mono (hh e x.1 x.2 h1 fun ns d x => h2 _ _ (hF ns d x)) (fun _ _ ⟨h3, h4, h5⟩ => ⟨h3, h2.trans h4, h5⟩) fun _ _ ⟨h3, h4⟩ => ⟨h3, h2.trans h4⟩

theorem tryElse {p : P β} {h : Exn → P α} {f : β → P α} {G : β → Facts} {H : α → Facts} (hp : Keep own dev B L K F p G)
    (hh : ∀ e, Keep own dev B L K F (h e) H) (hf : ∀ a, Keep own dev B L K (fun ns d => F ns d ∨ G a ns d) (f a) H) : Keep own dev B L K F (p.tryElse h f) H := by
  intro w s ha hF
  rw [wp_tryElse]
  refine wp_mono (hp.keep w s ha hF) fun r x hr => ?_
  cases r with
  | ok a =>
    obtain ⟨h1, h2, h3⟩ := hr
    exact ends_mono (hf a x.1 x.2 h1 h3) (fun _ _ ⟨h3, h4, h5⟩ => ⟨h3, h2.trans h4, h5⟩) fun _ _ ⟨h3, h4⟩ => ⟨h3, h2.trans h4⟩
  | crashed => exact hr
  | raised e =>
    obtain ⟨h1, h2⟩ := hr
    exact ends_mono (hh e x.1 x.2 h1 fun ns d x => h2 _ _ (hF ns d x)) (fun _ _ ⟨h3, h4, h5⟩ => ⟨h3, h2.trans h4, h5⟩) fun _ _ ⟨h3, h4⟩ => ⟨h3, h2.trans h4⟩

theorem onNothing {p h : P α} {G : α → Facts} (hp : Keep own dev B L K F p G) (hh : Keep own dev B L K F h G) : Keep own dev B L K F (Verif.onNothing p h) G := by
  unfold Verif.onNothing
  refine tryCatch hp fun e => ?_
  split
  · exact hh
  · exact raise

/-! ### Single interactions -/

theorem getBackends : Keep own dev B L K F (call .getBackends) fun bs ns d => ns ∈ bs ∧ L ns ∧ d = dev := by
  intro w s ha _
  refine wp_perform.2 ⟨⟨ha, grown_refl⟩, fun bs hb => ?_, fun e hb => ?_⟩
  · cases (show Except.ok bs = Except.ok w.backends from hb.1)
    refine ⟨ha, grown_refl, ?_⟩
    rintro ns _ ⟨h1, h2, rfl⟩
    exact ha.loaded ns (ha.same ▸ h1) h2
  · cases (show Except.error e = Except.ok w.backends from hb.1)

/-- ... knowing that the backends are `B`. -/
theorem loadedB {f : List Ns → P β} {H : β → Facts} (hf : Keep own dev B L K (fun ns d => F ns d ∨ (ns ∈ B ∧ L ns ∧ d = dev)) (f B) H) :
    Keep own dev B L K F (call .getBackends >>= f) H := by
  intro w s ha hF
  rw [ends_bind]
  refine wp_perform.2 ⟨⟨ha, grown_refl⟩, fun bs hb => ?_, fun e hb => ?_⟩
  · cases (show Except.ok bs = Except.ok w.backends from hb.1)
    show wp (Net own) (f w.backends) _ _
    rw [ha.same]
    refine hf w s ha ?_
    rintro ns d (h | ⟨h1, h2, rfl⟩)
    · exact hF ns d h
    · exact ha.loaded ns h1 h2
  · cases (show Except.error e = Except.ok w.backends from hb.1)

theorem downloadList {ns : Ns} {j : Jid} : Keep own dev B L K F (call (.downloadList ns j)) fun dl n d => j = own ∧ n = ns ∧ d ∈ Dict.keys dl := by
  intro w s ha _
  refine wp_perform.2 ⟨⟨ha, grown_refl⟩, fun dl hb => ?_, fun e hb => ⟨⟨ha.same, ha.listed, ha.loaded, ha.stored⟩, grown_refl⟩⟩
  refine ⟨⟨ha.same, ha.listed, ha.loaded, ha.stored⟩, grown_refl, ?_⟩
  rintro n d ⟨h1, rfl, h2⟩
  rw [show dl = s.lists n from hb.2 h1] at h2
  exact ha.listed n d h2

theorem uploadList {ns : Ns} {dl : DevList} (h : ∀ d ∈ Dict.keys dl, F ns d) : Keep own dev B L K F (call (.uploadList ns dl)) fun _ => no := by
  intro w s ha hF
  refine wp_perform.2 ⟨⟨ha, grown_refl⟩, fun _ _ => ⟨⟨ha.same, fun n d hd => ?_, ha.loaded, ha.stored⟩, fun _ _ h => h, nofun⟩,
    fun e _ => ⟨⟨ha.same, ha.listed, ha.loaded, ha.stored⟩, grown_refl⟩⟩
  show Backed s n d
  have hd : d ∈ Dict.keys (if n = ns then dl else s.lists n) := hd
  split at hd
  · rename_i hn; exact hF n d (hn ▸ h d hd)
  · exact ha.listed n d hd

theorem storeNs {j : Jid} {d : DevId} {l : List Ns} (h : j = own → d = dev → ∀ ns ∈ l, K ns → F ns dev) :
    Keep own dev B L K F (call (.store (.devNamespaces j d) (.ofStrs l))) fun _ => no := by
  intro w s ha hF
  refine wp_perform.2 ⟨⟨ha, grown_refl⟩, fun _ _ => ⟨⟨ha.same, ha.listed, ha.loaded, fun ns hn hK => ?_⟩, grown_refl, nofun⟩, fun e _ => ⟨ha, grown_refl⟩⟩
  obtain ⟨l', hl, hm⟩ := hn
  have hl : Disk.upd w.disk (.devNamespaces j d) (some (.ofStrs l)) (.devNamespaces own dev) = some (.ofStrs l') := hl
  by_cases he : Key.devNamespaces own dev = .devNamespaces j d
  · cases he
    rw [Disk.upd_self] at hl
    cases ofStrs_inj (Option.some.inj hl)
    exact hF _ _ (h rfl rfl ns hm hK)
  · rw [Disk.upd_of_ne he] at hl
    exact ha.stored ns ⟨l', hl, hm⟩ hK

/-- The namespaces of this device. -/
theorem loadNs {j : Jid} {d : DevId} : Keep own dev B L K F (Sto.loadStrs (.devNamespaces j d))
    fun o n d' => ∃ l, o = some l ∧ n ∈ l ∧ K n ∧ j = own ∧ d = dev ∧ d' = dev := by
  intro w s ha _
  show wp (Net own) (call (.load _) >>= fun v => Maybe.fmap chkStrs v) _ _
  rw [ends_bind]
  refine wp_perform.2 ⟨⟨ha, grown_refl⟩, fun v hv => ?_, fun e _ => ⟨ha, grown_refl⟩⟩
  have hval : v = w.disk (.devNamespaces j d) := hv.1
  clear hv
  have hnext : (Net own).next (w, s) ⟨.load (.devNamespaces j d), .ok v⟩ = (w, s) := rfl
  show wp (Net own) (Maybe.fmap chkStrs v) _ _
  rw [hnext, wp_fmap]
  cases v with
  | none => exact ⟨ha, grown_refl, by rintro n _ ⟨l, h, _⟩; cases h⟩
  | some v =>
    simp only [fmapRes]
    cases hc : chkStrs v with
    | error e => exact ⟨ha, grown_refl⟩
    | ok l =>
      refine ⟨ha, grown_refl, ?_⟩
      rintro n _ ⟨l', h1, h2, h3, rfl, rfl, rfl⟩
      cases h1
      rw [chkStrs_eq hc] at hval
      exact ha.stored n ⟨l, hval.symm, h2⟩ h3

/-- Publishing the bundle of this device. -/
theorem publish {ns : Ns} : Keep own dev B L K F (do let b ← call (.getBundle ns own dev); call (.uploadBundle b)) fun _ n d => n = ns ∧ d = dev := by
  intro w s ha _
  rw [ends_bind]
  refine wp_perform.2 ⟨⟨ha, grown_refl⟩, fun b hb => ?_, fun e _ => ⟨⟨ha.same, ha.listed, ha.loaded, ha.stored⟩, grown_refl⟩⟩
  obtain ⟨h1, h2, h3⟩ : b.ns = ns ∧ b.bareJid = own ∧ b.deviceId = dev := hb.2
  have ha1 := tame_next (own := own) (dev := dev) (B := B) (L := L) (K := K) (o := .getBundle ns own dev) trivial (r := .ok b) ha
  show wp (Net own) (call (.uploadBundle b)) _ _
  refine wp_perform.2 ⟨⟨ha1.1, ha1.2⟩, fun u _ => ?_, fun e _ => ?_⟩
  · have := tame_next (o := .uploadBundle b) trivial (r := .ok u) ha1.1
    refine ⟨this.1, ha1.2.trans this.2, ?_⟩
    rintro n d ⟨rfl, rfl⟩
    show Backed (if _ then _ else _) _ _
    rw [if_pos h2]
    show Option.isSome (if _ then _ else _) = true
    rw [if_pos ⟨h1.symm, h3.symm⟩]
    rfl
  · have := tame_next (o := .uploadBundle b) trivial (r := .error e) ha1.1
    exact ⟨this.1, ha1.2.trans this.2⟩

/-! ### Device information -/

section functions
variable {M : Mgr}

theorem load {k : Key} {f : JVal → Except Exn β} : Keep own dev B L K F (call (.load k) >>= fun v => Maybe.fmap f v) fun _ => no :=
  tame (φ := Tame own dev) (.bind (.perform trivial) fun _ => allOps_fmap _ _) fun _ h => h

theorem tame_fetch {jid : Jid} {d : DevId} {nss : List Ns} : AllOps (Tame own dev) (SM.fetchIdentityKey jid d nss) := by
  induction nss with
  | nil => trivial
  | cons ns nss ih =>
    unfold SM.fetchIdentityKey Sto.storeBytes
    lib_ops []
    all_goals first | trivial | exact nofun

theorem identityKeyOf {jid : Jid} {d : DevId} {nss : List Ns} : Keep own dev B L K F (SM.identityKeyOf M jid d nss) fun _ => no := by
  refine tame (φ := Tame own dev) ?_ fun _ h => h
  have h := @tame_fetch own dev jid d
  unfold SM.identityKeyOf
  lib_ops [h]
  all_goals trivial

theorem repair {jid : Jid} {d : DevId} {nss : List Ns} {act : Dict Ns Bool} (h : jid = own → d = dev → ∀ ns ∈ nss, K ns → F ns dev) :
    Keep own dev B L K F (SM.repairNamespaces M jid d nss act) fun l n d' => jid = own ∧ d = dev ∧ n ∈ l ∧ K n ∧ d' = dev := by
  unfold SM.repairNamespaces
  split
  · refine seq (storeNs fun hj hd ns hn hK => h hj hd ns ?_ hK) fun _ => pure ?_
    · simp only [SetOrder.mem_iter, mem_setInter] at hn
      exact hn.1
    · rintro n d' ⟨h1, h2, h3, h4, rfl⟩
      exact h h1 h2 n (mem_setInter.1 h3).1 h4
  · refine pure ?_
    rintro n d' ⟨h1, h2, h3, h4, rfl⟩
    exact h h1 h2 n h3 h4

theorem deviceInformation {jid : Jid} {d : DevId} : Keep own dev B L K F (SM.deviceInformation M jid d)
    fun r n d' => jid = own ∧ ∃ x, r = some x ∧ x.1.deviceId = dev ∧ n ∈ x.1.namespaces ∧ K n ∧ d' = dev := by
  unfold SM.deviceInformation
  refine bind loadNs fun o => fromJust fun nss ho => seq identityKeyOf fun r => ?_
  split
  · refine pure ?_
    rintro n d' ⟨_, x, h, _⟩
    cases h
  rename_i ik bundle
  refine seq load fun o1 => fromJust fun act _ => seq load fun o2 => fromJust fun lab _ => seq load fun lv => ?_
  refine bind (repair fun h1 h2 ns hn hK => .inr ⟨nss, ho, mem_dedup.1 hn, hK, h1, h2, rfl⟩) fun l => pure ?_
  rintro n d' ⟨h1, x, hx, h2, h3, h4, rfl⟩
  cases hx
  exact .inr ⟨h1, h2, h3, h4, rfl⟩

theorem getDeviceInformation' {jid : Jid} : Keep own dev B L K F (SM.getDeviceInformation' M jid)
    fun r n d' => jid = own ∧ ∃ x ∈ r.1, x.deviceId = dev ∧ n ∈ x.namespaces ∧ K n ∧ d' = dev := by
  unfold SM.getDeviceInformation'
  refine seq load fun o => fold (by rintro n d' ⟨_, x, hx, _⟩; cases hx) fun b d _ => ?_
  obtain ⟨devs, cache⟩ := b
  refine bind deviceInformation fun r => ?_
  have hadd : ∀ (x : DeviceInfo × Option Bundle) (cache' : List Bundle), r = some x → ∀ n d', (jid = own ∧ ∃ y ∈ setAdd devs x.1, y.deviceId = dev ∧ n ∈ y.namespaces ∧ K n ∧ d' = dev) →
      (F n d' ∨ (jid = own ∧ ∃ x ∈ devs, x.deviceId = dev ∧ n ∈ x.namespaces ∧ K n ∧ d' = dev)) ∨
      (jid = own ∧ ∃ x, r = some x ∧ x.1.deviceId = dev ∧ n ∈ x.1.namespaces ∧ K n ∧ d' = dev) := by
    rintro x _ hr n d' ⟨h1, y, hy, h2⟩
    rcases mem_setAdd.1 hy with hy | rfl
    · exact .inl (.inr ⟨h1, y, hy, h2⟩)
    · exact .inr ⟨h1, x, hr, h2⟩
  split
  · exact pure fun n d' h => .inl (.inr h)
  · rename_i x; exact pure (hadd (x, none) cache rfl)
  · rename_i x b; exact pure (hadd (x, some b) cache rfl)

theorem getDeviceInformation {jid : Jid} : Keep own dev B L K F (SM.getDeviceInformation M jid)
    fun r n d' => jid = own ∧ ∃ x ∈ r, x.deviceId = dev ∧ n ∈ x.namespaces ∧ K n ∧ d' = dev := by
  unfold SM.getDeviceInformation
  exact bind getDeviceInformation' fun r => pure fun n d' h => .inr h

theorem getOwnDeviceInformation (hj : M.ownJid = own) (hd : M.ownDev = dev) : Keep own dev B L K F (SM.getOwnDeviceInformation M)
    fun r n d' => n ∈ r.1.namespaces ∧ K n ∧ d' = dev := by
  unfold SM.getOwnDeviceInformation
  refine bind getDeviceInformation fun all => ?_
  dsimp only
  cases ho : (M.O.iter (setDiff all (all.filter fun dev => decide (dev.deviceId ≠ M.ownDev)))).head? with
  | none => exact raise
  | some x =>
    have := List.mem_of_mem_head? (Option.mem_def.2 ho)
    simp only [SetOrder.mem_iter, mem_setDiff, List.mem_filter, not_and, decide_eq_true_eq, Decidable.not_not] at this
    refine pure ?_
    rintro n d' ⟨h1, h2, rfl⟩
    exact .inr ⟨hj, x, this.1, (this.2 this.1).trans hd, h1, h2, rfl⟩

/-! ### Device lists -/

theorem updateKnownDevice {ns : Ns} {jid : Jid} {dl : DevList} {d : DevId} (h : jid = own → F ns dev) :
    Keep own dev B L K F (SM.updateKnownDevice M ns jid dl d) fun _ => no := by
  unfold SM.updateKnownDevice
  refine bind loadNs fun o => fromJust fun nss ho => seq load fun o1 => fromJust fun act _ => ?_
  split
  · unfold SM.updateListed
    refine seq (when (G := fun _ => no) fun _ => perform nofun) fun _ => seq load fun o2 => fromJust fun lab _ =>
      seq (when (G := fun _ => no) fun _ => perform nofun) fun _ => when (G := fun _ => no) fun _ => storeNs fun hj hd n hn hK => ?_
    simp only [SetOrder.mem_iter, mem_setAdd, mem_dedup] at hn
    rcases hn with hn | rfl
    · exact .inr ⟨nss, ho, hn, hK, hj, hd, rfl⟩
    · exact .inl (h hj)
  · unfold SM.updateUnlisted
    refine when (G := fun _ => no) fun _ => ?_
    split
    · exact raise
    · exact perform nofun
    · exact pure nofun

theorem addNewDevice {ns : Ns} {jid : Jid} {dl : DevList} {d : DevId} (h : jid = own → F ns dev) :
    Keep own dev B L K F (SM.addNewDevice ns jid dl d) fun _ => no := by
  unfold SM.addNewDevice
  refine seq (perform nofun) fun _ => ?_
  split
  · exact raise
  · refine seq (perform nofun) fun _ => storeNs fun hj _ n hn _ => ?_
    cases (by simpa using hn : n = ns)
    exact h hj

theorem ensureOwnListed (hj : M.ownJid = own) (hd : M.ownDev = dev) {ns : Ns} {jid : Jid} {dl : DevList} (hK : jid = own → L ns ∨ F ns dev)
    (h : jid = own → ∀ d ∈ Dict.keys dl, F ns d) : Keep own dev B L K F (SM.ensureOwnListed M ns jid dl) fun _ => no := by
  unfold SM.ensureOwnListed
  split
  · rename_i hown
    refine bind getBackends fun bs => ?_
    split
    · rename_i hc
      refine seq load fun o => fromJust fun lab _ => seq (uploadList fun d hm => ?_) fun _ => pure nofun
      rw [Dict.mem_keys, Dict.get_set] at hm
      split at hm
      · rename_i he; have he' := he.symm.trans hd
        rcases hK (hown.trans hj) with h' | h'
        · exact .inr ⟨hc.1, h', he'⟩
        · exact .inl (he' ▸ h')
      · exact .inl (h (hown.trans hj) d (Dict.mem_keys.2 hm))
    · exact pure nofun
  · exact pure nofun

theorem updateDeviceList (hj : M.ownJid = own) (hd : M.ownDev = dev) {ns : Ns} {jid : Jid} {dl : DevList} (hK : jid = own → L ns ∨ F ns dev)
    (h : jid = own → ∀ d ∈ Dict.keys dl, F ns d) : Keep own dev B L K F (SM.updateDeviceList M ns jid dl) fun _ => no := by
  unfold SM.updateDeviceList
  refine bind getBackends fun bs => ?_
  split
  · exact raise
  rename_i hns
  have hmem : jid = own → F ns dev ∨ (ns ∈ bs ∧ L ns ∧ dev = dev) := fun ho => (hK ho).symm.imp id fun h => ⟨Decidable.not_not.1 hns, h, rfl⟩
  refine seq load fun o => seq (ensureOwnListed hj hd (fun ho => (hK ho).imp id .inl) fun ho d hd => .inl (h ho d hd)) fun dl' =>
    seq (forEach (G := fun _ => no) fun d _ => addNewDevice hmem) fun _ => seq (forEach (G := fun _ => no) fun d _ => updateKnownDevice hmem) fun _ =>
      when (G := fun _ => no) fun _ => perform nofun

theorem refreshDeviceList (hj : M.ownJid = own) (hd : M.ownDev = dev) {ns : Ns} {jid : Jid} (hK : jid = own → L ns ∨ F ns dev) :
    Keep own dev B L K F (SM.refreshDeviceList M ns jid) fun _ => no := by
  unfold SM.refreshDeviceList
  exact bind downloadList fun dl => updateDeviceList hj hd (fun ho => (hK ho).imp id .inl) fun ho d hd => .inr ⟨ho, rfl, hd⟩

theorem setOwnLabel (hj : M.ownJid = own) (hd : M.ownDev = dev) (hK : ∀ ns, L ns) (label : Option String) :
    Keep own dev B L K F (SM.setOwnLabel M label) fun _ => no := by
  unfold SM.setOwnLabel
  refine seq (perform nofun) fun _ => bind getBackends fun bs => Keep.post (forEach (G := fun _ => no) fun ns hns => ?_) (fun _ _ _ h => h.elim)
  refine bind downloadList fun dl => uploadList fun d hm => ?_
  rw [Dict.mem_keys, Dict.get_set] at hm
  split at hm
  · rename_i he; exact .inl (.inr ⟨hns, hK ns, he.symm.trans hd⟩)
  · exact .inr ⟨hj, rfl, Dict.mem_keys.2 hm⟩

/-! ### Bundles -/

theorem retryUpload {ns : Ns} {fuel : Nat} : AllOps (Tame own dev) (SM.retryUpload M ns fuel) := by
  refine (SM.ops_retryUpload M ns fuel).mono fun o h => ?_
  cases h <;> trivial

theorem refillPreKeys {ns : Ns} : Keep own dev B L K F (SM.refillPreKeys M ns) fun _ => no := by
  refine tame (φ := Tame own dev) ?_ fun _ h => h
  unfold SM.refillPreKeys
  lib_ops []
  all_goals trivial

theorem ensureDataConsistency (hj : M.ownJid = own) (hd : M.ownDev = dev) (hK : ∀ ns, L ns) : Keep own dev B L K F (SM.ensureDataConsistency M) fun _ => no := by
  unfold SM.ensureDataConsistency
  refine seq getBackends fun bs => Keep.post (forEach (G := fun _ => no) fun ns _ => ?_) (fun _ _ _ h => h.elim)
  refine seq (refreshDeviceList hj hd fun _ => .inl (hK ns)) fun _ => tame (φ := Tame own dev) ?_ fun _ h => h
  lib_ops []
  all_goals trivial

/-! ### Messages -/

theorem decrypt (hj : M.ownJid = own) (hd : M.ownDev = dev) (hK : ∀ ns, L ns) (msg : Message) : Keep own dev B L K F (SM.decrypt M msg) fun _ => no := by
  have hfind : ∀ {F : Facts}, Keep own dev B L K F (SM.findSender M msg) fun _ => no := by
    intro F
    unfold SM.findSender
    refine seq getDeviceInformation fun ds => ?_
    split
    · exact pure nofun
    · refine seq (refreshDeviceList hj hd fun _ => .inl (hK _)) fun _ => seq getDeviceInformation fun ds => ?_
      split
      · exact pure nofun
      · exact raise
  have hrest : ∀ {F : Facts} dev' ekm kex, Keep own dev B L K F (do
      let (plaintext, session, km) ← SM.decryptContent M msg dev' ekm kex
      SM.postDecrypt M msg.ns kex session
      Pure.pure (plaintext, dev', km)) fun _ => no := by
    intro F dev' ekm kex
    refine tame (φ := Tame own dev) ?_ fun _ h => h
    have h1 : ∀ s, AllOps (Tame own dev) (SM.sendEmptyMessage M msg.ns s) := fun s =>
      (SM.ops_sendEmptyMessage M msg.ns s).mono fun o h => by cases h <;> trivial
    unfold SM.decryptContent SM.keyMaterial SM.plaintextOf SM.decryptKeyMaterial SM.handleKeyExchange SM.postDecrypt
      SM.consumePreKey SM.discardPreKey SM.refillPreKeys SM.autoReply SM.queueEmpty
    lib_ops [h1]
    all_goals first | trivial | exact nofun
  unfold SM.decrypt
  refine seq getBackends fun bs => ?_
  split
  · exact raise
  split
  · exact raise
  · exact seq hfind fun dev' => hrest _ _ _

theorem replaceSessions (jid : Jid) (d : DevId) : Keep own dev B L K F (SM.replaceSessions M jid d) fun _ => no := by
  unfold SM.replaceSessions
  refine seq getDeviceInformation fun ds => tame (φ := Tame own dev) ?_ fun _ h => h
  unfold SM.replaceSession
  lib_ops []
  all_goals trivial

theorem encrypt (hdec : ∀ ds i, Keep own dev B L K no (M.decide ds i) fun _ => no) (jids : List Jid) (pt : Dict Ns Bytes) (prio : Option (List Ns)) (i : Option String) :
    Keep own dev B L K F (SM.encrypt M jids pt prio i) fun _ => no := by
  have hpure : ∀ {α : Type} {F : Facts} {p : P α}, AllOps (Tame own dev) p → Keep own dev B L K F p fun _ => no := fun h => tame h fun _ h => h
  have htrust : ∀ {F : Facts} l ds, Keep own dev B L K F (SM.devicesWithTrust l ds) fun _ => no := by
    intro F l ds
    refine hpure ?_
    unfold SM.devicesWithTrust
    lib_ops []
    all_goals trivial
  unfold SM.encrypt
  refine seq getBackends fun av => seq (hpure (allOps_liftE _)) fun order => ?_
  refine seq (G := fun _ => no) ?_ fun x => seq (G := fun _ => no) ?_ fun ds => ?_
  · unfold SM.recipientDevices
    refine seq (mapAll (G := fun _ => no) fun j _ => getDeviceInformation'.post fun _ _ _ h => h.elim) fun tmp => hpure ?_
    lib_ops []
  · unfold SM.decideTrust SM.askTrust
    refine seq (htrust _ _) fun und => seq (G := fun _ => no) ?_ fun ds => seq (htrust _ _) fun still => ?_
    · split
      · refine seq ((hdec _ _).pre nofun) fun _ => hpure ?_
        unfold SM.reloadTrust
        lib_ops []
        all_goals trivial
      · exact pure nofun
    · split
      · exact raise
      · exact pure nofun
  · refine hpure ?_
    unfold SM.encryptTrusted SM.devicesWithTrust SM.encryptBackend SM.encryptDevice SM.encryptForDevice SM.bundleFor
    lib_ops []
    all_goals trivial

end functions
end Keep

end Verif
