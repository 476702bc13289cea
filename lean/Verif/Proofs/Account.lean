import Verif.Proofs.Backed
import Verif.Proofs.CallParts
import Verif.Props.Frame
import Verif.Spec.Fleet
/-
Removing backends, creating managers, and all other calls of a device: what they do to the data of the account on the server.
-/
namespace Verif
open Spec Foot

/-- Nothing of other devices got lost. -/
def Spec.Spared (dev : DevId) (s s' : Account) : Prop := ∀ ns d, d ≠ dev → Backed s ns d → Backed s' ns d

theorem Spec.Spared.trans {dev : DevId} {a b c : Account} (h : Spared dev a b) (h' : Spared dev b c) : Spared dev a c :=
  fun ns d hd x => h' ns d hd (h ns d hd x)
theorem Spec.Grown.spared {dev : DevId} {a b : Account} (h : Grown a b) : Spared dev a b := fun ns d _ x => h ns d x

/-- Device and server agree. -/
def Sound (own : Jid) (dev : DevId) (w : World) (s : Account) : Prop := Agree own dev w.backends (fun _ => True) (fun _ => True) w s

theorem wp_ends {S : Sig} {E W α : Type} {N : Sem S E W} {J : W → Prop} {p : Prog S E α} {x : W}
    (h : wp N p (ends (fun _ => J) (fun _ => J)) x) : wp N p (fun _ => J) x := by
  refine wp_mono h fun r y hr => ?_
  cases r <;> exact hr

theorem Prog.bind_assoc' {S : Sig} {E α β γ : Type} (p : Prog S E α) (f : α → Prog S E β) (g : β → Prog S E γ) :
    (p >>= f) >>= g = p >>= fun a => f a >>= g := by
  induction p with
  | ret a => rfl
  | raise e => rfl
  | op o k ih => exact congrArg (Prog.op o) (funext fun r => ih r)

section
variable {own : Jid} {dev : DevId} {B : List Ns} {L K : Ns → Prop} {α : Type} {F : Facts} {M : Mgr}

theorem Keep.also {p : P α} {G : α → Facts} {I : World × Account → Prop} (h : Keep own dev B L K F p G) (hI : Pres (Net own) I p)
    {w : World} {s : Account} (ha : Agree own dev B L K w s) (hF : ∀ ns d, F ns d → Backed s ns d) (hi : I (w, s)) :
    wp (Net own) p (ends (fun a x => (Agree own dev B L K x.1 x.2 ∧ Grown s x.2 ∧ ∀ ns d, G a ns d → Backed x.2 ns d) ∧ I x)
      (fun _ x => (Agree own dev B L K x.1 x.2 ∧ Grown s x.2) ∧ I x)) (w, s) := by
  refine wp_mono (wp_and (h w s ha hF) (hI (w, s) hi)) fun r x hr => ?_
  cases r <;> exact hr

/-- The end of `purge_backend`: nothing refers to the bundle any more. -/
theorem purge_end {ns : Ns} {w : World} {s : Account} (ha : Sound own dev w s) (hl : dev ∉ Dict.keys (s.lists ns))
    (hs : ¬ Advertises w.disk own dev ns) (hd : M.ownDev = dev) :
    wp (Net own) (do
      let bs ← call .getBackends
      call (.setBackends (setDiff bs [ns]))
      Prog.when (ns ∈ bs) do
        call (.purge ns)
      call (.deleteBundle ns M.ownDev)) (fun _ x => Sound own dev x.1 x.2 ∧ Spared dev s x.2) (w, s) := by
  refine wp_ends ?_
  have hspare : Spared dev s s := fun _ _ _ h => h
  rw [ends_bind]
  refine wp_perform.2 ⟨⟨ha, hspare⟩, fun bs hb => ?_, fun e hb => ?_⟩
  · cases (show Except.ok bs = Except.ok w.backends from hb.1)
    show wp (Net own) (call _ >>= _) _ (w, s)
    rw [ends_bind]
    have h1 : Sound own dev { w with backends := setDiff w.backends [ns] } s :=
      ⟨rfl, ha.listed, fun n hn _ => ha.loaded n (mem_setDiff.1 hn).1 trivial, ha.stored⟩
    have fin : ∀ w1 : World, w1.backends = setDiff w.backends [ns] → w1.disk = w.disk →
        wp (Net own) (call (.deleteBundle ns M.ownDev)) (ends (fun _ x => Sound own dev x.1 x.2 ∧ Spared dev s x.2)
          (fun _ x => Sound own dev x.1 x.2 ∧ Spared dev s x.2)) (w1, s) := by
      intro w1 hb hdisk
      have h2 : Sound own dev w1 s := ⟨rfl, h1.listed, fun n hn => h1.loaded n (hb ▸ hn), by rw [hdisk]; exact h1.stored⟩
      refine wp_perform.2 ⟨⟨h2, hspare⟩, fun u _ => ?_, fun e _ => ⟨⟨h2.same, h2.listed, h2.loaded, h2.stored⟩, hspare⟩⟩
      have hb' : ∀ n d, ¬ (n = ns ∧ d = dev) → Backed s n d → Backed ((Online own).next s ⟨.deleteBundle ns M.ownDev, .ok u⟩) n d := by
        intro n d hn h
        show Option.isSome (if _ then _ else _) = true
        rw [if_neg (by rw [hd]; exact hn)]
        exact h
      refine ⟨⟨rfl, fun n d hm => hb' n d ?_ (h2.listed n d hm), fun n hn _ => hb' n dev ?_ (h2.loaded n hn trivial),
        fun n hn _ => hb' n dev ?_ (h2.stored n hn trivial)⟩, fun n d hd' => hb' n d fun h => hd' h.2⟩
      · rintro ⟨rfl, rfl⟩; exact hl hm
      · rintro ⟨rfl, -⟩
        have hn : n ∈ w1.backends := hn
        rw [hb] at hn
        exact (mem_setDiff.1 hn).2 (by simp)
      · rintro ⟨rfl, -⟩
        have hn : Advertises w1.disk own dev n := hn
        rw [hdisk] at hn
        exact hs hn
    refine wp_perform.2 ⟨⟨ha, hspare⟩, fun u _ => ?_, fun e _ => ⟨h1, hspare⟩⟩
    show wp (Net own) (Prog.when _ _ >>= _) _ ({ w with backends := setDiff w.backends [ns] }, s)
    rw [ends_bind]
    refine ends_when (fun _ => ?_) fun _ => fin _ rfl rfl
    refine wp_perform.2 ⟨⟨h1, hspare⟩, fun u _ => fin _ rfl rfl, fun e _ => ⟨⟨rfl, h1.listed, h1.loaded, h1.stored⟩, hspare⟩⟩
  · cases (show Except.error e = Except.ok w.backends from hb.1)

/-- `purge_backend` -/
theorem sound_purge (hj : M.ownJid = own) (hd : M.ownDev = dev) {ns : Ns} {w : World} {s : Account} (ha : Sound own dev w s) :
    wp (Net own) (SM.purgeBackend M ns) (fun _ x => Sound own dev x.1 x.2 ∧ Spared dev s x.2) (w, s) := by
  refine wp_ends ?_
  have hspare : Spared dev s s := fun _ _ _ h => h
  have lift : ∀ {w1 : World} {s1 : Account}, Agree own dev w.backends (fun _ => True) (fun _ => True) w1 s1 → Sound own dev w1 s1 := by
    intro w1 s1 h
    refine ⟨rfl, h.listed, fun n hn => h.loaded n (h.same ▸ hn), h.stored⟩
  unfold SM.purgeBackend
  rw [ends_bind]
  refine wp_perform.2 ⟨⟨ha, hspare⟩, fun dl hb => ?_, fun e _ => ⟨⟨rfl, ha.listed, ha.loaded, ha.stored⟩, hspare⟩⟩
  have hdl : dl = s.lists ns := hb.2 hj
  subst hdl
  have ha1 := (tame_next (own := own) (dev := dev) (o := .downloadList ns M.ownJid) trivial (r := .ok (s.lists ns)) ha)
  generalize hw1 : Lib.next w ⟨.downloadList ns M.ownJid, .ok (s.lists ns)⟩ = w1 at ha1
  show wp (Net own) (Prog.when _ _ >>= _) _ (Lib.next w ⟨.downloadList ns M.ownJid, .ok (s.lists ns)⟩, s)
  rw [hw1, ends_bind]
  have ha1 : Agree own dev w.backends (fun _ => True) (fun _ => True) w1 s := ha1.1
  -- after the upload
  have rest : ∀ (w2 : World) (s2 : Account), Agree own dev w.backends (fun _ => True) (fun _ => True) w2 s2 → Grown s s2 →
      dev ∉ Dict.keys (s2.lists ns) → wp (Net own) (do
        let (device, _) ← SM.getOwnDeviceInformation M
        call (.store (.devActive M.ownJid M.ownDev) (.ofBools (device.active.erase ns)))
        call (.store (.devNamespaces M.ownJid M.ownDev) (.ofStrs (M.O.iter (setDiff device.namespaces [ns]))))
        let bs ← call .getBackends
        call (.setBackends (setDiff bs [ns]))
        Prog.when (ns ∈ bs) do
          call (.purge ns)
        call (.deleteBundle ns M.ownDev)) (ends (fun _ x => Sound own dev x.1 x.2 ∧ Spared dev s x.2)
          (fun _ x => Sound own dev x.1 x.2 ∧ Spared dev s x.2)) (w2, s2) := by
    intro w2 s2 h2 hg hl
    have hlists : Pres (Net own) (fun x => x.2.lists = s2.lists) (SM.getOwnDeviceInformation M) := by
      refine Pres.ofOps (SM.ops_getOwnDeviceInformation M) fun o ho x r _ hx => ?_
      cases ho <;> cases r <;> exact hx
    rw [ends_bind]
    refine ends_mono ((Keep.getOwnDeviceInformation hj hd).also hlists h2 (F := Keep.no) nofun rfl) ?_ fun _ x h => ⟨lift h.1.1, (hg.trans h.1.2).spared⟩
    rintro ⟨device, others⟩ ⟨w3, s3⟩ ⟨⟨h3, hg3, hn3⟩, hl3⟩
    dsimp only at h3 hg3 hn3 hl3
    have hl3' : dev ∉ Dict.keys (s3.lists ns) := by rw [hl3]; exact hl
    show wp (Net own) (call _ >>= _) _ _
    rw [ends_bind]
    refine wp_perform.2 ⟨⟨lift h3, (hg.trans hg3).spared⟩, fun _ _ => ?_, fun e _ => ⟨lift h3, (hg.trans hg3).spared⟩⟩
    have h4 := (tame_next (own := own) (dev := dev) (o := .store (.devActive M.ownJid M.ownDev) (.ofBools (device.active.erase ns))) nofun (r := .ok ()) h3).1
    show wp (Net own) (call _ >>= _) _ (Lib.next w3 ⟨.store (.devActive M.ownJid M.ownDev) (.ofBools (device.active.erase ns)), .ok ()⟩, s3)
    generalize Lib.next w3 ⟨.store (.devActive M.ownJid M.ownDev) (.ofBools (device.active.erase ns)), .ok ()⟩ = w4 at h4
    have h4 : Agree own dev w.backends (fun _ => True) (fun _ => True) w4 s3 := h4
    rw [ends_bind]
    refine wp_perform.2 ⟨⟨lift h4, (hg.trans hg3).spared⟩, fun _ _ => ?_, fun e _ => ⟨lift h4, (hg.trans hg3).spared⟩⟩
    show wp (Net own) _ _ ({ w4 with disk := w4.disk.upd (.devNamespaces M.ownJid M.ownDev) (some (.ofStrs (M.O.iter (setDiff device.namespaces [ns])))) }, s3)
    have had : ∀ n, Advertises (w4.disk.upd (.devNamespaces M.ownJid M.ownDev) (some (.ofStrs (M.O.iter (setDiff device.namespaces [ns]))))) own dev n ↔
        n ∈ device.namespaces ∧ n ≠ ns := by
      intro n
      rw [advertises_iff (l := M.O.iter (setDiff device.namespaces [ns])) (by rw [hj, hd, Disk.upd_self])]
      simp [mem_setDiff]
    have h5 : Sound own dev { w4 with disk := w4.disk.upd (.devNamespaces M.ownJid M.ownDev) (some (.ofStrs (M.O.iter (setDiff device.namespaces [ns])))) } s3 := by
      refine ⟨rfl, h4.listed, fun n hn => h4.loaded n (h4.same ▸ hn), fun n hn _ => ?_⟩
      exact hn3 n dev ⟨((had n).1 hn).1, trivial, rfl⟩
    refine wp_mono (purge_end (M := M) h5 hl3' (fun h => ((had ns).1 h).2 rfl) hd) fun r x hr => ?_
    have : Sound own dev x.1 x.2 ∧ Spared dev s x.2 := ⟨hr.1, (hg.trans hg3).spared.trans hr.2⟩
    cases r <;> exact this
  refine ends_when (fun _ => ?_) fun hn => rest w1 s ha1 grown_refl (hd ▸ hn)
  refine wp_perform.2 ⟨⟨lift ha1, hspare⟩, fun u _ => ?_, fun e _ => ⟨lift ⟨ha1.same, ha1.listed, ha1.loaded, ha1.stored⟩, hspare⟩⟩
  have hmem : ∀ d, d ∈ Dict.keys (Dict.erase (s.lists ns) M.ownDev) → d ∈ Dict.keys (s.lists ns) ∧ d ≠ M.ownDev := by
    intro d hd
    rw [Dict.mem_keys, Dict.get_erase] at hd
    split at hd
    · cases hd
    · rename_i hne; exact ⟨Dict.mem_keys.2 hd, fun h => hne h.symm⟩
  refine rest _ _ ⟨ha1.same, fun n d hm => ?_, ha1.loaded, ha1.stored⟩ (fun _ _ h => h) ?_
  · have hm : d ∈ Dict.keys (if n = ns then Dict.erase (s.lists ns) M.ownDev else s.lists n) := hm
    split at hm
    · rename_i he; exact ha1.listed n d (he ▸ (hmem d hm).1)
    · exact ha1.listed n d hm
  · show dev ∉ Dict.keys (if ns = ns then Dict.erase (s.lists ns) M.ownDev else s.lists ns)
    rw [if_pos rfl]
    exact fun h => (hmem _ h).2 hd.symm

/-! ### Creating managers -/

/-- Interactions that leave alone the own device id and the namespaces of devices of the account, the backends, the device lists and the bundles. -/
def Still (own : Jid) : Op → Prop
  | .uploadList .. | .deleteBundle .. | .setBackends _ | .uploadBundle _ => False
  | .store k _ | .delete k => k ≠ .ownDeviceId ∧ ∀ d, k ≠ .devNamespaces own d
  | _ => True

/-- What `Still` interactions leave alone. -/
def Alike (own : Jid) (x y : World × Account) : Prop :=
  y.1.backends = x.1.backends ∧ y.2 = x.2 ∧ y.1.disk .ownDeviceId = x.1.disk .ownDeviceId ∧ ∀ d, y.1.disk (.devNamespaces own d) = x.1.disk (.devNamespaces own d)

theorem still_alike {p : P α} (h : AllOps (Still own) p) {x : World × Account} : Pres (Net own) (Alike own x) p := by
  refine Pres.ofOps h fun o ho y r _ hy => ?_
  obtain ⟨w, s⟩ := y
  cases o with
  | uploadList | deleteBundle | setBackends | uploadBundle => exact ho.elim
  | store k v =>
    cases r with
    | error e => exact hy
    | ok _ => exact ⟨hy.1, hy.2.1, (Disk.upd_of_ne ho.1.symm).trans hy.2.2.1, fun d => (Disk.upd_of_ne (ho.2 d).symm).trans (hy.2.2.2 d)⟩
  | delete k =>
    cases r with
    | error e => exact hy
    | ok _ => exact ⟨hy.1, hy.2.1, (Disk.upd_of_ne ho.1.symm).trans hy.2.2.1, fun d => (Disk.upd_of_ne (ho.2 d).symm).trans (hy.2.2.2 d)⟩
  | _ => cases r <;> exact hy

theorem Alike.refl {x : World × Account} : Alike own x x := ⟨rfl, rfl, rfl, fun _ => rfl⟩

theorem Alike.agree {x y : World × Account} (h : Alike own x y) (ha : Agree own dev B L K x.1 x.2) : Agree own dev B L K y.1 y.2 := by
  obtain ⟨h1, h2, h3, h4⟩ := h
  rw [h2]
  exact ha.mono grown_refl rfl h1 fun ns hn => by
    obtain ⟨l, hl, hm⟩ := hn
    exact ⟨l, (h4 dev).symm.trans hl, hm⟩

/-- The own device id stays. -/
def Op.keepsId : Op → Prop
  | .store k _ | .delete k => k ≠ .ownDeviceId
  | _ => True

theorem keepsId {p : P α} (h : AllOps Op.keepsId p) {v : Option JVal} : Pres (Net own) (fun x => x.1.disk .ownDeviceId = v) p := by
  refine Pres.ofOps h fun o ho y r _ hy => ?_
  cases o with
  | store k _ | delete k =>
    cases r with
    | error e => exact hy
    | ok _ => exact (Disk.upd_of_ne (Ne.symm ho)).trans hy
  | _ => cases r <;> exact hy

theorem liftLib {p : P α} {Q : Res Exn α → World → Prop} {w : World} {s : Account} (h : wp Lib p Q w) :
    wp (Net own) p (fun r x => Q r x.1) (w, s) :=
  wp_iff.2 fun _ _ _ he hr => wp_sound h he (Sem.runs_prod.1 hr).1

theorem refresh_id {ns : Ns} {jid : Jid} : AllOps Op.keepsId (SM.refreshDeviceList M ns jid) :=
  (SM.ops_refreshDeviceList M ns jid).mono fun o h => by
    cases h with
    | download => trivial
    | update h => cases h <;> first | trivial | exact fun h => by cases h

/-- Storing the own device; the id comes last. -/
theorem store_id {label : Option String} {ik : Bytes} {bs : List Ns} (w : World) : wp Lib (SM.storeOwnDevice M label ik bs)
    (ends (fun _ w' => w'.disk .ownDeviceId = some (.int M.ownDev)) (fun _ _ => True)) w := by
  have any : ∀ {p : P Unit} {q : P Unit}, (∀ w, wp Lib q (ends (fun _ w' => w'.disk .ownDeviceId = some (.int M.ownDev)) (fun _ _ => True)) w) →
      ∀ w, wp Lib (p >>= fun _ => q) (ends (fun _ w' => w'.disk .ownDeviceId = some (.int M.ownDev)) (fun _ _ => True)) w := by
    intro p q h w
    rw [ends_bind]
    refine wp_iff.2 fun t r w' he hr => ?_
    cases r with
    | ok _ => exact h w'
    | raised e => trivial
    | crashed => trivial
  unfold SM.storeOwnDevice
  refine any (any (any (any (any (any fun w => ?_))))) w
  exact wp_perform.2 ⟨trivial, fun _ _ => show (w.disk.upd .ownDeviceId (some (.int M.ownDev))) .ownDeviceId = _ from Disk.upd_self, fun _ _ => trivial⟩

/-- The first run: the own device is published for all backends before it is listed. -/
theorem sound_firstRun (hj : M.ownJid = own) {label : Option String} {ik : Bytes} {fuel : Nat} {w : World} {s : Account} (hb : w.backends = B)
    (hl : AllBacked s) (hblank : ∀ d ns, ¬ Advertises w.disk own d ns) :
    wp (Net own) (SM.firstRun M label ik fuel) (ends
      (fun d x => Agree own d B (fun _ => True) (fun _ => True) x.1 x.2 ∧ x.1.disk .ownDeviceId = some (.int d) ∧ Grown s x.2)
      (fun _ x => AllBacked x.2)) (w, s) := by
  have still : ∀ {α : Type} {p : P α} {x : World × Account}, AllOps (Still own) p → Alike own (w, s) x →
      wp (Net own) p (ends (fun _ y => Alike own (w, s) y) (fun _ y => AllBacked y.2)) x := by
    intro α p x hp hx
    refine wp_mono (still_alike hp x hx) fun r y hr => ?_
    have : AllBacked y.2 := by rw [hr.2.1]; exact hl
    cases r
    · exact hr
    · exact this
    · exact this
  have hdraw : ∀ taken fuel, AllOps (Still own) (SM.drawDeviceId taken fuel) := by
    intro taken fuel
    induction fuel with
    | zero => trivial
    | succ n ih => unfold SM.drawDeviceId; lib_ops []; all_goals trivial
  have htaken : ∀ j bs, AllOps (Still own) (SM.takenDeviceIds j bs) := by
    intro j bs; unfold SM.takenDeviceIds; lib_ops []; all_goals trivial
  unfold SM.firstRun
  rw [ends_bind]
  refine ends_mono (still (.perform trivial) .refl) (fun bs1 x1 h1 => ?_) fun _ _ h => h
  rw [ends_bind]
  refine ends_mono (still (htaken _ _) h1) (fun tk x2 h2 => ?_) fun _ _ h => h
  rw [ends_bind]
  refine ends_mono (still (hdraw _ _) h2) (fun d x3 h3 => ?_) fun _ _ h => h
  obtain ⟨w3, s3⟩ := x3
  have hs3 : s3 = s := h3.2.1
  subst hs3
  dsimp only
  -- nothing claimed about the backends to be published
  have a3 : Agree own d B (fun ns => ns ∉ B) (fun ns => ns ∉ B) w3 s3 := by
    refine ⟨h3.1.trans hb, hl, fun ns hn hL => (hL hn).elim, fun ns hn _ => (hblank d ns ?_).elim⟩
    obtain ⟨l, hl, hm⟩ := hn
    exact ⟨l, (h3.2.2.2 d).symm.trans hl, hm⟩
  have hstore : Keep own d B (fun ns => ns ∉ B) (fun ns => ns ∉ B) Keep.no (do
      SM.storeOwnDevice { M with ownDev := d } label ik (← call .getBackends)) fun _ => Keep.no := by
    refine Keep.loadedB ?_
    unfold SM.storeOwnDevice Sto.storeBytes
    refine .seq (.storeNs fun _ _ ns hn hK => (hK hn).elim) fun _ => .tame (φ := Tame own d) ?_ fun _ h => h
    lib_ops []
    all_goals rename_i h; cases h
  have e1 : ∀ {β : Type} (f : Unit → P β), (call .getBackends >>= fun bs => SM.storeOwnDevice { M with ownDev := d } label ik bs >>= f) =
      ((call .getBackends >>= fun bs => SM.storeOwnDevice { M with ownDev := d } label ik bs) >>= f) := fun f => (Prog.bind_assoc' _ _ _).symm
  rw [e1, ends_bind]
  have hid := liftLib (own := own) (s := s3) (show wp Lib (call .getBackends >>= fun bs => SM.storeOwnDevice { M with ownDev := d } label ik bs)
      (ends (fun _ w' => w'.disk .ownDeviceId = some (.int d)) (fun _ _ => True)) w3 by
    rw [ends_bind]
    refine wp_iff.2 fun t r w' he hr => ?_
    cases r with
    | ok bs => exact store_id w'
    | raised e => trivial
    | crashed => trivial)
  refine wp_mono (wp_and (hstore w3 s3 a3 nofun) hid) fun r x4 hr => ?_
  cases r with
  | raised e => exact hr.1.1.listed
  | crashed => exact hr.1.1.listed
  | ok _ =>
  obtain ⟨⟨a4, g4, -⟩, i4⟩ := hr
  obtain ⟨w4, s4⟩ := x4
  have i4 : w4.disk .ownDeviceId = some (.int d) := i4
  show wp (Net own) (call .getBackends >>= fun bs => Prog.forEach bs _ >>= _) _ _
  -- generating pre keys and publishing
  have hpub : Keep own d B (fun ns => ns ∉ B) (fun ns => ns ∉ B) Keep.no (do
      Prog.forEach (← call .getBackends) fun ns => call (.generatePreKeys ns 100)
      Prog.forEach (← call .getBackends) fun ns => do
        let bundle ← call (.getBundle ns M.ownJid d)
        call (.uploadBundle bundle)) fun _ n d' => n ∈ B ∧ d' = d := by
    refine .loadedB (.seq (.forEach (G := fun _ => Keep.no) fun ns _ => .perform trivial) fun _ => .loadedB ?_)
    refine Keep.post (.forEach (G := fun ns n d' => n = ns ∧ d' = d) fun ns _ => by rw [hj]; exact .publish) ?_
    rintro _ n d' ⟨hn, rfl⟩
    exact ⟨n, hn, rfl, rfl⟩
  have hpubId : AllOps Op.keepsId (do
      Prog.forEach (← call .getBackends) fun ns => call (.generatePreKeys ns 100)
      Prog.forEach (← call .getBackends) fun ns => do
        let bundle ← call (.getBundle ns M.ownJid d)
        call (.uploadBundle bundle)) := by
    lib_ops []
    all_goals trivial
  have e2 : ∀ {β : Type} (f : Unit → P β),
      (call .getBackends >>= fun bs => Prog.forEach bs (fun ns => call (.generatePreKeys ns 100)) >>= fun _ =>
        call .getBackends >>= fun bs => Prog.forEach bs (fun ns => do
          let bundle ← call (.getBundle ns M.ownJid d)
          call (.uploadBundle bundle)) >>= f) =
      ((do
        Prog.forEach (← call .getBackends) fun ns => call (.generatePreKeys ns 100)
        Prog.forEach (← call .getBackends) fun ns => do
          let bundle ← call (.getBundle ns M.ownJid d)
          call (.uploadBundle bundle)) >>= f) := by
    intro β f
    simp only [Prog.bind_assoc']
  rw [e2, ends_bind]
  refine ends_mono (hpub.also (keepsId hpubId) a4 nofun i4) ?_ fun _ _ h => h.1.1.listed
  rintro _ ⟨w5, s5⟩ ⟨⟨a5, g5, f5⟩, i5⟩
  have a5' : Agree own d B (fun _ => True) (fun _ => True) w5 s5 := by
    refine ⟨a5.same, a5.listed, fun ns hn _ => f5 ns d ⟨hn, rfl⟩, fun ns hn _ => ?_⟩
    by_cases h : ns ∈ B
    · exact f5 ns d ⟨h, rfl⟩
    · exact a5.stored ns hn h
  have href : Keep own d B (fun _ => True) (fun _ => True) Keep.no (do
      Prog.forEach (← call .getBackends) fun ns => SM.refreshDeviceList { M with ownDev := d } ns M.ownJid) fun _ => Keep.no := by
    refine .seq .getBackends fun bs => Keep.post (.forEach (G := fun _ => Keep.no) fun ns _ => .refreshDeviceList (M := { M with ownDev := d }) hj rfl fun _ => .inl trivial) ?_
    exact fun _ _ _ h => h.elim
  have hrefId : AllOps Op.keepsId (do
      Prog.forEach (← call .getBackends) fun ns => SM.refreshDeviceList { M with ownDev := d } ns M.ownJid) :=
    .bind (.perform trivial) fun _ => .forEach fun _ _ => refresh_id
  have e3 : ∀ {β : Type} (f : Unit → P β), (call .getBackends >>= fun bs => Prog.forEach bs (fun ns => SM.refreshDeviceList { M with ownDev := d } ns M.ownJid) >>= f) =
      ((call .getBackends >>= fun bs => Prog.forEach bs fun ns => SM.refreshDeviceList { M with ownDev := d } ns M.ownJid) >>= f) := fun f => (Prog.bind_assoc' _ _ _).symm
  rw [e3, ends_bind]
  refine ends_mono (href.also (keepsId hrefId) a5' nofun i5) ?_ fun _ _ h => h.1.1.listed
  rintro _ ⟨w6, s6⟩ ⟨⟨a6, g6, -⟩, i6⟩
  exact ⟨a6, i6, g4.trans (g5.trans g6)⟩

/-- `if` with facts. -/
theorem Keep.whenFact {c : Prop} [Decidable c] {p : P Unit} {G : Facts} (h : c → Keep own dev B L K F p fun _ => G) :
    Keep own dev B L K F (Prog.when c p) fun _ ns d => c ∧ G ns d := by
  unfold Prog.when
  split
  · exact (h ‹_›).post fun _ _ _ x => x.2
  · exact .pure fun _ _ x => (‹¬ c› x.1).elim

theorem purge_id {ns : Ns} : AllOps Op.keepsId (SM.purgeBackend M ns) :=
  (SM.ops_purgeBackend M ns).mono fun o h => by
    cases h with
    | info h => cases h <;> first | trivial | exact fun h => by cases h
    | _ => first | trivial | exact fun h => by cases h

/-- Changed backends: what is new is published before it is listed. -/
theorem sound_handleChanged (hj : M.ownJid = own) (hd : M.ownDev = dev) {w : World} {s : Account}
    (ha : Agree own dev B (fun ns => ns ∉ B) (fun _ => True) w s) (hid : w.disk .ownDeviceId = some (.int dev)) :
    wp (Net own) (SM.handleChangedBackends M) (ends
      (fun _ x => Sound own dev x.1 x.2 ∧ x.1.disk .ownDeviceId = some (.int dev) ∧ Spared dev s x.2) (fun _ x => AllBacked x.2)) (w, s) := by
  have infoId : AllOps Op.keepsId (SM.getOwnDeviceInformation M) :=
    (SM.ops_getOwnDeviceInformation M).mono fun o h => by cases h <;> first | trivial | exact fun h => by cases h
  unfold SM.handleChangedBackends
  rw [ends_bind]
  refine ends_mono ((Keep.getOwnDeviceInformation hj hd).also (keepsId infoId) ha (F := Keep.no) nofun hid) ?_ fun _ _ h => h.1.1.listed
  rintro ⟨device, others⟩ ⟨w1, s1⟩ ⟨⟨a1, g1, f1⟩, i1⟩
  dsimp only at a1 g1 f1 i1
  have f1 : ∀ n, n ∈ device.namespaces → Backed s1 n dev := fun n hn => f1 n dev ⟨hn, trivial, rfl⟩
  show wp (Net own) (call .getBackends >>= _) _ _
  rw [ends_bind]
  refine wp_perform.2 ⟨a1.listed, fun bs hb => ?_, fun e hb => ?_⟩
  rotate_left
  · cases (show Except.error e = Except.ok w1.backends from hb.1)
  cases (show Except.ok bs = Except.ok w1.backends from hb.1)
  rw [a1.same]
  show wp (Net own) (Prog.when _ _) _ (w1, s1)
  refine ends_when (fun _ => ?_) fun heq => ?_
  rotate_left
  · have heq : setEq (dedup B) device.namespaces = true := by simpa using heq
    have hall : ∀ n ∈ B, n ∈ device.namespaces := fun n hn => (setEq_iff.1 heq n).1 (mem_dedup.2 hn)
    exact ⟨⟨rfl, a1.listed, fun n hn _ => f1 n (hall n (a1.same ▸ hn)), a1.stored⟩, i1, g1.spared⟩
  -- the stores and the new backends
  have a2 : Agree own dev B (fun ns => ns ∉ B) (fun ns => ns ∉ B) w1 s1 := ⟨a1.same, a1.listed, a1.loaded, fun n hn _ => a1.stored n hn trivial⟩
  have hnew : Keep own dev B (fun ns => ns ∉ B) (fun ns => ns ∉ B) Keep.no (do
      call (.store (.devActive M.ownJid M.ownDev) (.ofBools ((M.O.iter (dedup B)).map fun ns => (ns, true))))
      call (.store (.devNamespaces M.ownJid M.ownDev) (.ofStrs (M.O.iter (dedup B))))
      Prog.forEach (← call .getBackends) fun ns => do
        Prog.when (ns ∉ device.namespaces) do
          SM.refillPreKeys M ns
          let bundle ← call (.getBundle ns M.ownJid M.ownDev)
          call (.uploadBundle bundle)
          SM.refreshDeviceList M ns M.ownJid) fun _ n d => n ∈ B ∧ n ∉ device.namespaces ∧ d = dev := by
    refine .seq (.perform fun h => by cases h) fun _ => .seq (.storeNs fun _ _ n hn hK => (hK ?_).elim) fun _ => .loadedB ?_
    · simpa using hn
    refine Keep.post (.forEach (G := fun ns n d => ns ∉ device.namespaces ∧ n = ns ∧ d = dev) fun ns hns => .whenFact fun hnot => ?_) ?_
    · have e : ∀ (f : Unit → P Unit), (call (.getBundle ns M.ownJid M.ownDev) >>= fun b => call (.uploadBundle b) >>= f) =
          ((do let b ← call (.getBundle ns own dev); call (.uploadBundle b)) >>= f) := by
        intro f; rw [hj, hd, Prog.bind_assoc']
      refine .seq .refillPreKeys fun _ => ?_
      rw [e]
      refine .bind .publish fun _ => Keep.post (Keep.keep (.refreshDeviceList hj hd fun _ => .inr (.inr ⟨rfl, rfl⟩))) ?_
      exact fun _ n d h => .inl (.inr h)
    · rintro _ n d ⟨h1, h2, rfl⟩
      exact ⟨n, h1, h2, rfl, rfl⟩
  have hnewId : AllOps Op.keepsId (do
      call (.store (.devActive M.ownJid M.ownDev) (.ofBools ((M.O.iter (dedup B)).map fun ns => (ns, true))))
      call (.store (.devNamespaces M.ownJid M.ownDev) (.ofStrs (M.O.iter (dedup B))))
      Prog.forEach (← call .getBackends) fun ns => do
        Prog.when (ns ∉ device.namespaces) do
          SM.refillPreKeys M ns
          let bundle ← call (.getBundle ns M.ownJid M.ownDev)
          call (.uploadBundle bundle)
          SM.refreshDeviceList M ns M.ownJid) := by
    have h := @refresh_id M
    unfold SM.refillPreKeys
    lib_ops [h]
    all_goals first | trivial | (rename_i h; cases h)
  have e2 : ∀ (f : Unit → P Unit),
      (call (.store (.devActive M.ownJid M.ownDev) (.ofBools ((M.O.iter (dedup B)).map fun ns => (ns, true)))) >>= fun _ =>
        call (.store (.devNamespaces M.ownJid M.ownDev) (.ofStrs (M.O.iter (dedup B)))) >>= fun _ =>
        call .getBackends >>= fun bs => Prog.forEach bs (fun ns => do
          Prog.when (ns ∉ device.namespaces) do
            SM.refillPreKeys M ns
            let bundle ← call (.getBundle ns M.ownJid M.ownDev)
            call (.uploadBundle bundle)
            SM.refreshDeviceList M ns M.ownJid) >>= f) =
      ((do
        call (.store (.devActive M.ownJid M.ownDev) (.ofBools ((M.O.iter (dedup B)).map fun ns => (ns, true))))
        call (.store (.devNamespaces M.ownJid M.ownDev) (.ofStrs (M.O.iter (dedup B))))
        Prog.forEach (← call .getBackends) fun ns => do
          Prog.when (ns ∉ device.namespaces) do
            SM.refillPreKeys M ns
            let bundle ← call (.getBundle ns M.ownJid M.ownDev)
            call (.uploadBundle bundle)
            SM.refreshDeviceList M ns M.ownJid) >>= f) := by
    intro f
    simp only [Prog.bind_assoc']
  rw [e2, ends_bind]
  refine ends_mono (hnew.also (keepsId hnewId) a2 nofun i1) ?_ fun _ _ h => h.1.1.listed
  rintro _ ⟨w3, s3⟩ ⟨⟨a3, g3, f3⟩, i3⟩
  have hB : ∀ n ∈ B, Backed s3 n dev := by
    intro n hn
    by_cases h : n ∈ device.namespaces
    · exact g3 _ _ (f1 n h)
    · exact f3 n dev ⟨hn, h, rfl⟩
  have a4 : Sound own dev w3 s3 := by
    refine ⟨rfl, a3.listed, fun n hn _ => hB n (a3.same ▸ hn), fun n hn _ => ?_⟩
    by_cases h : n ∈ B
    · exact hB n h
    · exact a3.stored n hn h
  -- removing what is gone
  have hpurge : Pres (Net own) (fun x => Sound own dev x.1 x.2 ∧ x.1.disk .ownDeviceId = some (.int dev) ∧ Spared dev s x.2)
      (Prog.forEach (M.O.iter (setDiff device.namespaces (dedup B))) fun ns => SM.purgeBackend M ns) := by
    refine Pres.forEach fun ns _ => ?_
    rintro ⟨w, s'⟩ ⟨h1, h2, h3⟩
    refine wp_mono (wp_and (sound_purge hj hd h1) (keepsId purge_id (w, s') h2)) fun r x hr => ⟨hr.1.1, hr.2, h3.trans hr.1.2⟩
  refine wp_mono (hpurge (w3, s3) ⟨a4, i3, (g1.trans g3).spared⟩) fun r x hr => ?_
  cases r with
  | ok _ => exact hr
  | raised e => exact hr.1.listed
  | crashed => exact hr.1.listed

/-- The own device id, on disk or from the first run. -/
theorem wp_ownIdN {p : P Int} {Q : Int → World × Account → Prop} {X : Option Exn → World × Account → Prop} {w : World} {s : Account}
    (hx : ∀ x, X x (w, s)) (h0 : w.disk .ownDeviceId = none → wp (Net own) p (ends Q X) (w, s))
    (h : ∀ v d, w.disk .ownDeviceId = some v → chkInt v = .ok d → Q d (w, s)) :
    wp (Net own) (onNothing (do Maybe.fromJust (← Sto.loadInt .ownDeviceId)) p) (ends Q X) (w, s) := by
  rw [wp_onNothing, wp_bind]
  have hw : wp (Net own) (Sto.loadInt .ownDeviceId) (fun r x => x = (w, s) ∧ (match r with
      | .ok none => w.disk .ownDeviceId = none
      | .ok (some d) => Q d (w, s)
      | .raised e => e ≠ .nothingException
      | .crashed => True)) (w, s) := by
    refine wp_mono (wp_and (Pres.ofOps (N := Net own) (I := fun x => x = (w, s)) (φ := fun o => ∃ k, o = .load k) (allOps_loadInt ⟨_, rfl⟩) (by
      rintro _ ⟨k, rfl⟩ x r _ rfl
      cases r <;> rfl) (w, s) rfl) (liftLib (own := own) (s := s) (Q := ends (fun o w' => match o with
      | none => w.disk .ownDeviceId = none
      | some d => Q d (w, s)) (fun x w' => x ≠ some .nothingException)) (Lib.typed (fun x hf => ?_) (fun v e hv hc => ?_) id fun v b hv hb => h v b hv hb)))
      fun r x hr => ?_
    · rintro rfl; cases hf
    · rintro ⟨⟩; exact chkInt_not_nothing hc rfl
    · refine ⟨hr.1, ?_⟩
      match r, hr.2 with
      | .ok none, h => exact h
      | .ok (some d), h => exact h
      | .raised e, h => exact fun he => h (congrArg some he)
      | .crashed, _ => trivial
  refine wp_mono hw fun r x hr => ?_
  obtain ⟨rfl, hr⟩ := hr
  cases r with
  | ok o =>
    show wp (Net own) (Maybe.fromJust o) _ _
    rw [wp_fromJust]
    cases o with
    | none => exact ⟨nofun, fun _ => ⟨fun _ => h0 hr, fun hne => (hne rfl).elim⟩⟩
    | some d => exact ⟨fun a ha => by cases ha; exact hr, nofun⟩
  | raised e => exact ⟨fun h => (hr h).elim, fun _ => hx _⟩
  | crashed => exact hx _

/-- Before `create`: nothing stored yet, or a device that agrees with the server. -/
def Ready (own : Jid) (w : World) (s : Account) : Prop :=
  AllBacked s ∧ ((w.disk .ownDeviceId = none ∧ ∀ d ns, ¬ Advertises w.disk own d ns) ∨ ∃ dev, w.disk .ownDeviceId = some (.int dev) ∧ Sound own dev w s)

/-- `create` -/
theorem sound_create (hj : M.ownJid = own) {bs : List Ns} {label : Option String} {fuel : Nat} {w : World} {s : Account} (h : Ready own w s) :
    wp (Net own) (SM.create M bs label fuel) (ends
      (fun d x => Sound own d x.1 x.2 ∧ x.1.disk .ownDeviceId = some (.int d) ∧ Spared d s x.2 ∧ ∀ dev, w.disk .ownDeviceId = some (.int dev) → d = dev)
      (fun _ x => AllBacked x.2)) (w, s) := by
  obtain ⟨hl, hr⟩ := h
  rw [SM.create_eq]
  split
  · exact hl
  split
  · exact hl
  rw [ends_bind]
  refine wp_perform.2 ⟨hl, fun _ _ => ?_, fun _ _ => hl⟩
  show wp (Net own) (IdentityKeyPair.get >>= _) _ ({ w with backends := bs }, s)
  rw [ends_bind]
  have hikp : AllOps (Still own) IdentityKeyPair.get := ops_ikp.mono fun o h => by
    cases h <;> first | trivial | exact ⟨(fun h => by cases h), (fun _ h => by cases h)⟩
  refine wp_mono (still_alike hikp (x := ({ w with backends := bs }, s)) _ .refl) fun r x hx => ?_
  cases r with
  | raised e => show AllBacked x.2; rw [hx.2.1]; exact hl
  | crashed => show AllBacked x.2; rw [hx.2.1]; exact hl
  | ok kp =>
  obtain ⟨w1, s1⟩ := x
  obtain ⟨hb1, hs1, hi1, hn1⟩ := hx
  dsimp only at hb1 hs1 hi1 hn1
  subst hs1
  show wp (Net own) (SM.createRest M label kp fuel) _ _
  unfold SM.createRest
  rw [ends_bind]
  refine wp_perform.2 ⟨hl, fun _ _ => ?_, fun _ _ => hl⟩
  show wp (Net own) (onNothing _ _ >>= _) _ ({ w1 with sync := true }, s1)
  rw [ends_bind]
  refine wp_ownIdN (fun _ => hl) (fun h0 => ?_) fun v d hv hc => ?_
  · have h0 : w.disk .ownDeviceId = none := hi1.symm.trans h0
    have hblank : ∀ d ns, ¬ Advertises w.disk own d ns := by
      rcases hr with h | ⟨dev, h, _⟩
      · exact h.2
      · rw [h0] at h; cases h
    refine ends_mono (sound_firstRun hj (B := bs) hb1 hl fun d ns hn => ?_) ?_ fun _ _ h => h
    · obtain ⟨l, hl, hm⟩ := hn
      exact hblank d ns ⟨l, (hn1 d).symm.trans hl, hm⟩
    · rintro d ⟨w2, s2⟩ ⟨a2, i2, g2⟩
      rw [ends_bind]
      refine ends_mono (sound_handleChanged (M := { M with ownDev := d }) hj rfl (B := bs) ⟨a2.same, a2.listed, fun n hn _ => a2.loaded n hn trivial, a2.stored⟩ i2)
        (fun _ x h => ⟨h.1, h.2.1, g2.spared.trans h.2.2, fun dev hd => ?_⟩) fun _ _ h => h
      rw [h0] at hd; cases hd
  · have hv : w.disk .ownDeviceId = some v := hi1.symm.trans hv
    rcases hr with ⟨h, _⟩ | ⟨dev, h, ha⟩
    · rw [h] at hv; cases hv
    rw [h] at hv
    cases hv
    cases hc
    rw [ends_bind]
    refine ends_mono (sound_handleChanged (M := { M with ownDev := dev }) hj rfl (B := bs) (w := { w1 with sync := true }) (s := s1)
      ⟨hb1, hl, fun n hn hL => (hL hn).elim, fun n hn _ => ?_⟩ (hi1.trans h)) (fun _ x hx => ⟨hx.1, hx.2.1, hx.2.2, fun d hd => ?_⟩) fun _ _ h => h
    · obtain ⟨l, hl, hm⟩ := hn
      exact ha.stored n ⟨l, (hn1 dev).symm.trans hl, hm⟩ trivial
    · rw [h] at hd; cases hd; rfl

/-! ### The other calls -/

theorem Spec.Modest.still (hj : M.ownJid = own) (h : Modest M) (ds : List DeviceInfo) (i : Option String) : AllOps (Still own) (M.decide ds i) := by
  refine .of_exec (fun o => ⟨.error .keyError⟩) fun t r he e hm => ?_
  have := h ds i t r he e hm
  obtain ⟨o, x⟩ := e
  subst hj
  cases o <;> exact this

theorem Still.tame {o : Op} (h : Still own o) : Tame own dev o := by
  cases o <;> first | exact h.elim | trivial | exact h.2 dev

theorem Still.id {o : Op} (h : Still own o) : o.keepsId := by
  cases o <;> first | exact h.elim | trivial | exact h.1

theorem tame_purgeJid {jid : Jid} : AllOps (Tame own dev) (SM.purgeBareJid M jid) :=
  (SM.ops_purgeBareJid M jid).mono fun o h => by cases h <;> trivial

theorem call_id (hj : M.ownJid = own) (hm : Modest M) (c : Call) (hc : ∀ bs l f, c ≠ .create bs l f) {v : Option JVal} :
    Pres (Net own) (fun x => x.1.disk .ownDeviceId = v) (c.run M) := by
  have op : ∀ o, o.keepsId → ∀ (x : World × Account) r, (Net own).ok x ⟨o, r⟩ → x.1.disk .ownDeviceId = v → ((Net own).next x ⟨o, r⟩).1.disk .ownDeviceId = v := by
    intro o ho x r _ hx
    cases o with
    | store k _ | delete k =>
      cases r with
      | error e => exact hx
      | ok _ => exact (Disk.upd_of_ne (Ne.symm ho)).trans hx
    | _ => cases r <;> exact hx
  refine Call.pres M c (keepsId (ops_ikp.mono fun o h => by cases h <;> first | trivial | exact fun h => by cases h))
    (fun _ ds i => keepsId ((hm.still hj ds i).mono fun _ h => h.id)) fun o ho => op o ?_
  have info : ∀ {j o}, Info j o → o.keepsId := fun h => by cases h <;> first | trivial | exact fun h => by cases h
  have refresh : ∀ {ns j o}, Refresh M ns j o → o.keepsId := fun h => by
    cases h with
    | download => trivial
    | update h => cases h <;> first | trivial | exact fun h => by cases h
  have empty : ∀ {ns o}, SendEmpty ns o → o.keepsId := fun h => by cases h <;> trivial
  cases c with
  | create bs l f => exact (hc bs l f rfl).elim
  | getIdentityKeyPair => exact ho.elim
  | purgeBackend ns => cases ho <;> first | exact info ‹_› | trivial | exact fun h => by cases h
  | purgeBareJid jid => cases ho <;> first | trivial | exact fun h => by cases h
  | ensureDataConsistency =>
    rcases ho with rfl | ho
    · trivial
    · cases ho <;> first | exact refresh ‹_› | trivial
  | rotation => cases ho <;> trivial
  | updateDeviceList ns jid dl => exact refresh (.update ho)
  | refreshDeviceList ns jid => exact refresh ho
  | refreshDeviceLists jid =>
    rcases ho with rfl | ⟨ns, ho⟩
    · trivial
    · exact refresh ho
  | setTrust => cases ho; exact fun h => by cases h
  | replaceSessions => cases ho <;> first | exact info ‹_› | trivial
  | getSendingChainLength =>
    rcases ho with rfl | ⟨_, _, _, rfl⟩
    · trivial
    · trivial
  | setOwnLabel => cases ho <;> first | trivial | exact fun h => by cases h
  | getDeviceInformation => exact info ho
  | getOwnDeviceInformation => exact info ho
  | beforeHistorySync => cases ho; trivial
  | afterHistorySync => cases ho <;> first | exact empty ‹_› | trivial | exact fun h => by cases h
  | encrypt => cases ho <;> first | exact info ‹_› | trivial
  | decrypt => cases ho <;> first | exact info ‹_› | exact refresh ‹_› | exact empty ‹_› | trivial | exact fun h => by cases h

/-- Any other call of a device that agrees with the server. -/
theorem sound_call (hj : M.ownJid = own) (hd : M.ownDev = dev) (hm : Modest M) (c : Call) (hc : ∀ bs l f, c ≠ .create bs l f) {w : World} {s : Account}
    (hl : ∀ ns dl, c = .updateDeviceList ns own dl → ∀ d ∈ Dict.keys dl, Backed s ns d) (ha : Sound own dev w s) :
    wp (Net own) (c.run M) (fun _ x => Sound own dev x.1 x.2 ∧ Spared dev s x.2) (w, s) := by
  have key : ∀ {p : P Unit} {F : Facts}, Keep own dev w.backends (fun _ => True) (fun _ => True) F p (fun _ => Keep.no) →
      (∀ ns d, F ns d → Backed s ns d) → wp (Net own) p (fun _ x => Sound own dev x.1 x.2 ∧ Spared dev s x.2) (w, s) := by
    intro p F h hF
    refine wp_mono (h w s ha hF) fun r x hr => ?_
    have : Agree own dev w.backends (fun _ => True) (fun _ => True) x.1 x.2 ∧ Grown s x.2 := by
      cases r with
      | ok _ => exact ⟨hr.1, hr.2.1⟩
      | raised e => exact hr
      | crashed => exact hr
    exact ⟨⟨rfl, this.1.listed, fun n hn => this.1.loaded n (this.1.same ▸ hn), this.1.stored⟩, this.2.spared⟩
  have tame : ∀ {p : P Unit}, AllOps (Tame own dev) p → wp (Net own) p (fun _ x => Sound own dev x.1 x.2 ∧ Spared dev s x.2) (w, s) :=
    fun h => key (F := Keep.no) (.tame h fun _ h => h) nofun
  have drop : ∀ {α : Type} {p : P α} {G : α → Facts}, Keep own dev w.backends (fun _ => True) (fun _ => True) Keep.no p G →
      wp (Net own) (do let _ ← p; pure ()) (fun _ x => Sound own dev x.1 x.2 ∧ Spared dev s x.2) (w, s) :=
    fun h => key (F := Keep.no) (.seq h fun _ => .pure nofun) nofun
  cases c with
  | getIdentityKeyPair => exact tame (.bind (ops_ikp.mono fun o h => by cases h <;> first | trivial | exact fun h => by cases h) fun _ => trivial)
  | create bs l f => exact (hc bs l f rfl).elim
  | purgeBackend ns => exact sound_purge hj hd ha
  | purgeBareJid jid => exact tame tame_purgeJid
  | ensureDataConsistency => exact key (F := Keep.no) (.ensureDataConsistency hj hd fun _ => trivial) nofun
  | rotation p f r => exact tame ((SM.ops_manageRotation M p f r).mono fun o h => by cases h <;> trivial)
  | updateDeviceList ns jid dl =>
    refine key (F := fun n d => jid = own ∧ n = ns ∧ d ∈ Dict.keys dl) (.updateDeviceList hj hd (fun _ => .inl trivial) fun h d hm => ⟨h, rfl, hm⟩) ?_
    rintro n d ⟨rfl, rfl, h⟩
    exact hl _ _ rfl d h
  | refreshDeviceList ns jid => exact key (F := Keep.no) (.refreshDeviceList hj hd fun _ => .inl trivial) nofun
  | refreshDeviceLists jid =>
    exact key (F := Keep.no) (.seq .getBackends fun bs => Keep.post (.forEach (G := fun _ => Keep.no) fun ns _ => .refreshDeviceList hj hd fun _ => .inl trivial)
      fun _ _ _ h => h.elim) nofun
  | setTrust jid ik level => exact tame (.perform fun h => by cases h)
  | replaceSessions jid d => exact drop (.replaceSessions jid d)
  | getSendingChainLength dev' =>
    refine tame (.bind ?_ fun _ => trivial)
    unfold SM.getSendingChainLength
    lib_ops []
    all_goals trivial
  | setOwnLabel l => exact key (F := Keep.no) (.setOwnLabel hj hd (fun _ => trivial) l) nofun
  | getDeviceInformation jid => exact drop .getDeviceInformation
  | getOwnDeviceInformation => exact drop (.getOwnDeviceInformation hj hd)
  | beforeHistorySync => exact tame (.perform trivial)
  | afterHistorySync => exact tame ((SM.ops_afterHistorySync M).mono fun o h => by
      cases h with
      | sendEmpty ns h => cases h <;> trivial
      | _ => trivial)
  | encrypt jids pt prio i => exact drop (.encrypt (fun ds i => .tame (hm.still hj ds i) fun _ h => h.tame) jids pt prio i)
  | decrypt msg => exact drop (.decrypt hj hd (fun _ => trivial) msg)

end
end Verif
