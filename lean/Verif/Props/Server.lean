import Verif.Proofs.InfoDisk
import Verif.Proofs.Sample
/-
C61, C62: consistency with the server, the own label.
-/
namespace Verif
namespace Spec

/-- The data about this account on the server, for each namespace: the device list, and the bundle of this device. -/
structure Server where
  lists : Ns → DevList
  bundles : Ns → Option Bundle

def set (f : Ns → α) (ns : Ns) (a : α) : Ns → α := fun n => if n = ns then a else f n

/-- The interactions of the manager `M` with the server and with its backends, while nobody else changes the data: downloads return what
is on the server, uploads replace it, the backends loaded are `bs`, and their bundles are `loc`.  A download may fail although there is
something to download.  An upload that fails has no effect (the calls considered here end when one fails). -/
def Servers (M : Mgr) (bs : List Ns) (loc : Ns → Bundle) : Sem LibSig Exn Server where
  ok s e := match e with
    | ⟨.getBackends, r⟩ => r = .ok bs
    | ⟨.getBundle ns j d, .ok b⟩ => j = M.ownJid → d = M.ownDev → b = loc ns
    | ⟨.downloadList ns j, .ok dl⟩ => j = M.ownJid → dl = s.lists ns
    | ⟨.downloadBundle ns j d, .ok b⟩ => j = M.ownJid → d = M.ownDev → s.bundles ns = some b
    | _ => True
  next s e := match e with
    | ⟨.uploadList ns dl, .ok _⟩ => { s with lists := set s.lists ns dl }
    | ⟨.uploadBundle b, .ok _⟩ => if b.bareJid = M.ownJid ∧ b.deviceId = M.ownDev then { s with bundles := set s.bundles b.ns (some b) } else s
    | ⟨.deleteBundle ns d, .ok _⟩ => if d = M.ownDev then { s with bundles := set s.bundles ns none } else s
    | _ => s

/-- The bundle of a backend is the one of this device. -/
def Mine (M : Mgr) (loc : Ns → Bundle) : Prop := ∀ ns, (loc ns).ns = ns ∧ (loc ns).bareJid = M.ownJid ∧ (loc ns).deviceId = M.ownDev

/-- The data on the server for `ns` is in order: this device is on the list, and its bundle is the local one. -/
def InOrder (M : Mgr) (loc : Ns → Bundle) (s : Server) (ns : Ns) : Prop := M.ownDev ∈ Dict.keys (s.lists ns) ∧ s.bundles ns = some (loc ns)

/-- A list is kept but for the entry of device `d`, which it has. -/
def Keeps (d : DevId) (old new : DevList) : Prop := (new.get d).isSome = true ∧ ∀ d', d' ≠ d → new.get d' = old.get d'

/-- A bundle is uploaded just after it was obtained from the backend and the one on the server could not be downloaded or was found to differ. -/
def UploadIfDifferent (M : Mgr) (u : List Ev) (e : Ev) : Prop :=
  ∀ b, e.1 = .uploadBundle b → ∃ u' ns r, u = u' ++ [⟨.downloadBundle ns M.ownJid M.ownDev, r⟩] ∧ r ≠ .ok b ∧
    u'.getLast? = some ⟨.getBundle ns M.ownJid M.ownDev, .ok b⟩

/-- For each of the namespaces in turn, the device list is downloaded and uploaded with the label for this device and all other entries as
downloaded. -/
inductive Relabelled (M : Mgr) (label : Option String) : List Ns → List Ev → Prop
  | nil : Relabelled M label [] []
  | cons {ns : Ns} {bs : List Ns} {t : List Ev} (old new : DevList) : new.get M.ownDev = some label → (∀ d, d ≠ M.ownDev → new.get d = old.get d) →
      Relabelled M label bs t → Relabelled M label (ns :: bs) (⟨.downloadList ns M.ownJid, .ok old⟩ :: ⟨.uploadList ns new, .ok ()⟩ :: t)

end Spec
open Spec SM Foot

namespace SM
variable {M : Mgr} {bs : List Ns} {loc : Ns → Bundle} {ns : Ns}

theorem set_self {α : Type} {f : Ns → α} {a : α} : set f ns a ns = a := if_pos rfl
theorem set_ne {α : Type} {f : Ns → α} {a : α} {n : Ns} (h : n ≠ ns) : set f ns a n = f n := if_neg h

/-- Storage does not concern the server. -/
theorem server_quiet {α : Type} {p : P α} (hp : AllOps (fun o : Op => o.isStorage = true) p) (s : Server) :
    wp (Servers M bs loc) p (fun _ s' => s' = s) s := by
  refine Pres.ofOps (I := (· = s)) hp (fun o ho w r _ hw => ?_) s rfl
  subst hw
  cases o <;> first | (cases ho; done) | rfl

theorem server_getBackends {Q : List Ns → Server → Prop} {X : Option Exn → Server → Prop} {s : Server} (hx : X none s) (h : Q bs s) :
    wp (Servers M bs loc) (call .getBackends) (ends Q X) s := by
  refine wp_perform.2 ⟨hx, fun a ha => ?_, fun e he => ?_⟩
  · cases (show Except.ok a = Except.ok bs from ha); exact h
  · cases (show Except.error e = Except.ok bs from he)

theorem storage_add (jid : Jid) (dl : DevList) (d : DevId) : AllOps (S := LibSig) (fun o : Op => o.isStorage = true) (addNewDevice ns jid dl d) := by
  unfold addNewDevice; lib_ops []; all_goals rfl

theorem storage_known (jid : Jid) (dl : DevList) (d : DevId) : AllOps (S := LibSig) (fun o : Op => o.isStorage = true) (updateKnownDevice M ns jid dl d) := by
  unfold updateKnownDevice updateListed updateUnlisted; lib_ops []; all_goals rfl

theorem server_refresh (hns : ns ∈ bs) (s : Server) : wp (Servers M bs loc) (refreshDeviceList M ns M.ownJid)
    (ends (fun _ s' => s'.bundles = s.bundles ∧ (∀ n, n ≠ ns → s'.lists n = s.lists n) ∧
      if M.ownDev ∈ Dict.keys (s.lists ns) then s'.lists ns = s.lists ns else Keeps M.ownDev (s.lists ns) (s'.lists ns)) fun _ _ => True) s := by
  unfold refreshDeviceList updateDeviceList
  rw [ends_bind]
  refine wp_perform.2 ⟨trivial, fun dl hdl => ?_, fun e he => trivial⟩
  obtain rfl := hdl rfl
  show wp _ _ _ s
  rw [ends_bind]
  refine server_getBackends trivial ?_
  rw [if_neg (by simp [hns]), ends_bind]
  refine ends_mono (Q := fun _ s' => s' = s) (X := fun _ _ => True) ?_ ?_ fun _ _ _ => trivial
  · refine wp_mono (server_quiet (allOps_loadInts rfl) s) fun r s' h => ?_
    cases r <;> first | exact h | trivial
  · intro old s1 h1
    rw [h1, ends_bind]
    refine ends_mono (Q := fun _ s' => s'.bundles = s.bundles ∧ (∀ n, n ≠ ns → s'.lists n = s.lists n) ∧
      if M.ownDev ∈ Dict.keys (s.lists ns) then s'.lists ns = s.lists ns else Keeps M.ownDev (s.lists ns) (s'.lists ns)) (X := fun _ _ => True) ?_ ?_ fun _ _ h => h
    · unfold ensureOwnListed
      rw [if_pos rfl, ends_bind]
      refine server_getBackends trivial ?_
      split
      · rename_i h
        rw [ends_bind]
        refine ends_mono (Q := fun _ s' => s' = s) (X := fun _ _ => True) ?_ ?_ fun _ _ _ => trivial
        · refine wp_mono (server_quiet (allOps_loadOptStr rfl) s) fun r s' h => ?_
          cases r <;> first | exact h | trivial
        · intro o s1 h1
          rw [h1, ends_bind, wp_fromJust]
          refine ⟨fun label hl => ?_, fun _ => trivial⟩
          simp only [ends_ok]
          rw [ends_bind]
          refine wp_perform.2 ⟨trivial, fun _ _ => ⟨rfl, fun n hn => set_ne hn, ?_⟩, fun _ _ => trivial⟩
          rw [if_neg h.2]
          show Keeps _ _ (set s.lists ns _ ns)
          rw [set_self]
          refine ⟨by simp [Dict.get_set], fun d hd => ?_⟩
          rw [Dict.get_set, if_neg (Ne.symm hd)]
      · rename_i h
        refine ⟨rfl, fun _ _ => rfl, ?_⟩
        rw [if_pos (Decidable.not_not.1 fun hk => h ⟨hns, hk⟩)]
    · intro dl' s' hs
      refine wp_mono (server_quiet ?_ s') fun r s'' h => ?_
      · have h1 := storage_add (ns := ns) M.ownJid
        have h2 := storage_known (M := M) (ns := ns) M.ownJid
        lib_ops [h1, h2]
        all_goals rfl
      · subst h
        cases r <;> first | exact hs | trivial


theorem server_ensure (hl : Mine M loc) (s : Server) : wp (Servers M bs loc) (ensureDataConsistency M)
    (ends (fun _ s' => (∀ ns ∈ bs, InOrder M loc s' ns) ∧ (∀ ns, ns ∉ bs → s'.lists ns = s.lists ns ∧ s'.bundles ns = s.bundles ns) ∧
      ∀ ns, s'.lists ns = s.lists ns ∨ Keeps M.ownDev (s.lists ns) (s'.lists ns)) fun _ _ => True) s := by
  unfold ensureDataConsistency
  rw [ends_bind]
  refine server_getBackends trivial ?_
  refine ends_forEach (fun done _ s' => (∀ ns ∈ done, InOrder M loc s' ns) ∧ (∀ ns, ns ∉ done → s'.lists ns = s.lists ns ∧ s'.bundles ns = s.bundles ns) ∧
      ∀ ns, s'.lists ns = s.lists ns ∨ Keeps M.ownDev (s.lists ns) (s'.lists ns))
    ⟨by simp, fun _ _ => ⟨rfl, rfl⟩, fun _ => .inl rfl⟩ ?_ fun _ h => h
  rintro done ns rest s1 hxs ⟨h1, h2, h3⟩
  have hns : ns ∈ bs := by rw [hxs]; simp
  rw [ends_bind]
  refine ends_mono (server_refresh hns s1) ?_ fun _ _ _ => trivial
  rintro _ s2 ⟨b2, l2, own2⟩
  have mem2 : M.ownDev ∈ Dict.keys (s2.lists ns) := by
    split at own2
    · rw [own2]; assumption
    · rw [Dict.mem_keys]; exact own2.1
  -- what is left to show: the bundle is the local one
  have fin : ∀ s3 : Server, s3.lists = s2.lists → (∀ n, n ≠ ns → s3.bundles n = s2.bundles n) → s3.bundles ns = some (loc ns) →
      (∀ n ∈ done ++ [ns], InOrder M loc s3 n) ∧ (∀ n, n ∉ done ++ [ns] → s3.lists n = s.lists n ∧ s3.bundles n = s.bundles n) ∧
        ∀ n, s3.lists n = s.lists n ∨ Keeps M.ownDev (s.lists n) (s3.lists n) := by
    intro s3 hl3 hb3 hme
    refine ⟨fun n hn => ?_, fun n hn => ?_, fun n => ?_⟩
    · by_cases hn' : n = ns
      · subst hn'
        exact ⟨hl3 ▸ mem2, hme⟩
      · have := h1 n (by simpa [hn'] using hn)
        refine ⟨?_, ?_⟩
        · rw [hl3, l2 n hn']; exact this.1
        · rw [hb3 n hn', b2]; exact this.2
    · simp only [List.mem_append, List.mem_singleton, not_or] at hn
      rw [hl3, l2 n hn.2, hb3 n hn.2, b2]
      exact h2 n hn.1
    · rw [hl3]
      by_cases hn' : n = ns
      · subst hn'
        split at own2
        · rw [own2]; exact h3 n
        · rename_i hk
          rcases h3 n with h | h
          · rw [← h]; exact .inr own2
          · exact absurd (Dict.mem_keys.2 h.1) hk
      · rw [l2 n hn']; exact h3 n
  rw [ends_bind]
  refine wp_perform.2 ⟨trivial, fun b hb => ?_, fun e he => trivial⟩
  obtain rfl := hb rfl rfl
  show wp _ _ _ s2
  rw [ends_bind]
  refine ends_mono (Q := fun up s3 => s3 = s2 ∧ (up = false → s2.bundles ns = some (loc ns))) (X := fun _ _ => True) ?_ ?_ fun _ _ _ => trivial
  · rw [wp_tryElse]
    refine wp_perform.2 ⟨trivial, fun r hr => ⟨rfl, fun h => ?_⟩, fun e he => ?_⟩
    · simp only [decide_eq_false_iff_not, ne_eq, Classical.not_not] at h
      rw [hr rfl rfl, h]
    · simp only [split3]
      split
      · exact ⟨rfl, nofun⟩
      · trivial
  · rintro up s3 ⟨rfl, hup⟩
    refine ends_when (fun _ => ?_) fun h => fin s3 rfl (fun _ _ => rfl) (hup (by simpa using h))
    refine wp_perform.2 ⟨trivial, fun _ _ => ?_, fun _ _ => trivial⟩
    have : (Servers M bs loc).next s3 ⟨.uploadBundle (loc ns), .ok ()⟩ = { s3 with bundles := set s3.bundles ns (some (loc ns)) } := by
      show (if _ then _ else _) = _
      rw [if_pos (hl ns).2, (hl ns).1]
    exact this ▸ fin _ rfl (fun n hn => set_ne hn) set_self

end SM

/-- C61: after `ensure_data_consistency` the server is in order for every loaded backend; device lists are changed by adding this device
only, and nothing is changed for other namespaces. -/
theorem C61_consistent (M : Mgr) (bs : List Ns) (loc : Ns → Bundle) (hl : Mine M loc) (t : List Ev) (s s' : Server)
    (he : Exec (ensureDataConsistency M) t (.ok ())) (hr : (Servers M bs loc).Runs s t s') :
    (∀ ns ∈ bs, InOrder M loc s' ns) ∧ (∀ ns, ns ∉ bs → s'.lists ns = s.lists ns ∧ s'.bundles ns = s.bundles ns) ∧
      ∀ ns, s'.lists ns = s.lists ns ∨ Keeps M.ownDev (s.lists ns) (s'.lists ns) :=
  wp_sound (server_ensure hl s) he hr

namespace SM
variable {φ : Ev → Prop} {M : Mgr}

theorem guarded_upload {α : Type} {p : P α} (hp : AllOps (fun o : Op => ∀ b, o ≠ .uploadBundle b) p) : Pres (Rec φ) (Guarded (UploadIfDifferent M)) p :=
  Pres.ofOps hp fun _ ho _ _ _ hw => guarded_snoc.2 ⟨hw, fun b hb => absurd hb (ho b)⟩

theorem order_ensure (h : List Ev) (hg : Guarded (UploadIfDifferent M) h) : wp (Rec φ) (ensureDataConsistency M) (fun _ h' => Guarded (UploadIfDifferent M) h') h := by
  have quiet : ∀ (h : List Ev) (e : Ev), (∀ b, e.1 ≠ .uploadBundle b) → Guarded (UploadIfDifferent M) h → Guarded (UploadIfDifferent M) (h ++ [e]) :=
    fun h e he hg => guarded_snoc.2 ⟨hg, fun b hb => absurd hb (he b)⟩
  refine wp_mono (Q := ends (fun _ h' => Guarded (UploadIfDifferent M) h') fun _ h' => Guarded (UploadIfDifferent M) h') ?_ fun r h' hr => by cases r <;> exact hr
  unfold ensureDataConsistency
  rw [ends_bind]
  refine Rec.call hg (fun bs _ => ?_) fun e _ => quiet _ _ nofun hg
  refine ends_forEach (fun _ _ h' => Guarded (UploadIfDifferent M) h') (quiet _ _ nofun hg) ?_ fun _ h => h
  intro done ns rest h _ hg
  rw [ends_bind]
  refine wp_mono (guarded_upload (M := M) ((ops_refreshDeviceList M ns M.ownJid).mono fun o ho => ?_) h hg) fun r h' hr => ?_
  · rintro b rfl
    rcases ho with ⟨⟩ | ⟨⟨⟩⟩
  · cases r with
    | raised e => exact hr
    | crashed => exact hr
    | ok a =>
      simp only [ends_ok]
      rw [ends_bind]
      refine Rec.call hr (fun b _ => ?_) fun e _ => quiet _ _ nofun hr
      have h1 : Guarded (UploadIfDifferent M) (h' ++ [⟨.getBundle ns M.ownJid M.ownDev, .ok b⟩]) := quiet _ _ nofun hr
      have h2 : ∀ r, Guarded (UploadIfDifferent M) (h' ++ [⟨.getBundle ns M.ownJid M.ownDev, .ok b⟩] ++ [⟨.downloadBundle ns M.ownJid M.ownDev, r⟩]) :=
        fun r => quiet _ _ nofun h1
      rw [ends_bind, wp_tryElse]
      have last : ∀ r : Except Exn Bundle, ∀ up : Bool, (up = true → r ≠ .ok b) →
          wp (Rec φ) (Prog.when (up = true) (call (.uploadBundle b))) (ends (fun _ h' => Guarded (UploadIfDifferent M) h') fun _ h' => Guarded (UploadIfDifferent M) h')
            (h' ++ [⟨.getBundle ns M.ownJid M.ownDev, .ok b⟩] ++ [⟨.downloadBundle ns M.ownJid M.ownDev, r⟩]) := by
        intro r up hup
        refine ends_when (fun hu => ?_) fun _ => h2 r
        have h3 : ∀ r', Guarded (UploadIfDifferent M) (h' ++ [⟨.getBundle ns M.ownJid M.ownDev, .ok b⟩] ++ [⟨.downloadBundle ns M.ownJid M.ownDev, r⟩] ++ [⟨.uploadBundle b, r'⟩]) := by
          refine fun r' => guarded_snoc.2 ⟨h2 r, ?_⟩
          rintro _ ⟨⟩
          exact ⟨_, ns, r, rfl, hup hu, by simp⟩
        exact Rec.call (h2 r) (fun _ _ => h3 _) fun _ _ => h3 _
      refine wp_perform.2 ⟨h1, fun r _ => ?_, fun e _ => ?_⟩
      · refine last (.ok r) _ fun hu heq => ?_
        cases heq
        simp at hu
      · simp only [split3]
        split
        · exact last (.error e) true nofun
        · exact h2 _
end SM

/-- C61: a bundle is uploaded only if the one on the server was found to differ from it or could not be downloaded. -/
theorem C61_no_reupload (M : Mgr) (t : List Ev) (r : Res Exn Unit) (he : Exec (ensureDataConsistency M) t r) : Guarded (UploadIfDifferent M) t :=
  Rec.sound (φ := fun _ => True) (order_ensure [] guarded_nil) he fun _ _ => trivial

/-- C62: what `set_own_label` does, when it succeeds: store the label; then publish it for each loaded backend. -/
theorem C62_trace (M : Mgr) (label : Option String) (t : List Ev) (he : Exec (setOwnLabel M label) t (.ok ())) :
    ∃ bs t', t = ⟨.store (.devLabel M.ownJid M.ownDev) (.ofOptStr label), .ok ()⟩ :: ⟨.getBackends, .ok bs⟩ :: t' ∧ Relabelled M label bs t' := by
  unfold setOwnLabel at he
  obtain ⟨_, t1, rfl, he1⟩ := exec_call_bind_ok.1 he
  obtain ⟨bs, t2, rfl, he2⟩ := exec_call_bind_ok.1 he1
  refine ⟨bs, t2, rfl, ?_⟩
  clear he he1
  induction bs generalizing t2 with
  | nil => rw [(exec_forEach_nil.1 he2).1]; exact .nil
  | cons ns bs ih =>
    obtain ⟨t3, t4, rfl, he3, he4⟩ := exec_forEach_cons_ok.1 he2
    obtain ⟨dl, t5, rfl, he5⟩ := exec_call_bind_ok.1 he3
    obtain rfl := exec_call_ok.1 he5
    refine .cons dl _ (by simp) (fun d hd => ?_) (ih t4 he4)
    rw [Dict.get_set, if_neg (Ne.symm hd)]

theorem Spec.Relabelled.disk {M : Mgr} {label : Option String} {bs : List Ns} {t : List Ev} (h : Relabelled M label bs t) {w w' : World} (hr : Lib.Runs w t w') :
    w'.disk = w.disk ∧ w'.backends = w.backends := by
  induction h generalizing w with
  | nil => cases hr; exact ⟨rfl, rfl⟩
  | cons old new _ _ _ ih =>
    have := ih hr.2.2
    exact this

/-- C62: the label is published for every loaded backend, and no other stored data changes; afterwards the own device reports the label. -/
theorem C62_label (M : Mgr) (label : Option String) (t : List Ev) (w w' : World) (he : Exec (setOwnLabel M label) t (.ok ())) (hr : Lib.Runs w t w') :
    (∃ x y t', t = x :: y :: t' ∧ Relabelled M label w.backends t') ∧ (∀ k, k ≠ .devLabel M.ownJid M.ownDev → w'.disk k = w.disk k) ∧
    ∀ t' w'' x, Exec (getOwnDeviceInformation M) t' (.ok x) → Lib.Runs w' t' w'' → x.1.label = label := by
  obtain ⟨bs, t2, rfl, h2⟩ := C62_trace M label t he
  obtain rfl : bs = w.backends := by
    have := hr.2.1
    cases (show Except.ok bs = Except.ok w.backends from this)
    rfl
  have hd := (h2.disk hr.2.2).1
  refine ⟨⟨_, _, t2, rfl, h2⟩, fun k hk => ?_, fun t' w'' x he' hr' => ?_⟩
  · rw [hd]
    exact Disk.upd_of_ne hk
  · obtain ⟨h1, h3, -⟩ := describes_own he' hr'
    have h4 := h3.label
    rw [h1] at h4
    unfold Labelled at h4
    rw [hd] at h4
    have h5 : (w.disk.upd (.devLabel M.ownJid M.ownDev) (some (.ofOptStr label))) (.devLabel M.ownJid M.ownDev) = some (.ofOptStr x.1.label) := h4
    rw [Disk.upd_self] at h5
    have h6 := Option.some.inj h5
    have h7 := congrArg chkOptStr h6
    rw [chkOptStr_of, chkOptStr_of] at h7
    cases h7
    rfl

/-- The label is changed, with another device of the account on the list of "n". -/
def Friendly.listed : Friendly where
  answer w o := match o with
    | .downloadList ns _ => .ok (if ns = "n" then [(5, some "phone"), (1, some "pc")] else [])
    | o => Verif.genuine w o
  ok w o e h := by
    cases o
    case downloadList => cases h
    all_goals exact genuine_ok w _ e h

theorem C62_example : ∃ t w', Exec (setOwnLabel Mgr.ex (some "laptop")) t (.ok ()) ∧ Lib.Runs World.started t w' ∧
    World.started.disk (.devLabel "me" 1) = some (.str "pc") ∧ w'.disk (.devLabel "me" 1) = some (.str "laptop") ∧
    (⟨.uploadList "n" [(5, some "phone"), (1, some "laptop")], .ok ()⟩ : Ev) ∈ t ∧ (⟨.uploadList "o" [(1, some "laptop")], .ok ()⟩ : Ev) ∈ t := by
  have h : (Friendly.listed.run (setOwnLabel Mgr.ex (some "laptop")) World.started).2.1 = .ok () := by decide +kernel
  refine ⟨_, _, h ▸ Friendly.listed.exec _ _, Friendly.listed.runs _ _, rfl, rfl, ?_, ?_⟩
  · exact List.mem_of_getElem? (i := 3) rfl
  · exact List.mem_of_getElem? (i := 5) rfl

/-- A server: for "n" this device is not on the list, and its bundle is missing; for "o" all is well. -/
def Spec.Server.ex : Server where
  lists ns := if ns = "n" then [(5, some "phone")] else [(1, none)]
  bundles ns := if ns = "n" then none else some ⟨ns, "me", 1, [1], 0⟩

/-- The local bundles. -/
def Spec.exLoc (ns : Ns) : Bundle := ⟨ns, "me", 1, [1], 0⟩

/-- Answers of this server. -/
def serverAnswer (s : Server) : (o : Op) → Except Exn o.Ret
  | .getBackends => .ok ["n", "o"]
  | .getBundle ns _ _ => .ok (exLoc ns)
  | .downloadList ns _ => .ok (s.lists ns)
  | .downloadBundle ns _ _ => match s.bundles ns with
    | some b => .ok b
    | none => .error .bundleNotFound
  | .load (.devLabel ..) => .ok (some (.str "pc"))
  | .load _ => .ok none
  | .store .. => .ok ()
  | .uploadList .. => .ok ()
  | .uploadBundle _ => .ok ()
  | _ => .error (.app 0)

theorem serverAnswer_ok (s : Server) (o : Op) : (Servers Mgr.ex ["n", "o"] exLoc).ok s ⟨o, serverAnswer s o⟩ := by
  cases o <;> simp only [serverAnswer, Servers] <;> try trivial
  case downloadBundle ns j d =>
    cases h : s.bundles ns <;> simp
    exact fun _ _ => h
  all_goals simp

/-- The bundle uploaded in an interaction. -/
def Spec.uploaded : Ev → Option Bundle
  | ⟨.uploadBundle b, .ok _⟩ => some b
  | _ => none

def exEnsure := runProg (S := LibSig) (E := Exn) serverAnswer (Servers Mgr.ex ["n", "o"] exLoc).next 100 (ensureDataConsistency Mgr.ex) Server.ex

/-- This device is added to the list of "n", and its bundle is uploaded; nothing is uploaded for "o". -/
theorem C61_example : ∃ t s', Exec (ensureDataConsistency Mgr.ex) t (.ok ()) ∧ (Servers Mgr.ex ["n", "o"] exLoc).Runs Server.ex t s' ∧
    Mine Mgr.ex exLoc ∧ s'.lists "n" = [(5, some "phone"), (1, some "pc")] ∧ s'.bundles "n" = some (exLoc "n") ∧
    t.filterMap uploaded = [exLoc "n"] := by
  have h : exEnsure.2.1 = .ok () := by decide +kernel
  have he : Exec (ensureDataConsistency Mgr.ex) exEnsure.1 exEnsure.2.1 := runProg_exec ..
  have hr : (Servers Mgr.ex ["n", "o"] exLoc).Runs Server.ex exEnsure.1 exEnsure.2.2 := runProg_runs (S := LibSig) (E := Exn) _ serverAnswer serverAnswer_ok 100 _ _
  rw [h] at he
  exact ⟨exEnsure.1, exEnsure.2.2, he, hr, fun ns => ⟨rfl, rfl, rfl⟩, by decide +kernel,
    by decide +kernel, by decide +kernel⟩
end Verif
