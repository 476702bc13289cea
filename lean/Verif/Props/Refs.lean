import Verif.Proofs.RefSim
import Verif.Props.Encrypt
import Verif.Proofs.Sample
/-
Lists, sets and dictionaries that are shared with the application: calls work with their arguments as they were passed (C88), and they
do not change collections of the application (C89).  All statements are about Model/Refs.lean, in which these collections are objects
with references.
-/
namespace Verif
open Refs

namespace Spec

/-- The call `rc` with the contents at the beginning of the collections that are passed. -/
inductive Passed (w : Mem) : RCall → Call → Prop where
  | updateDeviceList {ns : Ns} {jid : Jid} {r : Ref} {dl : DevList} : w.known r = some (.devs dl) →
      Passed w (.updateDeviceList ns jid r) (.updateDeviceList ns jid dl)
  | create {r : Ref} {bs : List Ns} {label : Option String} {fuel : Nat} : w.known r = some (.names bs) →
      Passed w (.create r label fuel) (.create bs label fuel)
  | encrypt {rj rt : Ref} {jids : List Jid} {pt : Dict Ns Bytes} {i : Option String} :
      w.known rj = some (.names jids) → w.known rt = some (.texts pt) → Passed w (.encrypt rj rt none i) (.encrypt jids pt none i)
  | encryptWith {rj rt rp : Ref} {jids : List Jid} {pt : Dict Ns Bytes} {l : List Ns} {i : Option String} :
      w.known rj = some (.names jids) → w.known rt = some (.texts pt) → w.known rp = some (.names l) →
      Passed w (.encrypt rj rt (some rp) i) (.encrypt jids pt (some l) i)
  | refreshDeviceList (ns : Ns) (jid : Jid) : Passed w (.refreshDeviceList ns jid) (.refreshDeviceList ns jid)
  | refreshDeviceLists (jid : Jid) : Passed w (.refreshDeviceLists jid) (.refreshDeviceLists jid)
  | setOwnLabel (label : Option String) : Passed w (.setOwnLabel label) (.setOwnLabel label)
  | purgeBackend (ns : Ns) : Passed w (.purgeBackend ns) (.purgeBackend ns)
  | ensureDataConsistency : Passed w .ensureDataConsistency .ensureDataConsistency
  | decrypt (msg : Message) : Passed w (.decrypt msg) (.decrypt msg)
  | plain {c : Call} : RCall.Plain c → Passed w (.plain c) c

/-- Every execution of `rc` is one of `c`: the same interactions in the same order, with the same content, and the same end. -/
def AsPassed (M : Mgr) (quiet : Bool) (w : Mem) (rc : RCall) (c : Call) : Prop :=
  ∀ t r w', Exec (rc.run M) t r → (heap quiet).Runs w t w' → ∃ r', Exec (c.run M) (seen t) r' ∧ (r = .crashed ∨ r' = r)

/-- While `encrypt` runs, other code does not change the plaintexts and the priority order that were passed to it. -/
def Unchanged (w : Mem) : RCall → Prop
  | .encrypt _ rt rp _ => w.safe rt = true ∧ ∀ r, rp = some r → w.safe r = true
  | _ => True

/-- The calls that update device lists. -/
def Updates : RCall → Prop
  | .updateDeviceList .. | .create .. | .refreshDeviceList .. | .refreshDeviceLists _ | .ensureDataConsistency | .decrypt _ => True
  | _ => False

/-- Every object that is changed has been made before by the call itself. -/
def OnlyOwn (t : List REv) : Prop :=
  ∀ t1 r x a t2, t = t1 ++ ⟨.write r x, a⟩ :: t2 → ∃ y, (⟨.new y, .ok r⟩ : REv) ∈ t1

/-- Every object that is changed has been made before by the call itself, or returned to it by `_download_device_list` for the own account. -/
def OwnOrDownloaded (jid : Jid) (t : List REv) : Prop :=
  ∀ t1 r x a t2, t = t1 ++ ⟨.write r x, a⟩ :: t2 →
    (∃ y, (⟨.new y, .ok r⟩ : REv) ∈ t1) ∨ ∃ ns l, (⟨.download ns jid, .ok (r, l)⟩ : REv) ∈ t1

/-- The calls that change a downloaded device list and upload it. -/
def ChangesDownloaded : RCall → Prop
  | .setOwnLabel _ | .purgeBackend _ | .create .. => True
  | _ => False

end Spec
open Spec

/-! ### C88 -/

/-- C88: a call does what it does for the lists, sets and dictionaries with the contents they have when the call begins, whatever other code
does to these objects while the call runs. -/
def C88_Claim : Prop := ∀ (M : Mgr) (w : Mem) (rc : RCall) (c : Call), Passed w rc c → AsPassed M false w rc c

theorem Refs.Sim.asPassed {quiet : Bool} {α β : Type} {M : Mgr} {w : Mem} {rc : RCall} {c : Call} {p : RP α} {q : P β} {I : Mem → Prop}
    {R : α → β → Mem → Prop} (h : Sim quiet I p q R) (hi : I w) (hp : rc.run M = (do let _ ← p; pure ()))
    (hq : c.run M = (do let _ ← q; pure ())) : AsPassed M quiet w rc c := by
  intro t r w' he hr
  rw [hp] at he
  rw [hq]
  have h' := Sim.bind h (f := fun _ => pure ()) (g := fun _ => pure ()) (R' := fun _ _ _ => True)
    (fun _ _ => Sim.ret fun _ _ => trivial) t r w w' he hr hi
  cases r with
  | ok x =>
    obtain ⟨y, h1, -⟩ := h'
    exact ⟨_, h1, .inr rfl⟩
  | raised e => exact ⟨_, h', .inr rfl⟩
  | crashed =>
    obtain ⟨r', h1⟩ := h'
    exact ⟨r', h1, .inl rfl⟩

theorem Refs.Sim.asPassed' {quiet : Bool} {M : Mgr} {w : Mem} {rc : RCall} {c : Call} {I : Mem → Prop}
    {R : Unit → Unit → Mem → Prop} (h : Sim quiet I (rc.run M) (c.run M) R) (hi : I w) : AsPassed M quiet w rc c := by
  intro t r w' he hr
  have h' := h t r w w' he hr hi
  cases r with
  | ok x =>
    obtain ⟨y, h1, -⟩ := h'
    exact ⟨_, h1, .inr rfl⟩
  | raised e => exact ⟨_, h', .inr rfl⟩
  | crashed =>
    obtain ⟨r', h1⟩ := h'
    exact ⟨r', h1, .inl rfl⟩

/-- Missing for C88: `encrypt` uses its dictionary of plaintexts and its priority order, not copies, until its end, so they must not be
changed while it runs; `update_device_list` uses its copy of the device list after passing it to `_upload_device_list`, so that must not
change it or give it away.  All else is as claimed: `update_device_list` and `create` use copies, `encrypt` uses a copy of the recipients,
and the dictionaries returned by `_download_device_list` are used before other code runs. -/
theorem C88_partial (M : Mgr) (w : Mem) (rc : RCall) (c : Call) (hp : Passed w rc c) (hu : Unchanged w rc) (quiet : Bool)
    (hq : quiet = true ∨ ¬ Updates rc) : AsPassed M quiet w rc c := by
  cases hp with
  | updateDeviceList h =>
    rcases hq with rfl | hq
    · exact (sim_updateDeviceList M _ _ _ _ (fun w => w.known _ = _) fun _ h => h).asPassed' h
    · exact absurd trivial hq
  | create h =>
    rcases hq with rfl | hq
    · exact (sim_create M _ _ (fun w => w.known _ = _) (fun _ h => h) _ _).asPassed h rfl rfl
    · exact absurd trivial hq
  | encrypt hj ht => exact (sim_encrypt M _ _ _ _ _ _ _).asPassed ⟨hj, ⟨ht, hu.1⟩, .none _⟩ rfl rfl
  | encryptWith hj ht hl => exact (sim_encrypt M _ _ _ _ _ _ _).asPassed ⟨hj, ⟨ht, hu.1⟩, .some ⟨hl, hu.2 _ rfl⟩⟩ rfl rfl
  | refreshDeviceList ns jid =>
    rcases hq with rfl | hq
    · exact (sim_refreshDeviceList (I := fun _ => True) M ns jid).asPassed' trivial
    · exact absurd trivial hq
  | refreshDeviceLists jid =>
    rcases hq with rfl | hq
    · exact (sim_refreshDeviceLists (I := fun _ => True) M jid).asPassed' trivial
    · exact absurd trivial hq
  | setOwnLabel label => exact (sim_setOwnLabel (I := fun _ => True) M label).asPassed' trivial
  | purgeBackend ns => exact (sim_purgeBackend (I := fun _ => True) M ns).asPassed' trivial
  | ensureDataConsistency =>
    rcases hq with rfl | hq
    · exact (sim_ensureDataConsistency (I := fun _ => True) M).asPassed' trivial
    · exact absurd trivial hq
  | decrypt msg =>
    rcases hq with rfl | hq
    · exact (sim_decrypt (I := fun _ => True) M msg).asPassed trivial rfl rfl
    · exact absurd trivial hq
  | plain h => exact Sim.asPassed' (Sim.lift_keep (I := fun _ => True) true_stable) trivial

/-- C88 for what `encrypt` returns: the messages are those for the collections as they were passed. -/
theorem C88_encrypt_partial (M : Mgr) (w w' : Mem) (quiet : Bool) (rj rt rp : Ref) (jids : List Jid) (pt : Dict Ns Bytes) (l : List Ns)
    (i : Option String) (hj : w.known rj = some (.names jids)) (ht : w.known rt = some (.texts pt)) (hst : w.safe rt = true)
    (hl : w.known rp = some (.names l)) (hsl : w.safe rp = true) (t : List REv) (x : Dict Message PlainKM × List SM.EncError)
    (he : Exec (Refs.encrypt M rj rt (some rp) i) t (.ok x)) (hr : (heap quiet).Runs w t w') :
    Exec (SM.encrypt M jids pt (some l) i) (seen t) (.ok x) := by
  obtain ⟨y, h1, rfl⟩ := sim_encrypt M rj rt jids pt (some rp) (some l) i t _ w w' he hr ⟨hj, ⟨ht, hst⟩, .some ⟨hl, hsl⟩⟩
  exact h1

/-! ### Example runs -/

namespace Refs

/-- A decidable form of the contract of memory. -/
def okB (w : Mem) : REv → Bool
  | ⟨.new _, .ok r⟩ => !w.used r
  | ⟨.read r, .ok x⟩ => match w.known r with
    | none => true
    | some y => decide (x = y)
  | ⟨.download _ _, .ok (r, l)⟩ => !w.safe r || decide (w.known r = some (.devs l))
  | ⟨.new _, .error _⟩ | ⟨.read _, .error _⟩ | ⟨.write _ _, .error _⟩ | ⟨.pause, .error _⟩ => false
  | _ => true

theorem okB_ok {quiet : Bool} {w : Mem} {e : REv} (h : okB w e = true) : (heap quiet).ok w e := by
  obtain ⟨o, a⟩ := e
  cases o <;> cases a <;> first | trivial | skip
  all_goals simp only [okB] at h
  all_goals try (cases h; done)
  · rename_i x
    show w.safe x.1 = true → _
    intro hs
    simpa [hs] using h
  · simpa [heap] using h
  · intro y hy
    rw [hy] at h
    simpa using h

/-- The whole sequence of interactions is possible. -/
def runsB (quiet : Bool) : Mem → List REv → Bool
  | _, [] => true
  | w, e :: t => okB w e && runsB quiet ((heap quiet).next w e) t

theorem runsB_runs {quiet : Bool} {w : Mem} {t : List REv} (h : runsB quiet w t = true) : ∃ w', (heap quiet).Runs w t w' := by
  induction t generalizing w with
  | nil => exact ⟨w, rfl⟩
  | cons e t ih =>
    simp only [runsB, Bool.and_eq_true] at h
    obtain ⟨w', hw⟩ := ih h.2
    exact ⟨w', okB_ok h.1, hw⟩

/-- An actual state: the world, the contents of all objects, and the next free address. -/
structure Actual where
  world : World
  obj : Ref → Obj
  top : Ref

/-- Answers in an actual state. -/
def answer (env : World → (o : Op) → Except Exn o.Ret) (s : Actual) : (o : ROp) → Except Exn o.Ret
  | .lib o => Lib.env env s.world o
  | .download ns j => match Lib.env env s.world (.downloadList ns j) with
    | .ok l => .ok (s.top, l)
    | .error e => .error e
  | .upload ns _ l => Lib.env env s.world (.uploadList ns l)
  | .new _ => .ok s.top
  | .read r => .ok (s.obj r)
  | .write _ _ => .ok ()
  | .pause => .ok ()

def setObj (f : Ref → Obj) (r : Ref) (x : Obj) : Ref → Obj := fun s => if s = r then x else f s

/-- The next actual state, with other code that changes objects. -/
def step (other : REv → (Ref → Obj) → Ref → Obj) (s : Actual) (e : REv) : Actual :=
  let s : Actual := match e with
    | ⟨.lib o, a⟩ => { s with world := Lib.next s.world ⟨o, a⟩ }
    | ⟨.download _ _, .ok x⟩ => { s with obj := setObj s.obj x.1 (.devs x.2), top := s.top + 1 }
    | ⟨.new x, .ok r⟩ => { s with obj := setObj s.obj r x, top := s.top + 1 }
    | ⟨.write r x, _⟩ => { s with obj := setObj s.obj r x }
    | _ => s
  { s with obj := other e s.obj }

end Refs

namespace Refs

/-- The objects that are passed to `encrypt` in the example: recipients, plaintexts, priority order. -/
def exObj : Ref → Obj
  | 0 => .names ["a"]
  | 1 => .texts [("n", [1]), ("o", [1, 2])]
  | _ => .names ["o", "n"]

def exMem (safe : Bool) : Mem where
  known r := if r < 3 then some (exObj r) else none
  safe r := safe && decide (r < 3)
  used r := decide (r < 3)

/-- While the trust decision is made, the user goes on typing: the application replaces the plaintexts. -/
def typing : REv → (Ref → Obj) → Ref → Obj
  | ⟨.pause, _⟩, f => setObj f 1 (.texts [("n", [9]), ("o", [9])])
  | _, f => f

def idle : REv → (Ref → Obj) → Ref → Obj := fun _ f => f

def typed := runProg (S := RSig) (answer polite) (step typing) 100 (RCall.run Mgr.ex (.encrypt 0 1 none none)) ⟨World.chat, exObj, 3⟩

/-- Only the plaintexts of `pt` are encrypted. -/
def Texts (pt : Dict Ns Bytes) (o : Op) : Prop := ∀ ns p, o = .encryptPlaintext ns p → pt.get ns = some p

theorem ops_texts (pt : Dict Ns Bytes) (jids : List Jid) (prio : Option (List Ns)) (i : Option String) :
    AllOps (Texts pt) (SM.encrypt Mgr.ex jids pt prio i) := by
  generalize hφ : Texts pt = φ
  have h0 : ∀ o : Op, (match o with | .encryptPlaintext .. => False | _ => True) → φ o := by
    subst hφ
    intro o ho ns p h
    subst h
    exact ho.elim
  have h1 : ∀ ns p, pt.get ns = some p → φ (.encryptPlaintext ns p) := by
    subst hφ
    intro ns p h ns' p' he
    cases he
    exact h
  have h2 : ∀ l devs, AllOps φ (SM.devicesWithTrust l devs) := fun l devs => by
    unfold SM.devicesWithTrust
    lib_ops [h0 _ trivial]
  have h3 : ∀ jid, AllOps φ (SM.getDeviceInformation' Mgr.ex jid) := fun jid =>
    (SM.ops_getDeviceInformation' Mgr.ex jid).mono fun o h => h0 o (by cases h <;> trivial)
  have h5 : ∀ ns dev s b m, AllOps φ (SM.encryptForDevice ns dev s b m) := fun ns dev s b m => by
    unfold SM.encryptForDevice SM.bundleFor
    lib_ops [h0 _ trivial]
  unfold SM.encrypt SM.recipientDevices SM.decideTrust SM.askTrust SM.reloadTrust SM.encryptTrusted SM.encryptBackend SM.encryptDevice
  lib_ops [h0 _ trivial, h2, h3, h5]
  exact h1 _ _ ‹_›

/-- The example: the call encrypts what was not passed. -/
theorem typed_exec : Exec (RCall.run Mgr.ex (.encrypt 0 1 none none)) typed.1 typed.2.1 := runProg_exec ..

end Refs

/-- The full statement of C88 is wrong: the application changes the dictionary of plaintexts while `encrypt` waits for trust decisions, and
`encrypt` encrypts the changed plaintexts. -/
theorem C88_refuted : ¬ C88_Claim := by
  intro hc
  have hp : Passed (exMem false) (.encrypt 0 1 none none) (.encrypt ["a"] [("n", [1]), ("o", [1, 2])] none none) :=
    .encrypt rfl rfl
  obtain ⟨w', hr⟩ := runsB_runs (quiet := false) (w := exMem false) (t := typed.1) (by decide +kernel)
  obtain ⟨r', he, -⟩ := hc Mgr.ex _ _ _ hp _ _ _ typed_exec hr
  have hops : AllOps (Texts [("n", [1]), ("o", [1, 2])]) (Call.run Mgr.ex (.encrypt ["a"] [("n", [1]), ("o", [1, 2])] none none)) :=
    .bind (ops_texts _ _ _ _) fun _ => .pure _
  have hbad : ((seen typed.1).any fun e => match e.1 with
      | .encryptPlaintext "n" p => decide (p = [9])
      | _ => false) = true := by decide +kernel
  obtain ⟨e, hm, hb⟩ := List.any_eq_true.1 hbad
  have h1 := hops.exec he e hm
  split at hb
  · rename_i p heq
    have h2 := h1 _ _ heq
    simp at hb
    subst hb
    cases h2
  · cases hb

namespace Refs

/-- A device list of the own account without this device, passed to `update_device_list`. -/
def leakObj : Ref → Obj := fun _ => .devs [(2, some "old")]

def leakMem : Mem where
  known r := if r = 0 then some (leakObj 0) else none
  safe r := decide (r = 0)
  used r := decide (r = 0)

/-- The implementation of `_upload_device_list` keeps the dictionary and the application changes a label in it. -/
def keeping : REv → (Ref → Obj) → Ref → Obj
  | ⟨.upload _ r _, _⟩, f => setObj f r (.devs [(2, some "new"), (1, none)])
  | _, f => f

/-- The server takes device lists. -/
def taking : World → (o : Op) → Except Exn o.Ret
  | _, .uploadList _ _ => .ok ()
  | w, o => polite w o

def leaked := runProg (S := RSig) (answer taking) (step keeping) 100 (RCall.run Mgr.ex (.updateDeviceList "n" "me" 0)) ⟨World.chat, leakObj, 1⟩

/-- Labels that are stored are those of the list, except for the own device. -/
def Labels (dl : DevList) (o : Op) : Prop := ∀ jid d v, o = .store (.devLabel jid d) v → ∀ l, v = .ofOptStr l → d = 1 ∨ dl.get d = some l

end Refs

namespace Refs

theorem labels_after {dl : DevList} {t : List Ev} {dl' : DevList} {ns : Ns} {jid : Jid}
    (h : Exec (SM.ensureOwnListed Mgr.ex ns jid dl) t (.ok dl')) (d : DevId) (hd : d ≠ 1) : dl'.get d = dl.get d := by
  unfold SM.ensureOwnListed at h
  split at h
  · obtain ⟨t1, bs, t2, -, -, h⟩ := exec_seq_ok.1 h
    split at h
    · obtain ⟨t3, m, t4, -, -, h⟩ := exec_seq_ok.1 h
      obtain ⟨t5, label, t6, -, -, h⟩ := exec_seq_ok.1 h
      obtain ⟨t7, x, t8, -, -, h⟩ := exec_seq_ok.1 h
      cases h
      exact Dict.get_set_ne (Ne.symm hd)
    · cases h
      rfl
  · cases h
    rfl

theorem ops_labels {ns : Ns} {jid : Jid} {dl : DevList} {t : List Ev} {r : Res Exn Unit}
    (h : Exec (SM.updateDeviceList Mgr.ex ns jid dl) t r) : ∀ e ∈ t, Labels dl e.1 := by
  generalize hφ : Labels dl = φ
  have h0 : ∀ o : Op, (match o with | .store (.devLabel ..) _ => False | _ => True) → φ o := by
    subst hφ
    intro o ho jid d v h
    subst h
    exact ho.elim
  have h1 : ∀ jid d l, d = 1 ∨ dl.get d = some l → φ (.store (.devLabel jid d) (.ofOptStr l)) := by
    subst hφ
    intro jid d l h jid' d' v he l' hl
    cases he
    cases l <;> cases l' <;> cases hl <;> exact h
  have hbs : AllOps φ (SM.ensureOwnListed Mgr.ex ns jid dl) := by
    unfold SM.ensureOwnListed
    lib_ops [h0 _ trivial]
  unfold SM.updateDeviceList at h
  rcases exec_bind_iff.1 h with ⟨t1, bs, t2, rfl, h2, h3⟩ | ⟨e, h2, -⟩ | ⟨h2, -⟩
  · have hh1 := AllOps.exec (φ := φ) (.perform (h0 _ trivial)) h2
    suffices hs : ∀ e ∈ t2, φ e.1 by
      intro e he
      rcases List.mem_append.1 he with he | he
      · exact hh1 e he
      · exact hs e he
    split at h3
    · cases h3
      exact fun _ hm => absurd hm List.not_mem_nil
    · rcases exec_bind_iff.1 h3 with ⟨t3, old, t4, rfl, h4, h5⟩ | ⟨e, h4, -⟩ | ⟨h4, -⟩
      · have hh2 := AllOps.exec (φ := φ) (by unfold Sto.loadInts; lib_ops [h0 _ trivial]) h4
        suffices hs : ∀ e ∈ t4, φ e.1 by
          intro e he
          rcases List.mem_append.1 he with he | he
          · exact hh2 e he
          · exact hs e he
        rcases exec_bind_iff.1 h5 with ⟨t5, dl', t6, rfl, h6, h7⟩ | ⟨e, h6, -⟩ | ⟨h6, -⟩
        · have hh3 := hbs.exec h6
          suffices hs : ∀ e ∈ t6, φ e.1 by
            intro e he
            rcases List.mem_append.1 he with he | he
            · exact hh3 e he
            · exact hs e he
          have hl : ∀ d l, dl'.get d = some l → d = 1 ∨ dl.get d = some l := by
            intro d l hd
            by_cases h1 : d = 1
            · exact .inl h1
            · exact .inr (labels_after h6 d h1 ▸ hd)
          refine AllOps.exec (φ := φ) ?_ h7
          unfold SM.addNewDevice SM.updateKnownDevice SM.updateListed SM.updateUnlisted
          lib_ops [h0 _ trivial]
          all_goals exact h1 _ _ _ (hl _ _ ‹_›)
        · exact hbs.exec h6
        · exact hbs.exec h6
      · exact AllOps.exec (φ := φ) (by unfold Sto.loadInts; lib_ops [h0 _ trivial]) h4
      · exact AllOps.exec (φ := φ) (by unfold Sto.loadInts; lib_ops [h0 _ trivial]) h4
  · exact AllOps.exec (φ := φ) (.perform (h0 _ trivial)) h2
  · exact AllOps.exec (φ := φ) (.perform (h0 _ trivial)) h2

end Refs

/-- The other part that is missing: `update_device_list` stores a label that was not in the dictionary passed to it, if the implementation
of `_upload_device_list` keeps the dictionary it is passed and this is changed during the call; even if nobody else changes the dictionary passed
to `update_device_list`. -/
theorem C88_leak_refuted : ¬ ∀ (M : Mgr) (w : Mem) (ns : Ns) (jid : Jid) (r : Ref) (dl : DevList), w.known r = some (.devs dl) →
    w.safe r = true → AsPassed M false w (.updateDeviceList ns jid r) (.updateDeviceList ns jid dl) := by
  intro hc
  obtain ⟨w', hr⟩ := runsB_runs (quiet := false) (w := leakMem) (t := leaked.1) (by decide +kernel)
  obtain ⟨r', he, -⟩ := hc Mgr.ex leakMem "n" "me" 0 [(2, some "old")] rfl rfl leaked.1 leaked.2.1 w' (runProg_exec ..) hr
  have hbad : ((seen leaked.1).any fun e => match e.1 with
      | .store (.devLabel "me" 2) (.str "new") => true
      | _ => false) = true := by decide +kernel
  obtain ⟨e, hm, hb⟩ := List.any_eq_true.1 hbad
  have h1 := ops_labels he e hm
  split at hb
  · rename_i heq
    rcases h1 _ _ _ heq (some "new") rfl with h | h
    · cases h
    · exact absurd h (by decide)
  · cases hb

/-- C88 is not vacuous: with the plaintexts replaced at the same moment, but in another dictionary, the call encrypts what was passed. -/
theorem C88_example : ∃ t r w', Exec (RCall.run Mgr.ex (.encrypt 0 1 (some 2) none)) t r ∧ (heap false).Runs (exMem true) t w' ∧
    Unchanged (exMem true) (.encrypt 0 1 (some 2) none) ∧ (seen t).length = 44 := by
  let x := runProg (S := RSig) (answer polite) (step idle) 100 (RCall.run Mgr.ex (.encrypt 0 1 (some 2) none)) ⟨World.chat, exObj, 3⟩
  obtain ⟨w', hr⟩ := runsB_runs (quiet := false) (w := exMem true) (t := x.1) (by decide +kernel)
  exact ⟨x.1, x.2.1, w', runProg_exec .., hr, ⟨rfl, fun r h => by cases h; rfl⟩, by decide +kernel⟩

/-! ### C89 -/

/-- C89: no call changes a list, set or dictionary of the application; it changes only those it has made itself. -/
def C89_Claim : Prop := ∀ (M : Mgr) (rc : RCall) (t : List REv) (r : Res Exn Unit), Exec (rc.run M) t r → OnlyOwn t

namespace Refs

/-- The objects that may be changed after an interaction. -/
def grow (D : Option Jid) (S : Ref → Prop) : REv → Ref → Prop
  | ⟨.new _, .ok r⟩ => fun s => s = r ∨ S s
  | ⟨.download _ j, .ok x⟩ => fun s => (D = some j ∧ s = x.1) ∨ S s
  | _ => S

/-- `p` changes only objects it may change, `S` to begin with. -/
def Owns (D : Option Jid) {α : Type} : (Ref → Prop) → RP α → (α → (Ref → Prop) → Prop) → Prop
  | S, .ret a, Q => Q a S
  | _, .raise _, _ => True
  | S, .op o k, Q => (∀ r x, o = .write r x → S r) ∧ ∀ a, Owns D (grow D S ⟨o, a⟩) (k a) Q

theorem grow_sub {D : Option Jid} {S : Ref → Prop} {e : REv} {s : Ref} (h : S s) : grow D S e s := by
  unfold grow
  split
  · exact .inr h
  · exact .inr h
  · exact h

theorem grow_cases {D : Option Jid} {S : Ref → Prop} {e : REv} {s : Ref} (h : grow D S e s) :
    S s ∨ (∃ y, e = ⟨.new y, .ok s⟩) ∨ ∃ ns j l, D = some j ∧ e = ⟨.download ns j, .ok (s, l)⟩ := by
  obtain ⟨o, a⟩ := e
  cases o <;> cases a <;> first | exact .inl h | skip
  · rename_i ns j x
    rcases h with ⟨hD, rfl⟩ | h
    · exact .inr (.inr ⟨ns, j, x.2, hD, rfl⟩)
    · exact .inl h
  · rename_i x r
    rcases h with rfl | h
    · exact .inr (.inl ⟨x, rfl⟩)
    · exact .inl h

namespace Owns
variable {D : Option Jid} {α β : Type} {S : Ref → Prop}

theorem bind {p : RP α} {f : α → RP β} {Q : α → (Ref → Prop) → Prop} {Q' : β → (Ref → Prop) → Prop} (hp : Owns D S p Q)
    (hf : ∀ a S', (∀ s, S s → S' s) → Q a S' → Owns D S' (f a) Q') : Owns D S (p >>= f) Q' := by
  show Owns D S (Prog.bind p f) Q'
  induction p generalizing S with
  | ret a => exact hf a S (fun _ h => h) hp
  | raise e => exact trivial
  | op o k ih => exact ⟨hp.1, fun a => ih a (hp.2 a) fun x S' hs hq => hf x S' (fun s h => hs s (grow_sub h)) hq⟩

theorem mono {p : RP α} {Q Q' : α → (Ref → Prop) → Prop} (hp : Owns D S p Q) (hq : ∀ a S', (∀ s, S s → S' s) → Q a S' → Q' a S') :
    Owns D S p Q' := by
  induction p generalizing S with
  | ret a => exact hq a S (fun _ h => h) hp
  | raise e => exact trivial
  | op o k ih => exact ⟨hp.1, fun a => ih a (hp.2 a) fun x S' hs h => hq x S' (fun s h => hs s (grow_sub h)) h⟩

theorem lift {q : P α} {Q : α → (Ref → Prop) → Prop} (hq : ∀ a, Q a S) : Owns D S (Refs.lift q) Q := by
  induction q with
  | ret a => exact hq a
  | raise e => exact trivial
  | op o k ih => exact ⟨(fun r x h => by cases h), fun a => ih a⟩

theorem act {o : ROp} (h : ∀ r x, o = .write r x → S r) : Owns D S (act o) fun a S' => S' = grow D S ⟨o, .ok a⟩ :=
  ⟨h, fun a => by cases a <;> trivial⟩

theorem plain {o : ROp} (h : ∀ r x, o ≠ .write r x) : Owns D S (Refs.act o) fun _ _ => True :=
  (act fun r x hx => absurd hx (h r x)).mono fun _ _ _ _ => trivial

theorem read (r : Ref) {g : Obj → α} : Owns D S (do let x : Obj ← Refs.act (.read r); pure (g x)) fun _ _ => True :=
  bind (plain fun _ _ h => by cases h) fun _ _ _ _ => trivial

theorem forEach {xs : List α} {f : α → RP Unit} {C : (Ref → Prop) → Prop} (hC : ∀ S S' : Ref → Prop, (∀ s, S s → S' s) → C S → C S')
    (hS : C S) (h : ∀ S, C S → ∀ x ∈ xs, Owns D S (f x) fun _ _ => True) : Owns D S (Prog.forEach xs f) fun _ _ => True := by
  induction xs generalizing S with
  | nil => exact trivial
  | cons x xs ih =>
    exact bind (h S hS x (List.mem_cons_self ..)) fun _ S' hs _ => ih (hC S S' hs hS) fun S hS y hy => h S hS y (List.mem_cons_of_mem _ hy)

theorem fold {xs : List α} {b : β} {f : β → α → RP β} (h : ∀ S b, ∀ x ∈ xs, Owns D S (f b x) fun _ _ => True) :
    Owns D S (Prog.fold xs b f) fun _ _ => True := by
  induction xs generalizing S b with
  | nil => exact trivial
  | cons x xs ih =>
    exact bind (h S b x (List.mem_cons_self ..)) fun _ S' hs _ => ih fun S b y hy => h S b y (List.mem_cons_of_mem _ hy)

theorem mapAll {xs : List α} {f : α → RP β} (h : ∀ S, ∀ x ∈ xs, Owns D S (f x) fun _ _ => True) :
    Owns D S (Prog.mapAll xs f) fun _ _ => True := by
  induction xs generalizing S with
  | nil => exact trivial
  | cons x xs ih =>
    refine bind (h S x (List.mem_cons_self ..)) fun _ S' hs _ => ?_
    exact bind (ih fun S y hy => h S y (List.mem_cons_of_mem _ hy)) fun _ _ _ _ => trivial

theorem when {c : Prop} [Decidable c] {p : RP Unit} (h : c → Owns D S p fun _ _ => True) : Owns D S (Prog.when c p) fun _ _ => True := by
  unfold Prog.when
  split
  · exact h ‹_›
  · exact trivial

theorem tryCatch {p : P α} {h : Exn → RP α} (hh : ∀ e, Owns D S (h e) fun _ _ => True) :
    Owns D S ((Refs.lift p).tryCatch h) fun _ _ => True := by
  induction p with
  | ret a => exact trivial
  | raise e => exact hh e
  | op o k ih => exact ⟨(fun r x h => by cases h), fun a => ih a⟩

/-- What `Owns` says about executions. -/
theorem sound {p : RP α} {Q : α → (Ref → Prop) → Prop} (h : Owns D S p Q) {t : List REv} {r : Res Exn α} (he : Exec p t r)
    {t1 t2 : List REv} {s : Ref} {x : Obj} {a : Except Exn Unit} (ht : t = t1 ++ ⟨.write s x, a⟩ :: t2) :
    S s ∨ (∃ y, (⟨.new y, .ok s⟩ : REv) ∈ t1) ∨ ∃ ns j l, D = some j ∧ (⟨.download ns j, .ok (s, l)⟩ : REv) ∈ t1 := by
  induction he generalizing S t1 with
  | ret a => cases t1 <;> cases ht
  | raise e => cases t1 <;> cases ht
  | crash o k => cases t1 <;> cases ht
  | @op o k b t res he ih =>
    cases t1 with
    | nil =>
      cases ht
      exact .inl (h.1 _ _ rfl)
    | cons e t1 =>
      simp only [List.cons_append, List.cons.injEq] at ht
      obtain ⟨rfl, ht⟩ := ht
      rcases ih (h.2 b) ht with h1 | ⟨y, h1⟩ | ⟨ns, j, l, hD, h1⟩
      · rcases grow_cases h1 with h1 | ⟨y, h1⟩ | ⟨ns, j, l, hD, h1⟩
        · exact .inl h1
        · exact .inr (.inl ⟨y, h1 ▸ List.mem_cons_self ..⟩)
        · exact .inr (.inr ⟨ns, j, l, hD, h1 ▸ List.mem_cons_self ..⟩)
      · exact .inr (.inl ⟨y, List.mem_cons_of_mem _ h1⟩)
      · exact .inr (.inr ⟨ns, j, l, hD, List.mem_cons_of_mem _ h1⟩)

end Owns

section
variable {D : Option Jid} {S : Ref → Prop} (M : Mgr) (ns : Ns) (jid : Jid) (c : Ref)

theorem owns_ensureOwnListed (newList : List DevId) (hc : S c) : Owns D S (Refs.ensureOwnListed M ns jid c newList) fun _ _ => True := by
  unfold Refs.ensureOwnListed
  split
  · refine Owns.bind (Owns.lift (Q := fun _ _ => True) fun _ => trivial) fun bs S1 h1 _ => ?_
    split
    · refine Owns.bind (Owns.lift (Q := fun _ _ => True) fun _ => trivial) fun m S2 h2 _ => ?_
      refine Owns.bind (Owns.lift (Q := fun _ _ => True) fun _ => trivial) fun label S3 h3 _ => ?_
      refine Owns.bind (Owns.read c (g := Obj.asDevs)) fun dl S4 h4 _ => ?_
      refine Owns.bind (Owns.act fun r x h => by cases h; exact h4 _ (h3 _ (h2 _ (h1 _ hc)))) fun _ S5 h5 _ => ?_
      refine Owns.bind (Owns.read c (g := Obj.asDevs)) fun dl' S6 h6 _ => ?_
      exact Owns.bind (Owns.plain fun _ _ h => by cases h) fun _ _ _ _ => trivial
    · exact trivial
  · exact trivial

theorem owns_updateDeviceList (r : Ref) : Owns D S (Refs.updateDeviceList M ns jid r) fun _ _ => True := by
  unfold Refs.updateDeviceList
  refine Owns.bind (Owns.lift (Q := fun _ _ => True) fun _ => trivial) fun bs S1 h1 _ => ?_
  dsimp only
  split
  · exact trivial
  · refine Owns.bind (Owns.read r (g := Obj.asDevs)) fun arg S2 h2 _ => ?_
    refine Owns.bind (Owns.act fun _ _ h => by cases h) fun c S3 h3 hS3 => ?_
    have hc : S3 c := by
      rw [hS3]
      exact .inl rfl
    refine Owns.bind (Owns.read c (g := Obj.asDevs)) fun dl S4 h4 _ => ?_
    refine Owns.bind (Owns.lift (Q := fun _ _ => True) fun _ => trivial) fun old S5 h5 _ => ?_
    refine Owns.bind (owns_ensureOwnListed M ns jid c _ (h5 _ (h4 _ hc))) fun _ S6 h6 _ => ?_
    refine Owns.bind (Owns.forEach (C := fun _ => True) (fun _ _ _ h => h) trivial fun S _ d _ => ?_) fun _ S7 h7 _ => ?_
    · refine Owns.bind (Owns.lift (Q := fun _ _ => True) fun _ => trivial) fun _ _ _ _ => ?_
      refine Owns.bind (Owns.read c (g := Obj.asDevs)) fun dl _ _ _ => ?_
      split
      · exact trivial
      · exact Owns.bind (Owns.lift (Q := fun _ _ => True) fun _ => trivial) fun _ _ _ _ => Owns.lift fun _ => trivial
    refine Owns.bind (Owns.forEach (C := fun _ => True) (fun _ _ _ h => h) trivial fun S _ d _ => ?_) fun _ S8 h8 _ => ?_
    · unfold Refs.updateKnownDevice Refs.updateListed
      refine Owns.bind (Owns.lift (Q := fun _ _ => True) fun _ => trivial) fun _ _ _ _ => ?_
      refine Owns.bind (Owns.lift (Q := fun _ _ => True) fun _ => trivial) fun _ _ _ _ => ?_
      refine Owns.bind (Owns.lift (Q := fun _ _ => True) fun _ => trivial) fun _ _ _ _ => ?_
      refine Owns.bind (Owns.lift (Q := fun _ _ => True) fun _ => trivial) fun _ _ _ _ => ?_
      refine Owns.bind (Owns.read c (g := Obj.asDevs)) fun dl _ _ _ => ?_
      split
      · refine Owns.bind (Owns.when fun _ => Owns.lift fun _ => trivial) fun _ _ _ _ => ?_
        refine Owns.bind (Owns.lift (Q := fun _ _ => True) fun _ => trivial) fun _ _ _ _ => ?_
        refine Owns.bind (Owns.lift (Q := fun _ _ => True) fun _ => trivial) fun _ _ _ _ => ?_
        refine Owns.bind (Owns.read c (g := Obj.asDevs)) fun dl _ _ _ => ?_
        split
        · exact trivial
        · exact Owns.bind (Owns.when fun _ => Owns.lift fun _ => trivial) fun _ _ _ _ => Owns.when fun _ => Owns.lift fun _ => trivial
      · exact Owns.lift fun _ => trivial
    exact Owns.when fun _ => Owns.lift fun _ => trivial

theorem owns_refreshDeviceList : Owns D S (Refs.refreshDeviceList M ns jid) fun _ _ => True :=
  Owns.bind (Owns.plain fun _ _ h => by cases h) fun _ _ _ _ => owns_updateDeviceList M ns jid _

theorem owns_lists (xs : List Ns) (f : Ns → RP Unit) (h : ∀ S ns, Owns D S (f ns) fun _ _ => True) :
    Owns D S (Prog.forEach xs f) fun _ _ => True :=
  Owns.forEach (C := fun _ => True) (fun _ _ _ h => h) trivial fun S _ ns _ => h S ns

theorem owns_encrypt (rj rt : Ref) (rp : Option Ref) (i : Option String) : Owns D S (Refs.encrypt M rj rt rp i) fun _ _ => True := by
  unfold Refs.encrypt
  refine Owns.bind (Owns.lift (Q := fun _ _ => True) fun _ => trivial) fun _ _ _ _ => ?_
  refine Owns.bind (Q := fun _ _ => True) ?_ fun prio _ _ _ => ?_
  · unfold priority
    split
    · exact trivial
    · exact Owns.bind (Owns.read _ (g := Obj.asNames)) fun _ _ _ _ => trivial
  refine Owns.bind (Owns.lift (Q := fun _ _ => True) fun _ => trivial) fun _ _ _ _ => ?_
  refine Owns.bind (Owns.read rj (g := Obj.asNames)) fun _ _ _ _ => ?_
  refine Owns.bind (Owns.lift (Q := fun _ _ => True) fun _ => trivial) fun _ _ _ _ => ?_
  refine Owns.bind (Q := fun _ _ => True) ?_ fun order _ _ _ => ?_
  · unfold currentOrder
    split
    · exact trivial
    · exact Owns.read _ (g := Obj.asNames)
  refine Owns.bind (Owns.lift (Q := fun _ _ => True) fun _ => trivial) fun _ _ _ _ => ?_
  unfold Refs.encryptRest
  refine Owns.bind (Owns.plain fun _ _ h => by cases h) fun _ _ _ _ => ?_
  refine Owns.bind (Owns.lift (Q := fun _ _ => True) fun _ => trivial) fun _ _ _ _ => ?_
  refine Owns.bind (Owns.lift (Q := fun _ _ => True) fun _ => trivial) fun _ _ _ _ => ?_
  refine Owns.bind (Owns.lift (Q := fun _ _ => True) fun _ => trivial) fun _ _ _ _ => ?_
  refine Owns.bind (Owns.fold fun S b x _ => ?_) fun _ _ _ _ => Owns.lift fun _ => trivial
  unfold Refs.encryptBackend
  split
  · exact trivial
  · refine Owns.bind (Owns.read rt (g := Obj.asTexts)) fun pt _ _ _ => ?_
    split
    · exact trivial
    · exact Owns.lift fun _ => trivial

theorem owns_decrypt (msg : Message) : Owns D S (Refs.decrypt M msg) fun _ _ => True := by
  unfold Refs.decrypt
  refine Owns.bind (Owns.lift (Q := fun _ _ => True) fun _ => trivial) fun _ _ _ _ => ?_
  split
  · exact trivial
  · split
    · exact trivial
    · refine Owns.bind (Q := fun _ _ => True) ?_ fun _ _ _ _ => Owns.lift fun _ => trivial
      unfold Refs.findSender
      refine Owns.bind (Owns.lift (Q := fun _ _ => True) fun _ => trivial) fun _ _ _ _ => ?_
      split
      · exact trivial
      · refine Owns.bind (owns_refreshDeviceList M _ _) fun _ _ _ _ => ?_
        refine Owns.bind (Owns.lift (Q := fun _ _ => True) fun _ => trivial) fun _ _ _ _ => ?_
        split <;> exact trivial

/-- Calls that change only what they have made. -/
theorem owns_run (rc : RCall) (h : ¬ ChangesDownloaded rc) : Owns D S (rc.run M) fun _ _ => True := by
  cases rc with
  | updateDeviceList ns jid r => exact owns_updateDeviceList M ns jid r
  | create => exact absurd trivial h
  | setOwnLabel => exact absurd trivial h
  | purgeBackend => exact absurd trivial h
  | encrypt rj rt rp i => exact Owns.bind (owns_encrypt M rj rt rp i) fun _ _ _ _ => trivial
  | refreshDeviceList ns jid => exact owns_refreshDeviceList M ns jid
  | refreshDeviceLists jid =>
    exact Owns.bind (Owns.lift (Q := fun _ _ => True) fun _ => trivial) fun _ _ _ _ =>
      owns_lists _ _ fun S ns => owns_refreshDeviceList M ns jid
  | ensureDataConsistency =>
    exact Owns.bind (Owns.lift (Q := fun _ _ => True) fun _ => trivial) fun _ _ _ _ =>
      owns_lists _ _ fun S ns => Owns.bind (owns_refreshDeviceList M ns _) fun _ _ _ _ => Owns.lift fun _ => trivial
  | decrypt msg => exact Owns.bind (owns_decrypt M msg) fun _ _ _ _ => trivial
  | plain c => exact Owns.lift fun _ => trivial

theorem owns_purgeBackend (hD : D = some M.ownJid) : Owns D S (Refs.purgeBackend M ns) fun _ _ => True := by
  unfold Refs.purgeBackend
  refine Owns.bind (Owns.act fun _ _ h => by cases h) fun x S1 _ hS => ?_
  have hx : S1 x.1 := by
    rw [hS]
    exact .inl ⟨hD, rfl⟩
  refine Owns.bind (Owns.read x.1 (g := Obj.asDevs)) fun dl S2 h2 _ => ?_
  refine Owns.bind (Owns.when fun _ => ?_) fun _ _ _ _ => Owns.lift fun _ => trivial
  refine Owns.bind (Owns.act fun r y h => by cases h; exact h2 _ hx) fun _ S3 h3 _ => ?_
  exact Owns.bind (Owns.read x.1 (g := Obj.asDevs)) fun _ _ _ _ => Owns.plain fun _ _ h => by cases h

theorem owns_all (rc : RCall) : Owns (some M.ownJid) S (rc.run M) fun _ _ => True := by
  by_cases h : ChangesDownloaded rc
  · cases rc with
    | setOwnLabel label =>
      refine Owns.bind (Owns.lift (Q := fun _ _ => True) fun _ => trivial) fun _ _ _ _ => ?_
      refine Owns.bind (Owns.lift (Q := fun _ _ => True) fun _ => trivial) fun bs _ _ _ => owns_lists _ _ fun S ns => ?_
      refine Owns.bind (Owns.act fun _ _ h => by cases h) fun x S1 _ hS => ?_
      have hx : S1 x.1 := by
        rw [hS]
        exact .inl ⟨rfl, rfl⟩
      refine Owns.bind (Owns.read x.1 (g := Obj.asDevs)) fun dl S2 h2 _ => ?_
      refine Owns.bind (Owns.act fun r y h => by cases h; exact h2 _ hx) fun _ S3 h3 _ => ?_
      exact Owns.bind (Owns.read x.1 (g := Obj.asDevs)) fun _ _ _ _ => Owns.plain fun _ _ h => by cases h
    | purgeBackend ns => exact owns_purgeBackend M ns rfl
    | create r label fuel =>
      refine Owns.bind (Q := fun _ _ => True) ?_ fun _ _ _ _ => trivial
      unfold Refs.create
      refine Owns.bind (Owns.read r (g := Obj.asNames)) fun bs _ _ _ => ?_
      split
      · exact trivial
      · split
        · exact trivial
        · refine Owns.bind (Owns.read r (g := Obj.asNames)) fun arg _ _ _ => ?_
          refine Owns.bind (Owns.plain fun _ _ h => by cases h) fun c _ _ _ => ?_
          refine Owns.bind (Owns.read c (g := Obj.asNames)) fun bs _ _ _ => ?_
          refine Owns.bind (Owns.lift (Q := fun _ _ => True) fun _ => trivial) fun ikp _ _ _ => ?_
          refine Owns.bind (Owns.tryCatch fun e => ?_) fun d _ _ _ => ?_
          · split
            · unfold Refs.firstRun
              refine Owns.bind (Owns.lift (Q := fun _ _ => True) fun _ => trivial) fun bs _ _ _ => ?_
              refine Owns.bind (Q := fun _ _ => True) ?_ fun taken _ _ _ => ?_
              · unfold Refs.takenDeviceIds
                refine Owns.bind (Owns.mapAll fun S ns _ => ?_) fun _ _ _ _ => trivial
                refine Owns.bind (Owns.plain fun _ _ h => by cases h) fun x _ _ _ => ?_
                exact Owns.bind (Owns.read x.1 (g := Obj.asDevs)) fun _ _ _ _ => trivial
              refine Owns.bind (Owns.lift (Q := fun _ _ => True) fun _ => trivial) fun d _ _ _ => ?_
              refine Owns.bind (Owns.lift (Q := fun _ _ => True) fun _ => trivial) fun _ _ _ _ => ?_
              refine Owns.bind (Owns.lift (Q := fun _ _ => True) fun _ => trivial) fun bs _ _ _ => ?_
              exact Owns.bind (owns_lists _ _ fun S ns => owns_refreshDeviceList _ ns _) fun _ _ _ _ => trivial
            · exact trivial
          · refine Owns.bind (Q := fun _ _ => True) ?_ fun _ _ _ _ => trivial
            unfold Refs.handleChangedBackends
            refine Owns.bind (Owns.lift (Q := fun _ _ => True) fun _ => trivial) fun x _ _ _ => ?_
            refine Owns.bind (Owns.lift (Q := fun _ _ => True) fun _ => trivial) fun bs _ _ _ => ?_
            refine Owns.when fun _ => ?_
            refine Owns.bind (Owns.lift (Q := fun _ _ => True) fun _ => trivial) fun _ _ _ _ => ?_
            refine Owns.bind (Owns.lift (Q := fun _ _ => True) fun _ => trivial) fun bs _ _ _ => ?_
            refine Owns.bind (owns_lists _ _ fun S ns => Owns.when fun _ => ?_) fun _ _ _ _ => ?_
            · exact Owns.bind (Owns.lift (Q := fun _ _ => True) fun _ => trivial) fun _ _ _ _ => owns_refreshDeviceList _ ns _
            · exact owns_lists _ _ fun S ns => owns_purgeBackend _ ns rfl
    | _ => cases h
  · exact owns_run M rc h

end
end Refs

/-- Missing for C89: `set_own_label` and `purge_backend`, and through it `create`, change the dictionary that `_download_device_list` has returned.
Other calls change only objects they have made themselves, and no call changes anything else. -/
theorem C89_partial (M : Mgr) (rc : RCall) (t : List REv) (r : Res Exn Unit) (he : Exec (rc.run M) t r) :
    (¬ ChangesDownloaded rc → OnlyOwn t) ∧ OwnOrDownloaded M.ownJid t := by
  refine ⟨fun h t1 s x a t2 ht => ?_, fun t1 s x a t2 ht => ?_⟩
  · rcases (owns_run (D := none) (S := fun _ => False) M rc h).sound he ht with h1 | h1 | ⟨_, _, _, h1, _⟩
    · exact h1.elim
    · exact h1
    · cases h1
  · rcases (owns_all (S := fun _ => False) M rc).sound he ht with h1 | h1 | ⟨ns, j, l, hj, h1⟩
    · exact h1.elim
    · exact .inl h1
    · cases hj
      exact .inr ⟨ns, l, h1⟩

/-- C89 in terms of memory: what existed before a call is not changed by it, with the same exception. -/
theorem C89_existing_partial (M : Mgr) (rc : RCall) (hc : ¬ ChangesDownloaded rc) (quiet : Bool) (w w' : Mem) (t : List REv) (r : Res Exn Unit)
    (he : Exec (rc.run M) t r) (hr : (heap quiet).Runs w t w') (s : Ref) (hs : w.used s = true) (x : Obj) (a : Except Exn Unit) :
    (⟨.write s x, a⟩ : REv) ∉ t := by
  intro hm
  obtain ⟨t1, t2, rfl⟩ := List.append_of_mem hm
  obtain ⟨y, hy⟩ := (C89_partial M rc _ r he).1 hc t1 s x a t2 rfl
  obtain ⟨t3, t4, rfl⟩ := List.append_of_mem hy
  rw [List.append_assoc, List.cons_append] at hr
  obtain ⟨w1, h1, h2⟩ := Sem.runs_append.1 hr
  have hused : ∀ (t : List REv) (w w' : Mem), (heap quiet).Runs w t w' → w.used s = true → w'.used s = true := by
    intro t
    induction t with
    | nil =>
      intro w w' h hu
      cases h
      exact hu
    | cons e t ih =>
      intro w w' h hu
      refine ih _ _ h.2 ?_
      obtain ⟨o, a⟩ := e
      cases o <;> cases a <;> simp only [heap] <;> (try split) <;> simp [Mem.forget, Mem.learn, Mem.see, Mem.keep, Mem.share, hu]
  have h3 := hused _ _ _ h1 hs
  have h4 : w1.used s = false := h2.1
  rw [h3] at h4
  cases h4

/-- The full statement of C89 is wrong: `set_own_label` changes the dictionary that `_download_device_list` has returned. -/
theorem C89_refuted : ¬ C89_Claim := by
  intro hc
  let x := runProg (S := RSig) (answer genuine) (step idle) 100 (RCall.run Mgr.ex (.setOwnLabel (some "pc"))) ⟨World.chat, exObj, 3⟩
  have he : Exec (RCall.run Mgr.ex (.setOwnLabel (some "pc"))) x.1 x.2.1 := runProg_exec ..
  obtain ⟨y, hy⟩ := hc _ _ _ _ he (x.1.take 4) 3 (.devs [(1, some "pc")]) (.ok ()) (x.1.drop 5) rfl
  have : (x.1.take 4).all (fun e => match e.1 with | .new _ => false | _ => true) = true := by decide +kernel
  have := List.all_eq_true.1 this _ hy
  cases this

/-- C89 is not vacuous: the call of `update_device_list` in the example changes a dictionary, which is the copy. -/
theorem C89_example : ∃ t r, Exec (RCall.run Mgr.ex (.updateDeviceList "n" "me" 0)) t r ∧ OnlyOwn t ∧
    (⟨.write 1 (.devs [(2, some "old"), (1, none)]), .ok ()⟩ : REv) ∈ t := by
  have he : Exec (RCall.run Mgr.ex (.updateDeviceList "n" "me" 0)) leaked.1 leaked.2.1 := runProg_exec ..
  refine ⟨_, _, he, (C89_partial _ _ _ _ he).1 (fun h => h), ?_⟩
  have h : leaked.1[8]? = some ⟨.write 1 (.devs [(2, some "old"), (1, none)]), .ok ()⟩ := rfl
  exact List.mem_of_getElem? h

end Verif
