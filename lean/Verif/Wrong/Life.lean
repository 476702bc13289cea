import Verif.Props.Keep
import Verif.Props.Owed
import Verif.Props.Passed
import Verif.Props.Pinned
import Verif.Props.Sources
import Verif.Props.TrustKept
import Verif.Props.Withdrawn
import Verif.Props.StockAsk
import Verif.Props.Restart
import Verif.Wrong.Order
/-
Wrong programs for the claims about histories of calls: one of the methods is replaced by a program with a mistake, and the claim is that about
histories in which this program is called instead.  See Wrong/Encrypt.lean for the method.
-/
namespace Verif
namespace Wrong
open SM Spec

/-- The methods. -/
structure Code where
  create : Cre
  /-- all others -/
  method : Mgr → Call → P Unit

/-- The methods as they are in the code. -/
def real : Code := ⟨SM.create, fun M c => c.run M⟩

def Code.run (K : Code) (M : Mgr) : Call → P Unit
  | .create bs label fuel => do let _ ← K.create M bs label fuel; pure ()
  | c => K.method M c

theorem real_run (M : Mgr) (c : Call) : real.run M c = c.run M := by cases c <;> rfl

/-- `update_device_list` is `upd`.  It is called by other methods too, those are left as they are; likewise below. -/
def Code.updating (upd : Upd) : Code := { real with method := fun M c => match c with | .updateDeviceList ns j dl => upd M ns j dl | c => c.run M }

/-- `get_device_information` is `info`. -/
def Code.informing (info : Inf) : Code :=
  { real with method := fun M c => match c with | .getDeviceInformation j => do let _ ← info M j; pure () | c => c.run M }

/-- `before_history_sync` is `p`. -/
def Code.entering (p : P Unit) : Code := { real with method := fun M c => match c with | .beforeHistorySync => p | c => c.run M }

/-- `create` is `cre`. -/
def Code.creating (cre : Cre) : Code := { real with create := cre }

/-- `Hist` with other methods. -/
inductive HistBy (K : Code) : World → List (Mgr × Call) → World → Prop where
  | nil (w : World) : HistBy K w [] w
  | cons {w w1 w2 : World} {M : Mgr} {c : Call} {t : List Ev} {r : Res Exn Unit} {cs : List (Mgr × Call)} :
      Exec (K.run M c) t r → Lib.Runs w t w1 → HistBy K w1 cs w2 → HistBy K w ((M, c) :: cs) w2

theorem hist_real {w w' : World} {cs : List (Mgr × Call)} (h : HistBy real w cs w') : Hist Lib w cs w' := by
  induction h with
  | nil => exact .nil _
  | cons he hr _ ih => exact .cons (real_run _ _ ▸ he) hr ih

/-- `Life` with other methods. -/
inductive LifeBy (K : Code) (own : Jid) (x : XEdDSA) : Use → List (Mgr × Call) → Use → Prop where
  | nil (s : Use) : LifeBy K own x s [] s
  | ikp {s s2 : Use} {w' : World} {t : List Ev} {r : Res Exn Unit} {cs : List (Mgr × Call)} (M : Mgr) : Exec (K.run M .getIdentityKeyPair) t r →
      Lib.Runs s.world t w' → LifeBy K own x ⟨w', s.mgrs⟩ cs s2 → LifeBy K own x s ((M, .getIdentityKeyPair) :: cs) s2
  | create {s s2 : Use} {w' : World} {t : List Ev} {r : Res Exn DevId} {cs : List (Mgr × Call)} (M : Mgr) (bs : List Ns) (label : Option String) (fuel : Nat) :
      M.ownJid = own → M.x = x → Exec (K.create M bs label fuel) t r → Lib.Runs s.world t w' → LifeBy K own x ⟨w', s.mgrs ++ returned M r⟩ cs s2 →
      LifeBy K own x s ((M, .create bs label fuel) :: cs) s2
  | call {s s2 : Use} {w' : World} {t : List Ev} {r : Res Exn Unit} {cs : List (Mgr × Call)} (M : Mgr) (c : Call) : M ∈ s.mgrs →
      (∀ bs l f, c ≠ .create bs l f) → Exec (K.run M c) t r → Lib.Runs s.world t w' → LifeBy K own x ⟨w', s.mgrs⟩ cs s2 → LifeBy K own x s ((M, c) :: cs) s2

theorem life_real {own : Jid} {x : XEdDSA} {s s' : Use} {cs : List (Mgr × Call)} (h : LifeBy real own x s cs s') : Life own x s cs s' := by
  induction h with
  | nil => exact .nil _
  | ikp M he hr _ ih => exact .cons (.ikp M he hr) ih
  | create M bs label fuel hj hx he hr _ ih => exact .cons (.create M bs label fuel hj hx he hr) ih
  | call M c hM hc he hr _ ih => exact .cons (.call M c hM hc (real_run _ _ ▸ he) hr) ih

/-- The first creation of a manager. -/
theorem begin {K : Code} (hK : K.create = SM.create) {cs : List (Mgr × Call)} {s : Use} (h : LifeBy K "me" Mgr.ex.x Use.started cs s) :
    LifeBy K "me" Mgr.ex.x Use.fresh ((Mgr.ex, .create ["n", "o"] (some "pc") 5) :: cs) s := by
  have h' : Exec (K.create Mgr.ex ["n", "o"] (some "pc") 5) firstCreate.1 (.ok 1) := hK ▸ firstCreate_result ▸ genuineRun_exec _ World.fresh
  exact .create Mgr.ex ["n", "o"] (some "pc") 5 rfl rfl h' (genuineRun_runs _ _) h

/-- A call in a deterministic world. -/
theorem next (F : Friendly) {K : Code} {own : Jid} {x : XEdDSA} {s s' : Use} {cs : List (Mgr × Call)} {M : Mgr} {c : Call} (hM : M ∈ s.mgrs)
    (hc : ∀ bs l f, c ≠ .create bs l f) (h : LifeBy K own x ⟨(F.run (K.run M c) s.world).2.2, s.mgrs⟩ cs s') : LifeBy K own x s ((M, c) :: cs) s' :=
  .call M c hM hc (F.exec _ _) (F.runs _ _) h

/-! ### C12: devices are not forgotten -/

/-- C12, what holds of it, for other methods. -/
def C12 (K : Code) : Prop :=
  ∀ (cs0 cs : List (Mgr × Call)) (w0 w w' : World) (j : Jid) (d : DevId), (∀ x ∈ cs0 ++ cs, ViaApi x.1) → (∀ x ∈ cs0 ++ cs, x.2 ≠ .purgeBareJid j) →
    w0.disk = (fun _ => none) → HistBy K w0 cs0 w → HistBy K w cs w' → Known w.disk j d →
    (w.disk .ownDeviceId ≠ none ∨ ∀ x ∈ cs, ∀ bs l f, x.2 = .create bs l f → x.1.ownJid ≠ j) → Known w'.disk j d ∧ Described w'.disk j d

theorem C12_real : C12 real := fun cs0 cs w0 w w' j d happ hp h0 hh0 hh => C12_partial cs0 cs w0 w w' j d happ hp h0 (hist_real hh0) (hist_real hh)

theorem begun {K : Code} (hK : K.create = SM.create) {w : World} {cs : List (Mgr × Call)} (h : HistBy K World.started cs w) :
    HistBy K World.fresh ((Mgr.ex, .create ["n", "o"] (some "pc") 5) :: cs) w := by
  have he : Exec (K.run Mgr.ex (.create ["n", "o"] (some "pc") 5)) firstCreate.1 (.ok ()) := by
    have h' : Exec (K.create Mgr.ex ["n", "o"] (some "pc") 5) firstCreate.1 (.ok 1) := hK ▸ firstCreate_result ▸ genuineRun_exec _ World.fresh
    exact exec_seq_ok.2 ⟨_, _, [], by simp, h', .ret _⟩
  exact .cons he (genuineRun_runs _ _) h

def droppingCode : Code := .updating dropping

def dropWorld : World := (Friendly.genuine.run (droppingCode.run Mgr.ex (.updateDeviceList "n" "a" [(7, some "x"), (8, none)])) World.started).2.2
def dropWorld' : World := (Friendly.genuine.run (droppingCode.run Mgr.ex (.updateDeviceList "n" "a" [(9, none)])) dropWorld).2.2

/-- Devices that are not on the new list are not stored any more. -/
theorem C12_dropping : ¬ C12 droppingCode := by
  intro hc
  obtain ⟨⟨l, h1, h2⟩, -⟩ := hc _ _ World.fresh dropWorld dropWorld' "a" 7
    (by simp [viaApi_ex]) (by simp) rfl (begun rfl (.cons (Friendly.genuine.exec _ _) (Friendly.genuine.runs _ _) (.nil _)))
    (.cons (Friendly.genuine.exec _ _) (Friendly.genuine.runs _ _) (.nil _)) ⟨[7, 8], rfl, by simp⟩ (.inr (by simp))
  have h3 : dropWorld'.disk (.devList "a") = some (.ofInts [9]) := rfl
  rw [h3] at h1
  cases ofInts_inj (Option.some.inj h1)
  simp at h2

/-! ### C19: identity keys do not change -/

/-- C19 for other methods. -/
def C19 (K : Code) : Prop :=
  ∀ (own : Jid) (x : XEdDSA) (s0 s s' : Use) (cs cs' : List (Mgr × Call)) (j : Jid) (d : DevId) (b : Bytes), New s0 → LifeBy K own x s0 cs s →
    LifeBy K own x s cs' s' → (∀ c ∈ cs ++ cs', ViaApi c.1) → (∀ c ∈ cs', c.2 ≠ .purgeBareJid j) → HasKey s.world.disk j d b → HasKey s'.world.disk j d b

theorem C19_real : C19 real := fun own x s0 s s' cs cs' j d b hnew h h' => Verif.C19 own x s0 s s' cs cs' j d b hnew (life_real h) (life_real h')

/-- The identity key is taken from the bundle, also if one is stored (sm:1425 forgotten). -/
def refreshing : Inf := fun M jid => do
  let deviceList := dedup (Maybe.maybe (← Sto.loadInts (.devList jid)) [])
  let (devices, _) ← Prog.fold (M.O.iter deviceList) (([], []) : List DeviceInfo × List Bundle) fun (devices, cache) d => do
    let namespaces := dedup (← Maybe.fromJust (← Sto.loadStrs (.devNamespaces jid d)))
    let _ ← fetchIdentityKey jid d (M.O.iter namespaces)
    match ← deviceBy (rightInf M) M jid d with
    | none => pure (devices, cache)
    | some (dev, none) => pure (setAdd devices dev, cache)
    | some (dev, some bundle) => pure (setAdd devices dev, setAdd cache bundle)
  pure devices

def refreshingCode : Code := .informing refreshing

/-- Bundles with other identity keys. -/
def forged : Friendly := ⟨fun w o => match o with
  | .downloadBundle ns j d => .ok ⟨ns, j, d, [66], 0⟩
  | o => genuine w o, fun w o e h => by
    cases o <;> simp only at h <;> first | exact genuine_ok w _ e h | cases h⟩

def keyWorld : World := (Friendly.genuine.run (refreshingCode.run Mgr.ex (.getDeviceInformation "a"))
  (Friendly.genuine.run (refreshingCode.run Mgr.ex (.updateDeviceList "n" "a" [(7, none)])) World.started).2.2).2.2
def keyWorld' : World := (forged.run (refreshingCode.run Mgr.ex (.getDeviceInformation "a")) keyWorld).2.2

/-- A server that serves another bundle replaces the identity key. -/
theorem C19_refreshing : ¬ C19 refreshingCode := by
  intro hc
  have h := hc "me" Mgr.ex.x Use.fresh ⟨keyWorld, [Mgr.ex]⟩ ⟨keyWorld', [Mgr.ex]⟩ _ _ "a" 7 [7] fresh_new
    (begin rfl (next (M := Mgr.ex) (c := .updateDeviceList "n" "a" [(7, none)]) .genuine (by simp [Use.started]) nofun
      (next (M := Mgr.ex) (c := .getDeviceInformation "a") .genuine (by simp [Use.started]) nofun (.nil _))))
    (next (M := Mgr.ex) (c := .getDeviceInformation "a") forged (by simp) nofun (.nil _))
    (by simp [viaApi_ex]) (by simp) rfl
  have h3 : HasKey keyWorld'.disk "a" 7 [66] := rfl
  unfold HasKey at h h3
  have h4 := congrArg Base64.decode (JVal.str.inj (Option.some.inj (h.symm.trans h3)))
  rw [Base64.decode_encode, Base64.decode_encode] at h4
  cases h4

/-! ### C25, C26: trust levels are those that were set -/

/-- C25, trust levels do not change by themselves, for other methods. -/
def C25' (K : Code) : Prop :=
  ∀ (own : Jid) (x : XEdDSA) (s0 s s' : Use) (cs cs' : List (Mgr × Call)) (j : Jid) (ik : Bytes), New s0 → LifeBy K own x s0 cs s → s.mgrs ≠ [] →
    LifeBy K own x s cs' s' → (∀ c ∈ cs ++ cs', ViaApi c.1) → (∀ c ∈ cs', LeavesTrust c.1 j ik) → (∀ c ∈ cs', c.2 ≠ .purgeBareJid j) →
    (∀ c ∈ cs', ∀ l, c.2 ≠ .setTrust j ik l) → s'.world.disk (.trust j ik) = s.world.disk (.trust j ik)

theorem C25_real : C25' real := fun own x s0 s s' cs cs' j ik hnew h hm h' =>
  C25_kept own x s0 s s' cs cs' j ik hnew (life_real h) hm (life_real h')

/-- C26 for other methods. -/
def C26 (K : Code) : Prop :=
  ∀ (own : Jid) (x : XEdDSA) (s0 s : Use) (cs : List (Mgr × Call)) (j : Jid) (ik : Bytes) (u : String), New s0 → LifeBy K own x s0 cs s →
    (∀ c ∈ cs, LeavesTrust c.1 j ik) → (∀ c ∈ cs, ∀ l, c.2 ≠ .setTrust j ik l) → (∀ c ∈ cs, c.1.undecided = u) →
    ∀ (M : Mgr), M.undecided = u → ∀ (t : List Ev) (w' : World) (devs : List DeviceInfo), Exec (SM.getDeviceInformation M j) t (.ok devs) →
    Lib.Runs s.world t w' → ∀ dev ∈ devs, dev.identityKey = ik → dev.trustLevelName = u

theorem C26_real : C26 real := fun own x s0 s cs j ik u hnew h hl hs hu M hM t w' devs he hr dev hd hk =>
  Verif.C26 own x s0 s cs j ik u hnew (life_real h) hl hs hu M hM t w' devs he hr dev hd hk

/-- Devices are trusted on first use. -/
def firstUse : Inf := infoBy fun M => { rightInf M with level := fun jid ik => do
  let l ← Sto.loadStr (.trust jid ik)
  Prog.when (l = none) (SM.setTrust jid ik "trusted")
  pure (Maybe.maybe l M.undecided) }

def firstUseCode : Code := .informing firstUse

def useWorld : World := (Friendly.genuine.run (firstUseCode.run Mgr.ex (.updateDeviceList "n" "a" [(7, none)])) World.started).2.2
def useWorld' : World := (Friendly.genuine.run (firstUseCode.run Mgr.ex (.getDeviceInformation "a")) useWorld).2.2

theorem leavesTrust_ex (j : Jid) (ik : Bytes) : LeavesTrust Mgr.ex j ik := fun _ _ => trivial

theorem useWorld_life : LifeBy firstUseCode "me" Mgr.ex.x Use.fresh
    [(Mgr.ex, .create ["n", "o"] (some "pc") 5), (Mgr.ex, .updateDeviceList "n" "a" [(7, none)])] ⟨useWorld, [Mgr.ex]⟩ :=
  begin rfl (next .genuine (by simp [Use.started]) nofun (.nil _))

theorem useWorld_life' : LifeBy firstUseCode "me" Mgr.ex.x ⟨useWorld, [Mgr.ex]⟩ [(Mgr.ex, .getDeviceInformation "a")] ⟨useWorld', [Mgr.ex]⟩ :=
  next .genuine (by simp) nofun (.nil _)

/-- To ask for the devices changes their trust levels. -/
theorem C25_firstUse : ¬ C25' firstUseCode := by
  intro hc
  have h := hc "me" Mgr.ex.x Use.fresh _ _ _ _ "a" [7] fresh_new useWorld_life (by simp) useWorld_life' (by simp [viaApi_ex])
    (by simp [leavesTrust_ex]) (by simp) (by simp)
  have h1 : useWorld'.disk (.trust "a" [7]) = some (.str "trusted") := rfl
  have h2 : useWorld.disk (.trust "a" [7]) = none := rfl
  dsimp only at h
  rw [h1, h2] at h
  cases h

/-- A device about which nothing was decided is reported as trusted. -/
theorem C26_firstUse : ¬ C26 firstUseCode := by
  intro hc
  have h1 : (Friendly.genuine.run (SM.getDeviceInformation Mgr.ex "a") useWorld').2.1 = .ok [⟨["n"], [("n", true)], "a", 7, [7], "trusted", none⟩] := by decide +kernel
  have hl : LifeBy firstUseCode "me" Mgr.ex.x Use.fresh
      [(Mgr.ex, .create ["n", "o"] (some "pc") 5), (Mgr.ex, .updateDeviceList "n" "a" [(7, none)]), (Mgr.ex, .getDeviceInformation "a")] ⟨useWorld', [Mgr.ex]⟩ :=
    begin rfl (next .genuine (by simp [Use.started]) nofun useWorld_life')
  have h := hc "me" Mgr.ex.x Use.fresh _ _ "a" [7] "undecided" fresh_new hl (by simp [leavesTrust_ex]) (by simp) (by simp [Mgr.ex]) Mgr.ex rfl _ _ _
    (h1 ▸ Friendly.genuine.exec (SM.getDeviceInformation Mgr.ex "a") useWorld') (Friendly.genuine.runs _ _) _ (.head _) rfl
  exact absurd h (by decide)

/-! ### C70: the device id stays the same -/

/-- C70 for other methods. -/
def C70 (K : Code) : Prop :=
  ∀ (own : Jid) (x : XEdDSA) (s0 s s' : Use) (cs cs' : List (Mgr × Call)), New s0 → LifeBy K own x s0 cs s → LifeBy K own x s cs' s' →
    (∀ c ∈ cs ++ cs', ViaApi c.1) → ∀ M ∈ s.mgrs, ∀ M' ∈ s'.mgrs, M.ownDev = M'.ownDev ∧ s'.world.disk .ownDeviceId = some (.int M.ownDev)

theorem C70_real : C70 real := fun _ _ _ _ _ _ _ h0 h h' happ M hM M' hM' => Verif.C70 h0 (life_real h) (life_real h') happ M hM M' hM'

/-- There is a new device in each process (sm:349-355 forgotten). -/
def reborn : Cre := fun M bs label fuel => do
  call (.setBackends bs)
  let ikp ← IdentityKeyPair.get
  call (.setSync true)
  let d ← firstRun M label (ikp.identityKey M.x) fuel
  handleChangedBackends { M with ownDev := d }
  pure d

theorem C70_reborn : ¬ C70 (.creating reborn) := by
  intro hc
  have h1 : (Friendly.genuine.run (reborn Mgr.ex ["n"] none 5) World.fresh).2.1 = .ok 1 := by decide +kernel
  have h2 : (Friendly.another.run (reborn Mgr.ex ["n"] none 5) (Friendly.genuine.run (reborn Mgr.ex ["n"] none 5) World.fresh).2.2).2.1 = .ok 2 := by decide +kernel
  have e1 := h1 ▸ Friendly.genuine.exec (reborn Mgr.ex ["n"] none 5) World.fresh
  have e2 := h2 ▸ Friendly.another.exec (reborn Mgr.ex ["n"] none 5) (Friendly.genuine.run (reborn Mgr.ex ["n"] none 5) World.fresh).2.2
  have h := (hc "me" Mgr.ex.x Use.fresh _ _ _ _ fresh_new
    (.create (K := .creating reborn) Mgr.ex ["n"] none 5 rfl rfl e1 (Friendly.genuine.runs _ _) (.nil _))
    (.create (K := .creating reborn) Mgr.ex ["n"] none 5 rfl rfl e2 (Friendly.another.runs _ _) (.nil _))
    (by simp [viaApi_ex]) { Mgr.ex with ownDev := 1 } (by simp [Use.fresh, returned]) { Mgr.ex with ownDev := 2 } (by simp [returned])).1
  exact absurd h (by decide)

/-! ### C55: the own device after creation -/

/-- C55, what holds of it, for other methods. -/
def C55 (K : Code) : Prop :=
  ∀ (own : Jid) (x : XEdDSA) (s0 s : Use) (cs : List (Mgr × Call)) (M : Mgr) (bs : List Ns) (label : Option String) (fuel : Nat) (t : List Ev)
    (d : DevId) (w' : World), New s0 → LifeBy K own x s0 cs s → (∀ c ∈ cs, ViaApi c.1) → (∀ c ∈ cs, c.2 ≠ .purgeBareJid own) →
    M.ownJid = own → M.x = x → Exec (K.create M bs label fuel) t (.ok d) → Lib.Runs s.world t w' →
    ∃ kp, HoldsIkp w'.disk kp ∧ OwnDevice w'.disk own d (kp.identityKey x) bs

theorem C55_real : C55 real := fun own x s0 s cs M bs label fuel t d w' hnew h => C55_partial own x s0 s cs M bs label fuel t d w' hnew (life_real h)

/-- Changes of the loaded backends are ignored (sm:431-473 forgotten). -/
def inert : Cre := fun M bs label fuel => do
  call (.setBackends bs)
  let ikp ← IdentityKeyPair.get
  call (.setSync true)
  onNothing (do Maybe.fromJust (← Sto.loadInt .ownDeviceId)) (firstRun M label (ikp.identityKey M.x) fuel)

theorem C55_inert : ¬ C55 (.creating inert) := by
  intro hc
  have h1 : (Friendly.genuine.run (inert Mgr.ex ["n", "o"] none 5) World.fresh).2.1 = .ok 1 := by decide +kernel
  have h2 : (Friendly.genuine.run (inert Mgr.ex ["o"] none 5) (Friendly.genuine.run (inert Mgr.ex ["n", "o"] none 5) World.fresh).2.2).2.1 = .ok 1 := by decide +kernel
  have e1 := h1 ▸ Friendly.genuine.exec (inert Mgr.ex ["n", "o"] none 5) World.fresh
  obtain ⟨kp, -, h⟩ := hc "me" Mgr.ex.x Use.fresh _ _ Mgr.ex ["o"] none 5 _ 1 _ fresh_new
    (.create (K := .creating inert) Mgr.ex ["n", "o"] none 5 rfl rfl e1 (Friendly.genuine.runs _ _) (.nil _)) (by simp [viaApi_ex]) (by simp) rfl rfl
    (h2 ▸ Friendly.genuine.exec (inert Mgr.ex ["o"] none 5) _) (Friendly.genuine.runs _ _)
  have h3 := (h.exact "n").1 ⟨["n", "o"], rfl, by simp⟩
  simp at h3

/-! ### C85: queued messages stay queued -/

/-- C85, queued messages stay queued, for other methods. -/
def C85 (K : Code) : Prop :=
  ∀ (w w' : World) (cs : List (Mgr × Call)), HistBy K w cs w' → (∀ c ∈ cs, c.2 ≠ .afterHistorySync) → (∀ c ∈ cs, c.2.asks → NoQueues c.1) →
    ∀ x, Queued w.disk x → Queued w'.disk x

theorem C85_real : C85 real := fun _ _ _ hh hc hd _ hq => C85_kept (hist_real hh) hc hd hq

/-- The queues are emptied when synchronization begins. -/
def afresh : P Unit := do
  call (.setSync true)
  Prog.forEach (← call .getBackends) fun ns => call (.delete (.queue ns))

theorem C85_afresh : ¬ C85 (.entering afresh) := by
  intro hc
  have hq : Queued World.inbox1.disk ("o", "a", 7) := ⟨⟨["a"], rfl, by simp⟩, [.int 7], rfl, by decide⟩
  obtain ⟨⟨l, h1, -⟩, -⟩ := hc World.inbox1 _ _ (.cons (M := Mgr.ex) (c := .beforeHistorySync) (Friendly.genuine.exec _ _) (Friendly.genuine.runs _ _) (.nil _))
    (by simp) (fun c hc h => by cases List.mem_singleton.1 hc; exact h.elim) _ hq
  cases h1

/-! ### C119: what is stored was said -/

/-- C119, supported backends, for other methods. -/
def C119 (K : Code) : Prop :=
  ∀ (own : Jid) (x : XEdDSA) (s0 s : Use) (cs : List (Mgr × Call)), New s0 → s0.world.log = [] → LifeBy K own x s0 cs s → (∀ c ∈ cs, Judging c.1) →
    (∀ j d, Known s.world.disk j d → (heard own cs s.world.log).device j d) ∧ ∀ j d ns, Advertises s.world.disk j d ns → (heard own cs s.world.log).supports j d ns

theorem C119_real : C119 real := fun own x s0 s cs h0 hlog h hd =>
  have h := Verif.C119 own x s0 s cs h0 hlog (life_real h) hd
  ⟨h.1, h.2.1⟩

/-- A new device is taken to support all backends that are loaded. -/
def presumptuous : Upd := updateBy { rightUpd with fresh := fun ns jid dl d => do
  addNewDevice ns jid dl d
  let bs ← call .getBackends
  call (.store (.devActive jid d) (.ofBools (bs.map fun ns => (ns, true))))
  call (.store (.devNamespaces jid d) (.ofStrs bs)) }

def presumptuousCode : Code := .updating presumptuous

def presumed : World := (Friendly.genuine.run (presumptuousCode.run Mgr.ex (.updateDeviceList "n" "a" [(7, none)])) World.started).2.2

theorem C119_presumptuous : ¬ C119 presumptuousCode := by
  intro hc
  have hlog : presumed.log.all (fun e => match e with | ⟨.downloadList _ j, _⟩ => decide (j ≠ "a") | _ => true) = true := by decide +kernel
  have h := (hc "me" Mgr.ex.x Use.fresh ⟨presumed, [Mgr.ex]⟩ _ fresh_new rfl
    (begin rfl (next (M := Mgr.ex) (c := .updateDeviceList "n" "a" [(7, none)]) .genuine (by simp [Use.started]) nofun (.nil _)))
    (by rintro c hc ds i; simp at hc; rcases hc with rfl | rfl <;> exact .ret ())).2 "a" 7 "o" ⟨["n", "o"], rfl, by simp⟩
  rcases h with ⟨l, h | ⟨dl, h, -⟩ | ⟨dl, h, -⟩⟩ | ⟨h, -⟩
  · exact h
  · exact absurd (List.all_eq_true.1 hlog _ h) (by simp)
  · simp at h
  · exact absurd h (by decide)

/-! ### C92: listed devices stay listed -/

/-- C92 for other methods. -/
def C92 (K : Code) : Prop :=
  ∀ (M0 M : Mgr) (ns : Ns) (j : Jid) (L : DevList) (w0 w1 w2 w3 : World) (t0 t : List Ev) (cs : List (Mgr × Call)) (d : DevId)
    (jids : List Jid) (pt : Dict Ns Bytes) (prio : Option (List Ns)) (i : Option String) (msgs : Dict Message PlainKM) (errs : List EncError),
    Typed w0.disk → Exec (K.run M0 (.updateDeviceList ns j L)) t0 (.ok ()) → Lib.Runs w0 t0 w1 → L.get d ≠ none → HistBy K w1 cs w2 →
    (∀ x ∈ cs, Retaining ns j d x) → (∀ e ∈ w2.log.drop w1.log.length, ¬ Dropped ns j d e) → CallbackQuiet M.decide →
    Exec (encrypt M jids pt prio i) t (.ok (msgs, errs)) → Lib.Runs w2 t w3 → w2.backends.Nodup → (∀ e ∈ t, ∀ bs, e.1 ≠ .setBackends bs) → Addressed t →
    ns ∈ prio.getD w2.backends → j ∈ jids ∨ j = M.ownJid → ¬ (j = M.ownJid ∧ d = M.ownDev) → Accounted t msgs errs j d

theorem C92_real : C92 real := fun M0 M ns j L w0 w1 w2 w3 t0 t cs d jids pt prio i msgs errs ht he0 hr0 hd hh =>
  Verif.C92 M0 M ns j L w0 w1 w2 w3 t0 t cs d jids pt prio i msgs errs ht he0 hr0 hd (hist_real hh)

/-- Devices that are not on a list are stored as inactive for all backends (sm:1084-1089: not only for that of the list). -/
def sweeping : Upd := updateBy { rightUpd with known := fun M ns jid dl d => do
  let active ← Maybe.fromJust (← Sto.loadBools (.devActive jid d))
  match dl.get d with
  | some _ => updateKnownDevice M ns jid dl d
  | none => call (.store (.devActive jid d) (.ofBools (active.map fun x => (x.1, false)))) }

def sweepingCode : Code := .updating sweeping

def swept : World := (Friendly.mixed.run (sweepingCode.run Mgr.ex (.updateDeviceList "n" "a" [(7, none)])) World.started).2.2
def swept' : World := (Friendly.mixed.run (sweepingCode.run Mgr.ex (.updateDeviceList "o" "a" [(6, none)])) swept).2.2
def sweptRun := Friendly.mixed.run (encrypt Mgr.ex ["a"] [("n", [1]), ("o", [1])] none none) swept'

/-- A device that is listed for one backend does not get messages, because it is not listed for another. -/
theorem C92_sweeping : ¬ C92 sweepingCode := by
  intro hc
  have h0 : (Friendly.mixed.run (sweepingCode.run Mgr.ex (.updateDeviceList "n" "a" [(7, none)])) World.started).2.1 = .ok () := by decide +kernel
  obtain ⟨⟨msgs, errs⟩, h1⟩ := runs_ok (r := sweptRun.2.1) (by decide +kernel)
  have hset : sweptRun.1.all (fun e => match e.1 with | .setBackends _ => false | _ => true) = true := by decide +kernel
  have hb : swept'.backends = ["n", "o"] := by decide +kernel
  have hlog : ((swept'.log.drop swept.log.length).all fun e => match e with
    | ⟨.downloadList ns j, _⟩ => decide (ns ≠ "n" ∨ j ≠ "a") | _ => true) = true := by decide +kernel
  have hev : sweptRun.1.all (fun e => match e.1 with | .evalTrust dev => decide (dev.deviceId ≠ 7) | .downloadBundle _ _ d => decide (d ≠ 8) | _ => true) = true := by
    decide +kernel
  have hns : sweptRun.1.all (fun e => match e with | ⟨.downloadBundle _ _ _, .error _⟩ => false | ⟨.load (.devNamespaces "a" 7), .ok (some (.list l))⟩ => !l.isEmpty | _ => true) = true := by
    decide +kernel
  have h := hc Mgr.ex Mgr.ex "n" "a" [(7, none)] World.started swept swept' _ _ _ _ 7 ["a"] [("n", [1]), ("o", [1])] none none msgs errs World.started_typed
    (h0 ▸ Friendly.mixed.exec _ _) (Friendly.mixed.runs _ _) (by decide)
    (.cons (M := Mgr.ex) (c := .updateDeviceList "o" "a" [(6, none)]) (Friendly.mixed.exec _ _) (Friendly.mixed.runs _ _) (.nil _))
    (fun x hx => by cases List.mem_singleton.1 hx; exact ⟨fun h => absurd h.1 (by decide), fun h => absurd h (by decide), fun _ _ => .ret ()⟩)
    (fun e he ⟨l, hl, _⟩ => by subst hl; have := List.all_eq_true.1 hlog _ he; simp at this)
    Mgr.ex_quiet (h1 ▸ Friendly.mixed.exec (encrypt Mgr.ex ["a"] [("n", [1]), ("o", [1])] none none) swept') (Friendly.mixed.runs _ _) (hb ▸ by decide)
    (fun e he bs hbs => by have := List.all_eq_true.1 hset e he; rw [hbs] at this; cases this) (mixed_addressed' _ _) (hb ▸ by simp) (.inl (by simp))
    (fun h => absurd h.1 (by decide))
  have no : ∀ dev l, dev.deviceId = 7 → ¬ LastEval sweptRun.1 dev l := by
    rintro dev l h7 ⟨u, v, ht, -⟩
    have := List.all_eq_true.1 hev ⟨.evalTrust dev, .ok l⟩ (ht ▸ List.mem_append_right _ (.head _))
    simp [h7] at this
  rcases h with ⟨dev, -, h7, hl, -⟩ | ⟨dev, l, -, h7, hl, -⟩ | ⟨⟨-, l, hl, hall⟩, -⟩
  · exact no dev _ h7 hl
  · exact no dev _ h7 hl
  · cases l with
    | nil =>
      have := List.all_eq_true.1 hns _ hl
      simp [JVal.ofStrs] at this
    | cons ns l =>
      rcases hall ns (.head _) with h | h <;> exact absurd (List.all_eq_true.1 hns _ h) (by simp)

/-! ### C120: withdrawn devices stay withdrawn -/

/-- C120 for other methods. -/
def C120 (K : Code) : Prop :=
  ∀ (M0 M : Mgr) (ns : Ns) (j : Jid) (L : DevList) (w0 w1 w2 w3 : World) (t0 t : List Ev) (cs : List (Mgr × Call)) (d : DevId)
    (jids : List Jid) (pt : Dict Ns Bytes) (prio : Option (List Ns)) (i : Option String) (r : Res Exn (Dict Message PlainKM × List EncError)),
    Typed w0.disk → Exec (K.run M0 (.updateDeviceList ns j L)) t0 (.ok ()) → Lib.Runs w0 t0 w1 → L.get d = none → ¬ (M0.ownJid = j ∧ M0.ownDev = d) →
    HistBy K w1 cs w2 → (∀ x ∈ cs, Withholding ns j d x) → (∀ e ∈ w2.log.drop w1.log.length, ¬ Relisted ns j d e) → CallbackQuiet M.decide →
    Exec (encrypt M jids pt prio i) t r → Lib.Runs w2 t w3 → BackendsOnce t → Guarded (fun h e => ∀ m, ¬ HandsOut h e ns j d m) t

theorem C120_real : C120 real := fun M0 M ns j L w0 w1 w2 w3 t0 t cs d jids pt prio i r ht he0 hr0 hd hown hcs =>
  Verif.C120 M0 M ns j L w0 w1 w2 w3 t0 t cs d jids pt prio i r ht he0 hr0 hd hown (hist_real hcs)

/-- While the devices are looked up, all their backends are stored as active. -/
def reviving : Inf := infoBy fun M => { rightInf M with repair := fun jid d namespaces _ => do
  call (.store (.devActive jid d) (.ofBools (namespaces.map fun ns => (ns, true))))
  pure (M.O.iter namespaces) }

def revivingCode : Code := .informing reviving

/-- As `mixed`, without sessions. -/
def strangers : Friendly := ⟨fun w o => match o with
  | .loadSession .. => .ok none
  | o => mixed w o, fun w o e h => by
    cases o <;> simp only at h <;> first | exact mixed_ok w _ e h | cases h⟩

def revived : World := (strangers.run (revivingCode.run Mgr.ex (.updateDeviceList "n" "a" [(6, none), (9, none)])) World.listed3).2.2
def revived' : World := (strangers.run (revivingCode.run Mgr.ex (.getDeviceInformation "a")) revived).2.2
def revivedRun := strangers.run (encrypt Mgr.ex ["a"] [("n", [1]), ("o", [1])] none none) revived'

/-- To ask for the devices brings back those that were withdrawn. -/
theorem C120_reviving : ¬ C120 revivingCode := by
  intro hc
  have h0 : (strangers.run (revivingCode.run Mgr.ex (.updateDeviceList "n" "a" [(6, none), (9, none)])) World.listed3).2.1 = .ok () := by decide +kernel
  have hset : revivedRun.1.all (fun e => match e.1 with | .setBackends _ => false | _ => true) = true := by decide +kernel
  have hb : revived'.backends = ["n", "o"] := by decide +kernel
  have hlog : ((revived'.log.drop revived.log.length).all fun e => match e with
    | ⟨.downloadList ns j, _⟩ => decide (ns ≠ "n" ∨ j ≠ "a") | _ => true) = true := by decide +kernel
  obtain ⟨u, ⟨o, x⟩, v, ht, hf⟩ := find (t := revivedRun.1) (f := fun e => match e.1 with
    | .buildActive ns j d _ _ => decide (ns = "n" ∧ j = "a" ∧ d = 7) | _ => false) (by decide +kernel)
  have h := hc Mgr.ex Mgr.ex "n" "a" [(6, none), (9, none)] World.listed3 revived revived' _ _ _ _ 7 ["a"] [("n", [1]), ("o", [1])] none none _ World.listed3_typed
    (h0 ▸ strangers.exec _ _) (strangers.runs _ _) (by decide) (fun h => absurd h.1 (by decide))
    (.cons (M := Mgr.ex) (c := .getDeviceInformation "a") (strangers.exec _ _) (strangers.runs _ _) (.nil _))
    (fun x hx => by cases List.mem_singleton.1 hx; exact ⟨fun h => absurd h.1 (by decide), trivial, fun _ _ => .ret ()⟩)
    (fun e he ⟨l, hl, _⟩ => by subst hl; have := List.all_eq_true.1 hlog _ he; simp at this)
    Mgr.ex_quiet (strangers.exec (encrypt Mgr.ex ["a"] [("n", [1]), ("o", [1])] none none) revived') (strangers.runs _ _)
    (fun bs hbs => by
      rw [lib_backends (strangers.runs _ _) (fun e he bs hbs => by have := List.all_eq_true.1 hset e he; rw [hbs] at this; cases this) bs hbs, hb]
      decide) u _ v ht
  dsimp only at hf
  split at hf
  · obtain ⟨rfl, rfl, rfl⟩ := of_decide_eq_true hf
    exact h _ (.inl ⟨_, rfl⟩)
  · cases hf

/-! ### C43: pre keys -/

/-- `decrypt` is `dec`. -/
def Code.decrypting (dec : Dec) : Code := { real with method := fun M c => match c with | .decrypt msg => do let _ ← dec M msg; pure () | c => c.run M }

/-- C43, the number of pre keys requested, for other methods. -/
def C43 (K : Code) : Prop :=
  ∀ (own : Jid) (x : XEdDSA) (s0 s : Use) (cs : List (Mgr × Call)), New s0 → LifeBy K own x s0 cs s → (∀ c ∈ cs, HandsOff c.1) →
    ∀ (ns : Ns) (n : Int) (r : Except Exn Unit), (⟨.generatePreKeys ns n, r⟩ : Ev) ∈ s.world.log → (⟨.generatePreKeys ns n, r⟩ : Ev) ∈ s0.world.log ∨ 1 ≤ n

theorem C43_real : C43 real := fun _ _ _ _ _ h0 h ho _ _ _ hm => C43_requested h0 (life_real h) ho hm

/-- Pre keys are generated without looking at the threshold (sm:2215 forgotten). -/
def refilling : Dec := decryptBy fun M => { rightly M with consume := fun ns session => do
  let sync : Bool ← call .getSync
  let changed ← discardPreKey ns sync session
  Prog.when (changed = true) do
    let n ← call (.numVisible ns)
    call (.generatePreKeys ns (100 - n))
    let bundle ← call (.getBundle ns M.ownJid M.ownDev)
    call (.uploadBundle bundle) }

def refillingCode : Code := .decrypting refilling

def refilled : World := (Friendly.chatty.run (refillingCode.run Mgr.ex (.decrypt (firstMessage "n" 7)))
  (Friendly.genuine.run (refillingCode.run Mgr.ex (.updateDeviceList "n" "a" [(7, none)])) World.started).2.2).2.2

theorem C43_refilling : ¬ C43 refillingCode := by
  intro hc
  obtain ⟨u, ⟨o, x⟩, v, ht, hf⟩ := find (t := refilled.log) (f := fun e => match e.1 with | .generatePreKeys _ n => decide (n = 0) | _ => false) (by decide +kernel)
  dsimp only at hf
  split at hf
  · have h0 := of_decide_eq_true hf
    subst h0
    have h := hc "me" Mgr.ex.x Use.fresh ⟨refilled, [Mgr.ex]⟩ _ fresh_new
      (begin rfl (next (M := Mgr.ex) (c := .updateDeviceList "n" "a" [(7, none)]) .genuine (by simp [Use.started]) nofun
        (next (M := Mgr.ex) (c := .decrypt (firstMessage "n" 7)) .chatty (by simp [Use.started]) nofun (.nil _))))
      (by rintro c hc d ds i; simp at hc; rcases hc with rfl | rfl | rfl <;> exact .ret ()) _ _ _ (ht ▸ List.mem_append_right _ (.head _))
    rcases h with h | h
    · cases h
    · exact absurd h (by decide)
  · cases hf

end Wrong
end Verif
