import Verif.Proofs.Sample
import Verif.Proofs.ExecLoops
import Verif.Proofs.PresLib
/-
C51, C52, C53: creation of a session manager.
-/
namespace Verif
open Spec Foot SM

/-! ### C52: invalid configuration -/

/-- A configuration `create` accepts: no namespace twice, refill threshold from 25 to 99. -/
structure Spec.ValidConfig (bs : List Ns) (threshold : Int) : Prop where
  once : bs.Nodup
  low : 25 ≤ threshold
  high : threshold ≤ 99

theorem dedup_sublist (bs : List Ns) : (dedup bs).Sublist bs := by
  induction bs with
  | nil => exact .slnil
  | cons x xs ih => exact (List.filter_sublist.trans ih).cons_cons x

theorem dedup_length {bs : List Ns} : (dedup bs).length = bs.length ↔ bs.Nodup :=
  ⟨fun h => (dedup_sublist bs).eq_of_length h ▸ nodup_dedup bs, fun h => by rw [dedup_eq_self h]⟩

/-- An invalid configuration is rejected with ValueError, without any interaction. -/
theorem C52_rejected (M : Mgr) (bs : List Ns) (label : Option String) (fuel : Nat) (hc : ¬ ValidConfig bs M.threshold) (t : List Ev)
    (r : Res Exn DevId) (h : Exec (create M bs label fuel) t r) : t = [] ∧ r = .raised .valueError := by
  unfold create at h
  split at h
  · exact exec_throw.1 h
  · rename_i hd
    split at h
    · exact exec_throw.1 h
    · rename_i ht
      simp only [ne_eq, Decidable.not_not, dedup_length] at hd ht
      exact absurd ⟨hd, ht.1, ht.2⟩ hc

/-- A valid configuration is not rejected: before the first interaction nothing can be raised, and the first interaction configures the
backends. -/
theorem C52_accepted (M : Mgr) (bs : List Ns) (label : Option String) (fuel : Nat) (hc : ValidConfig bs M.threshold) (t : List Ev)
    (r : Res Exn DevId) (h : Exec (create M bs label fuel) t r) :
    (t = [] ∧ r = .crashed) ∨ ∃ x v, t = ⟨.setBackends bs, x⟩ :: v := by
  unfold create at h
  rw [if_neg (by rw [ne_eq, Decidable.not_not]; exact dedup_length.2 hc.once), if_neg (by simpa using ⟨hc.low, hc.high⟩)] at h
  replace h := exec_call_bind.1 h
  rcases h with h | ⟨e, rfl, _⟩ | ⟨a, t', rfl, _⟩
  · exact .inl h
  · exact .inr ⟨_, _, rfl⟩
  · exact .inr ⟨_, _, rfl⟩

/-- Both happen: two backends with the same namespace, and the configuration of the example. -/
theorem C52_example : Exec (create Mgr.ex ["n", "o", "n"] none 5) [] (.raised .valueError) ∧ ¬ ValidConfig ["n", "o", "n"] Mgr.ex.threshold ∧
    ValidConfig ["n", "o"] Mgr.ex.threshold :=
  ⟨.raise _, fun h => by have := h.once; simp at this, by simp, by decide, by decide⟩

/-! ### C51: the device id -/

/-- `secrets.randbelow(n)` answers a number below `n`. -/
def Spec.RandBelow (e : Ev) : Prop := ∀ n k, e = ⟨.randBelow n, .ok k⟩ → k < n

/-- After `u`, the id `d` is in range, own device lists were downloaded for all loaded backends, and `d` is on none of the lists
downloaded. -/
structure Spec.FreshId (jid : Jid) (u : List Ev) (d : DevId) : Prop where
  low : 1 ≤ d
  high : d ≤ 2 ^ 31 - 1
  all : ∃ bs, (⟨.getBackends, .ok bs⟩ : Ev) ∈ u ∧ ∀ ns ∈ bs, ∃ dl, (⟨.downloadList ns jid, .ok dl⟩ : Ev) ∈ u
  fresh : ∀ ns j dl, (⟨.downloadList ns j, .ok dl⟩ : Ev) ∈ u → d ∉ Dict.keys dl

/-- The device id is stored only if it is fresh. -/
def Spec.FreshStored (jid : Jid) (u : List Ev) (e : Ev) : Prop := ∀ v, e.1 = .store .ownDeviceId v → ∃ d, v = .int d ∧ FreshId jid u d

/-- Storing the own device id. -/
def Spec.Op.storesDeviceId : Op → Bool
  | .store .ownDeviceId _ => true
  | _ => false

theorem fresh_other {jid : Jid} {o : Op} (h : Op.storesDeviceId o = false) (u : List Ev) (r : Except Exn o.Ret) :
    FreshStored jid u ⟨o, r⟩ := by
  rintro v rfl
  cases h

namespace SM
variable {φ : Ev → Prop} {M : Mgr}

theorem id_range {k : Nat} (h : k < 2147483646) : (1 : Int) ≤ (k : Int) + ((1 : Nat) : Int) ∧ (k : Int) + ((1 : Nat) : Int) ≤ 2147483647 := by
  omega

theorem drawn {taken : List DevId} {fuel : Nat} {t : List Ev} {d : DevId} (he : Exec (drawDeviceId taken fuel) t (.ok d))
    (hr : ∀ e ∈ t, RandBelow e) : (1 ≤ d ∧ d ≤ 2 ^ 31 - 1) ∧ d ∉ taken ∧ ∀ e ∈ t, ∃ n, e.1 = .randBelow n := by
  induction fuel generalizing t with
  | zero => exact nomatch (exec_throw.1 he).2
  | succ n ih =>
    unfold drawDeviceId at he
    replace he := exec_call_bind_ok.1 he
    obtain ⟨k, t', rfl, he⟩ := he
    dsimp only at he
    split at he
    · rename_i hk
      replace he := exec_pure.1 he
      obtain ⟨rfl, he⟩ := he
      cases he
      have := hr _ (List.mem_cons_self ..) _ _ rfl
      refine ⟨?_, hk, by simp⟩
      change (k : Nat) < 2147483646 at this
      exact id_range this
    · obtain ⟨h1, h2, h3⟩ := ih he fun e h => hr e (List.mem_cons_of_mem _ h)
      refine ⟨h1, h2, fun e h => ?_⟩
      rcases List.mem_cons.1 h with rfl | h
      · exact ⟨_, rfl⟩
      · exact h3 e h

theorem taken {jid : Jid} {bs : List Ns} {t : List Ev} {l : List DevId} (he : Exec (takenDeviceIds jid bs) t (.ok l)) :
    (∀ ns ∈ bs, ∃ dl, (⟨.downloadList ns jid, .ok dl⟩ : Ev) ∈ t) ∧
    (∀ ns j dl, (⟨.downloadList ns j, .ok dl⟩ : Ev) ∈ t → ∀ d ∈ Dict.keys dl, d ∈ l) := by
  unfold takenDeviceIds at he
  replace he := exec_seq_ok.1 he
  obtain ⟨t1, ls, t2, rfl, h1, h2⟩ := he
  replace h2 := exec_pure.1 h2
  obtain ⟨rfl, h2⟩ := h2
  cases h2
  simp only [mem_dedup, List.append_nil]
  induction bs generalizing t1 ls with
  | nil => replace h1 := exec_mapAll_nil.1 h1; obtain ⟨rfl, h1⟩ := h1; simp
  | cons ns bs ih =>
    replace h1 := exec_mapAll_cons_ok.1 h1
    obtain ⟨t3, y, t4, ys, rfl, rfl, h1, h2⟩ := h1
    obtain ⟨h3, h4⟩ := ih _ _ h2
    replace h1 := exec_call_bind_ok.1 h1
    obtain ⟨dl, t5, rfl, h1⟩ := h1
    replace h1 := exec_pure.1 h1
    obtain ⟨rfl, h1⟩ := h1
    cases h1
    refine ⟨fun n hn => ?_, fun n j dl' hm d hd => ?_⟩
    · rcases List.mem_cons.1 hn with rfl | hn
      · exact ⟨dl, by simp⟩
      · obtain ⟨x, hx⟩ := h3 n hn
        exact ⟨x, by simp [hx]⟩
    · simp only [List.cons_append, List.nil_append, List.mem_cons] at hm
      rw [List.flatten_cons, List.mem_append]
      rcases hm with hm | hm
      · cases hm; exact .inl hd
      · exact .inr (h4 n j dl' hm d hd)

theorem quiet_info {jid : Jid} {o : Op} (h : Info jid o) : Op.storesDeviceId o = false := by cases h <;> rfl
theorem quiet_update {ns : Ns} {jid : Jid} {o : Op} (h : Update M ns jid o) : Op.storesDeviceId o = false := by cases h <;> rfl
theorem quiet_refresh {ns : Ns} {jid : Jid} {o : Op} (h : Refresh M ns jid o) : Op.storesDeviceId o = false := by
  cases h
  · rfl
  · exact quiet_update ‹_›
theorem quiet_purge {ns : Ns} {o : Op} (h : PurgeBackend M ns o) : Op.storesDeviceId o = false := by
  cases h <;> first | rfl | exact quiet_info ‹_›

theorem fresh_quiet {jid : Jid} {α : Type} {p : P α} (h : AllOps (fun o => Op.storesDeviceId o = false) p) :
    Pres (Rec φ) (Guarded (FreshStored jid)) p := pres_quiet h fun _ ho u r => fresh_other ho u r

theorem fresh_keep {jid : Jid} {u : List Ev} {d : DevId} {e : Ev} (h : FreshId jid u d) (he : ∀ ns j, e.1 ≠ .downloadList ns j) :
    FreshId jid (u ++ [e]) d := by
  refine ⟨h.low, h.high, ?_, fun ns j dl hm => ?_⟩
  · obtain ⟨bs, h1, h2⟩ := h.all
    exact ⟨bs, by simp [h1], fun ns hns => (h2 ns hns).imp fun dl hdl => by simp [hdl]⟩
  · rw [List.mem_append, List.mem_singleton] at hm
    rcases hm with hm | rfl
    · exact h.fresh ns j dl hm
    · exact absurd rfl (he ns j)

theorem fresh_storeOwnDevice (label : Option String) (ik : Bytes) (bs : List Ns) :
    Pres (Rec φ) (fun h => Guarded (FreshStored M.ownJid) h ∧ FreshId M.ownJid h M.ownDev) (storeOwnDevice M label ik bs) := by
  have key : ∀ k v, (k = .ownDeviceId → v = .int M.ownDev) →
      Pres (Rec φ) (fun h => Guarded (FreshStored M.ownJid) h ∧ FreshId M.ownJid h M.ownDev) (call (.store k v)) := by
    intro k v hv
    refine Pres.perform fun w r _ hw => ⟨guarded_snoc.2 ⟨hw.1, fun v' hv' => ?_⟩, fresh_keep hw.2 (by simp)⟩
    cases hv'
    exact ⟨_, hv rfl, hw.2⟩
  unfold storeOwnDevice
  refine Pres.bind (key _ _ nofun) fun _ => Pres.bind (key _ _ nofun) fun _ => Pres.bind (key _ _ nofun) fun _ =>
    Pres.bind (key _ _ nofun) fun _ => Pres.bind (key _ _ nofun) fun _ => Pres.bind (key _ _ nofun) fun _ => key _ _ fun _ => rfl

theorem fresh_firstRun (label : Option String) (ik : Bytes) (fuel : Nat) (hφ : ∀ e, φ e → RandBelow e) (h : List Ev)
    (hh : Guarded (FreshStored M.ownJid) h) (hq : ∀ e ∈ h, ∀ ns j, e.1 ≠ .downloadList ns j) :
    wp (Rec φ) (firstRun M label ik fuel) (fun _ => Guarded (FreshStored M.ownJid)) h := by
  unfold firstRun
  rw [wp_bind, wp_perform]
  refine ⟨hh, fun bs _ => ?_, fun e _ => guarded_snoc.2 ⟨hh, fresh_other rfl _ _⟩⟩
  simp only [andThen, Rec.next_eq]
  have h1 : Guarded (FreshStored M.ownJid) (h ++ [⟨.getBackends, .ok bs⟩]) := guarded_snoc.2 ⟨hh, fresh_other rfl _ _⟩
  rw [wp_bind]
  refine wp_mono (wp_and (fresh_quiet (p := takenDeviceIds M.ownJid bs) (by unfold takenDeviceIds; lib_ops []) _ h1) Rec.exec) ?_
  rintro r _ ⟨h2, t2, rfl, h3, h4⟩
  cases r with
  | raised e => exact h2
  | crashed => exact h2
  | ok l =>
    obtain ⟨h5, h6⟩ := taken h3
    simp only [andThen]
    rw [wp_bind]
    have hops : ∀ fuel, AllOps (fun o => Op.storesDeviceId o = false) (drawDeviceId l fuel) := by
      intro fuel
      induction fuel with
      | zero => trivial
      | succ n ih => unfold drawDeviceId; lib_ops []
    refine wp_mono (wp_and (fresh_quiet (hops fuel) _ h2) Rec.exec) ?_
    rintro r _ ⟨h7, t3, rfl, h8, h9⟩
    cases r with
    | raised e => exact h7
    | crashed => exact h7
    | ok d =>
      obtain ⟨⟨h10, h11⟩, h12, h13⟩ := drawn h8 fun e he => hφ e (h9 e he)
      have hf : FreshId M.ownJid (h ++ [⟨.getBackends, .ok bs⟩] ++ t2 ++ t3) d := by
        refine ⟨h10, h11, ⟨bs, by simp, fun ns hns => ?_⟩, fun ns j dl hm => ?_⟩
        · obtain ⟨dl, hdl⟩ := h5 ns hns
          exact ⟨dl, by simp [hdl]⟩
        · simp only [List.mem_append, List.mem_singleton] at hm
          rcases hm with ((hm | hm) | hm) | hm
          · exact absurd rfl (hq _ hm ns j)
          · cases hm
          · exact fun hd => h12 (h6 ns j dl hm d hd)
          · obtain ⟨n, hn⟩ := h13 _ hm
            cases hn
      simp only [andThen]
      have hrest : ∀ x : Unit, Pres (Rec φ) (Guarded (FreshStored M.ownJid)) (do
          Prog.forEach (← call .getBackends) fun ns => call (.generatePreKeys ns 100)
          Prog.forEach (← call .getBackends) fun ns => do
            let bundle ← call (.getBundle ns M.ownJid d)
            call (.uploadBundle bundle)
          Prog.forEach (← call .getBackends) fun ns => refreshDeviceList { M with ownDev := d } ns M.ownJid
          pure d : P DevId) := by
        intro _
        have h2 : ∀ ns, AllOps (fun o => Op.storesDeviceId o = false) (refreshDeviceList { M with ownDev := d } ns M.ownJid) := fun ns =>
          (ops_refreshDeviceList _ _ _).mono fun _ h => quiet_refresh h
        refine fresh_quiet ?_
        lib_ops []
        exact h2 _
      rw [wp_bind, wp_perform]
      refine ⟨h7, fun bs' _ => ?_, fun e _ => guarded_snoc.2 ⟨h7, fresh_other rfl _ _⟩⟩
      simp only [andThen, Rec.next_eq]
      rw [wp_bind]
      refine wp_mono (fresh_storeOwnDevice (M := { M with ownDev := d }) label ik bs' _
        ⟨guarded_snoc.2 ⟨h7, fresh_other rfl _ _⟩, fresh_keep hf (by simp)⟩) ?_
      rintro r h' ⟨h14, h15⟩
      cases r with
      | raised e => exact h14
      | crashed => exact h14
      | ok x => exact hrest x h' h14

/-- Everything `create` does before the first run. -/
theorem ops_ikp_quiet : AllOps (fun o : Op => Op.storesDeviceId o = false ∧ ∀ ns j, o ≠ .downloadList ns j) IdentityKeyPair.get :=
  ops_ikp.mono fun _ h => by cases h <;> exact ⟨rfl, nofun⟩

end SM

/-- C51: when `create` stores a device id as the own one, it is a number from 1 to 2^31-1, the own device lists of all loaded backends were
downloaded before, and it is on none of these lists.  All answers of servers and random numbers, all failures and crash points. -/
theorem C51_fresh (M : Mgr) (bs : List Ns) (label : Option String) (fuel : Nat) (t : List Ev) (r : Res Exn DevId)
    (h : Exec (create M bs label fuel) t r) (hr : ∀ e ∈ t, RandBelow e) : Guarded (FreshStored M.ownJid) t := by
  refine Rec.sound (φ := RandBelow) (h := []) (Q := fun _ => Guarded (FreshStored M.ownJid)) ?_ h hr
  unfold create
  split
  · exact guarded_nil
  split
  · exact guarded_nil
  have quiet : ∀ {α : Type} {p : P α} (_ : AllOps (fun o : Op => Op.storesDeviceId o = false ∧ ∀ ns j, o ≠ .downloadList ns j) p),
      Pres (Rec RandBelow) (fun h => Guarded (FreshStored M.ownJid) h ∧ ∀ e ∈ h, ∀ ns j, e.1 ≠ .downloadList ns j) p := by
    intro α p hp
    refine Pres.ofOps hp fun o ho w r _ hw => ⟨guarded_snoc.2 ⟨hw.1, fresh_other ho.1 _ _⟩, fun e he ns j => ?_⟩
    rw [Rec.next_eq, List.mem_append, List.mem_singleton] at he
    rcases he with he | rfl
    · exact hw.2 e he ns j
    · exact ho.2 ns j
  have step : ∀ {α β : Type} {p : P α} {f : α → P β} {h : List Ev}
      (_ : AllOps (fun o : Op => Op.storesDeviceId o = false ∧ ∀ ns j, o ≠ .downloadList ns j) p)
      (_ : Guarded (FreshStored M.ownJid) h ∧ ∀ e ∈ h, ∀ ns j, e.1 ≠ .downloadList ns j)
      (_ : ∀ a h', Guarded (FreshStored M.ownJid) h' ∧ (∀ e ∈ h', ∀ ns j, e.1 ≠ .downloadList ns j) →
        wp (Rec RandBelow) (f a) (fun _ => Guarded (FreshStored M.ownJid)) h'),
      wp (Rec RandBelow) (p >>= f) (fun _ => Guarded (FreshStored M.ownJid)) h := by
    intro α β p f h hp hh hf
    rw [wp_bind]
    refine wp_mono (quiet hp h hh) fun r h' hr => ?_
    cases r with
    | ok a => exact hf a h' hr
    | raised e => exact hr.1
    | crashed => exact hr.1
  refine step (.perform ⟨rfl, nofun⟩) ⟨guarded_nil, by simp⟩ fun _ h1 hh1 => step ops_ikp_quiet hh1 fun ikp h2 hh2 =>
    step (.perform ⟨rfl, nofun⟩) hh2 fun _ h3 hh3 => ?_
  rw [wp_bind]
  refine wp_mono (Q := fun _ => Guarded (FreshStored M.ownJid)) ?_ ?_
  · unfold onNothing
    rw [wp_tryCatch]
    refine wp_mono (quiet (.bind (allOps_loadInt ⟨rfl, nofun⟩) fun _ => allOps_fromJust _) h3 hh3) fun r h' hr => ?_
    cases r with
    | ok a => exact hr.1
    | crashed => exact hr.1
    | raised e =>
      simp only [handled]
      split
      · exact fresh_firstRun label _ fuel (fun _ h => h) h' hr.1 hr.2
      · exact hr.1
  · intro r h' hr
    cases r with
    | raised e => exact hr
    | crashed => exact hr
    | ok d =>
      simp only [andThen]
      refine (Pres.bind (fresh_quiet ?_) fun _ => Pres.pure _) h' hr
      have h1 : AllOps (fun o => Op.storesDeviceId o = false) (getOwnDeviceInformation { M with ownDev := d }) :=
        (ops_getOwnDeviceInformation _).mono fun _ h => quiet_info h
      have h2 : ∀ ns, AllOps (fun o => Op.storesDeviceId o = false) (refreshDeviceList { M with ownDev := d } ns M.ownJid) := fun ns =>
        (ops_refreshDeviceList _ _ _).mono fun _ h => quiet_refresh h
      have h3 : ∀ ns, AllOps (fun o => Op.storesDeviceId o = false) (purgeBackend { M with ownDev := d } ns) := fun ns =>
        (ops_purgeBackend _ _).mono fun _ h => quiet_purge h
      unfold handleChangedBackends refillPreKeys
      lib_ops []
      all_goals first | exact h2 _ | exact h3 _

/-- In the first `create` the device id 1 is stored. -/
theorem C51_example : (∀ e ∈ firstCreate.1, RandBelow e) ∧ firstCreate.1.any (fun e => Op.storesDeviceId e.1) = true := by
  refine ⟨?_, by decide +kernel⟩
  have h : firstCreate.1.all (fun e => match e with | ⟨.randBelow n, .ok k⟩ => decide (k < n) | _ => true) = true := by decide +kernel
  rintro e he n k rfl
  have := List.all_eq_true.1 h _ he
  simpa using this

/-! ### C53: bundles before device lists -/

/-- The bundle of device `d` for `ns` was fetched from the backend and uploaded successfully. -/
def Spec.BundleUp (jid : Jid) (u : List Ev) (ns : Ns) (d : DevId) : Prop :=
  ∃ b, (⟨.getBundle ns jid d, .ok b⟩ : Ev) ∈ u ∧ (⟨.uploadBundle b, .ok ()⟩ : Ev) ∈ u

/-- A device on an uploaded list was on a list downloaded for the same namespace before, or its bundle for this namespace was uploaded. -/
def Spec.Announced (jid : Jid) (u : List Ev) (e : Ev) : Prop :=
  ∀ ns l, e.1 = .uploadList ns l → ∀ d ∈ Dict.keys l,
    (∃ dl, (⟨.downloadList ns jid, .ok dl⟩ : Ev) ∈ u ∧ d ∈ Dict.keys dl) ∨ BundleUp jid u ns d

/-- Uploading a device list. -/
def Spec.Op.uploadsList : Op → Bool
  | .uploadList .. => true
  | _ => false

/-- `create` reads the loaded backends `bs`. -/
def Spec.Loads (bs : List Ns) (e : Ev) : Prop := ∀ bs', e = ⟨.getBackends, .ok bs'⟩ → bs' = bs

theorem Spec.BundleUp.mono {jid : Jid} {u u' : List Ev} {ns : Ns} {d : DevId} (h : BundleUp jid u ns d) (hu : ∀ e ∈ u, e ∈ u') :
    BundleUp jid u' ns d := h.imp fun _ hb => ⟨hu _ hb.1, hu _ hb.2⟩

theorem announced_other {jid : Jid} {o : Op} (h : Op.uploadsList o = false) (u : List Ev) (r : Except Exn o.Ret) :
    Announced jid u ⟨o, r⟩ := by
  rintro ns l rfl
  cases h

/-- What stays true once it is. -/
def Spec.Stable (K : List Ev → Prop) : Prop := ∀ h e, K h → K (h ++ [e])

namespace SM
variable {φ : Ev → Prop} {M : Mgr} {K : List Ev → Prop}

theorem ann_quiet (hK : Stable K) {jid : Jid} {α : Type} {p : P α} (h : AllOps (fun o => Op.uploadsList o = false) p) :
    Pres (Rec φ) (fun h => Guarded (Announced jid) h ∧ K h) p :=
  Pres.ofOps h fun _ ho w r _ hw => ⟨guarded_snoc.2 ⟨hw.1, announced_other ho w r⟩, hK _ _ hw.2⟩

theorem ann_call (hK : Stable K) {jid : Jid} {o : Op} (h : Op.uploadsList o = false) :
    Pres (Rec φ) (fun h => Guarded (Announced jid) h ∧ K h) (call o) := ann_quiet hK (.perform h)

theorem stable_mem (e : Ev) : Stable (fun h => e ∈ h) := fun h x he => by simp [he]
theorem stable_up (jid : Jid) (ns : Ns) (d : DevId) : Stable (fun h => BundleUp jid h ns d) := fun _ _ hb => hb.mono fun e he => by simp [he]
theorem stable_and {K' : List Ev → Prop} (h : Stable K) (h' : Stable K') : Stable (fun h => K h ∧ K' h) :=
  fun x e hx => ⟨h x e hx.1, h' x e hx.2⟩
theorem stable_true : Stable (fun _ => True) := fun _ _ h => h
theorem stable_all {β : Type} {A : β → Prop} {K : β → List Ev → Prop} (h : ∀ b, Stable (K b)) : Stable (fun x => ∀ b, A b → K b x) :=
  fun x e hx b hb => h b x e (hx b hb)

/-- Processing a downloaded own device list when the bundle was uploaded. -/
theorem ann_update (ns : Ns) (dl : DevList) (hK : Stable K) (hb : ∀ h, K h → BundleUp M.ownJid h ns M.ownDev)
    (hd : ∀ h, K h → (⟨.downloadList ns M.ownJid, .ok dl⟩ : Ev) ∈ h) :
    Pres (Rec φ) (fun h => Guarded (Announced M.ownJid) h ∧ K h) (updateDeviceList M ns M.ownJid dl) := by
  unfold updateDeviceList
  refine Pres.bind (ann_call hK rfl) fun bs => ?_
  split
  · exact Pres.raise _
  refine Pres.bind (ann_quiet hK (allOps_loadInts rfl)) fun old => Pres.bind ?_ fun dl' => ?_
  · unfold ensureOwnListed
    rw [if_pos rfl]
    refine Pres.bind (ann_call hK rfl) fun bs' => ?_
    split
    · refine Pres.bind (ann_quiet hK (allOps_loadOptStr rfl)) fun l => Pres.bind (ann_quiet hK (allOps_fromJust _)) fun label =>
        Pres.bind (Pres.perform fun w r _ hw => ⟨guarded_snoc.2 ⟨hw.1, ?_⟩, hK _ _ hw.2⟩) fun _ => Pres.pure _
      rintro ns' l' heq d hdm
      cases heq
      rw [Dict.mem_keys, Dict.get_set] at hdm
      split at hdm
      · rename_i h
        subst h
        exact .inr (hb _ hw.2)
      · exact .inl ⟨dl, hd _ hw.2, Dict.mem_keys.2 hdm⟩
    · exact Pres.pure _
  · refine ann_quiet hK ?_
    unfold addNewDevice updateKnownDevice updateListed updateUnlisted
    lib_ops []

theorem ann_refresh (ns : Ns) (hK : Stable K) (hb : ∀ h, K h → BundleUp M.ownJid h ns M.ownDev) :
    Pres (Rec φ) (fun h => Guarded (Announced M.ownJid) h ∧ K h) (refreshDeviceList M ns M.ownJid) := by
  unfold refreshDeviceList
  intro h hh
  rw [wp_bind, wp_perform]
  refine ⟨hh, fun dl _ => ?_, fun e _ => ⟨guarded_snoc.2 ⟨hh.1, announced_other rfl _ _⟩, hK _ _ hh.2⟩⟩
  have := ann_update (φ := φ) (M := M) (K := fun h => K h ∧ (⟨.downloadList ns M.ownJid, .ok dl⟩ : Ev) ∈ h) ns dl (stable_and hK (stable_mem _))
    (fun h hk => hb h hk.1) (fun h hk => hk.2) (h ++ [⟨.downloadList ns M.ownJid, .ok dl⟩])
    ⟨guarded_snoc.2 ⟨hh.1, announced_other (o := .downloadList ns M.ownJid) rfl _ _⟩, hK _ _ hh.2, by simp⟩
  exact wp_mono this fun _ _ h => ⟨h.1, h.2.1⟩

theorem ann_purge (ns : Ns) (hK : Stable K) : Pres (Rec φ) (fun h => Guarded (Announced M.ownJid) h ∧ K h) (purgeBackend M ns) := by
  unfold purgeBackend
  intro h hh
  rw [wp_bind, wp_perform]
  refine ⟨hh, fun dl _ => ?_, fun e _ => ⟨guarded_snoc.2 ⟨hh.1, announced_other rfl _ _⟩, hK _ _ hh.2⟩⟩
  have hK' : Stable (fun h => K h ∧ (⟨.downloadList ns M.ownJid, .ok dl⟩ : Ev) ∈ h) := stable_and hK (stable_mem _)
  simp only [andThen]
  refine wp_mono ((Pres.bind (I := fun h => Guarded (Announced M.ownJid) h ∧ K h ∧ (⟨.downloadList ns M.ownJid, .ok dl⟩ : Ev) ∈ h)
    (Pres.when fun _ => Pres.perform fun w r _ hw => ⟨guarded_snoc.2 ⟨hw.1, ?_⟩, hK' _ _ hw.2⟩) fun _ => ?_) _
    ⟨guarded_snoc.2 ⟨hh.1, announced_other rfl _ _⟩, hK _ _ hh.2, by simp [Rec]⟩) fun _ _ h => ⟨h.1, h.2.1⟩
  rotate_left
  · rintro ns' l' heq d hdm
    cases heq
    rw [Dict.mem_keys, Dict.get_erase] at hdm
    split at hdm
    · cases hdm
    · exact .inl ⟨dl, hw.2.2, Dict.mem_keys.2 hdm⟩
  · refine ann_quiet hK' ?_
    have : AllOps (fun o => Op.uploadsList o = false) (getOwnDeviceInformation M) :=
      (ops_getOwnDeviceInformation M).mono fun _ h => by cases h <;> rfl
    lib_ops []

/-- Uploading the bundle for `ns`. -/
theorem ann_bundle (ns : Ns) (hK : Stable K) (h : List Ev) (hh : Guarded (Announced M.ownJid) h ∧ K h) :
    wp (Rec φ) (do let bundle ← call (.getBundle ns M.ownJid M.ownDev); call (.uploadBundle bundle) : P Unit)
      (ends (fun _ h => Guarded (Announced M.ownJid) h ∧ K h ∧ BundleUp M.ownJid h ns M.ownDev) fun _ h => Guarded (Announced M.ownJid) h) h := by
  rw [ends_bind]
  refine Rec.call hh.1 (fun b _ => Rec.call ?_ (fun x _ => ⟨?_, ?_, b, by simp, by simp⟩) fun e _ => ?_) fun e _ => ?_
  · exact guarded_snoc.2 ⟨hh.1, announced_other rfl _ _⟩
  · exact guarded_snoc.2 ⟨guarded_snoc.2 ⟨hh.1, announced_other rfl _ _⟩, announced_other rfl _ _⟩
  · exact hK _ _ (hK _ _ hh.2)
  · exact guarded_snoc.2 ⟨guarded_snoc.2 ⟨hh.1, announced_other rfl _ _⟩, announced_other rfl _ _⟩
  · exact guarded_snoc.2 ⟨hh.1, announced_other rfl _ _⟩

theorem ends_pres {α : Type} {p : P α} {I : List Ev → Prop} {X : Option Exn → List Ev → Prop} {h : List Ev} (hp : Pres (Rec φ) I p) (hh : I h)
    (hx : ∀ h x, I h → X x h) : wp (Rec φ) p (ends (fun _ => I) X) h :=
  wp_mono (hp h hh) fun r h' hi => by
    cases r with
    | ok a => exact hi
    | raised e => exact hx _ _ hi
    | crashed => exact hx _ _ hi

theorem ann_firstRun (label : Option String) (ik : Bytes) (fuel : Nat) (bs : List Ns) (hφ : ∀ e, φ e → Loads bs e) :
    Pres (Rec φ) (Guarded (Announced M.ownJid)) (firstRun M label ik fuel) := by
  intro h hh
  have fin : ∀ {p : P DevId} {h : List Ev}, wp (Rec φ) p (ends (fun _ => Guarded (Announced M.ownJid)) fun _ => Guarded (Announced M.ownJid)) h →
      wp (Rec φ) p (fun _ => Guarded (Announced M.ownJid)) h := fun hp => wp_mono hp fun r _ hr => by cases r <;> exact hr
  have quiet : ∀ {α : Type} {p : P α} {h : List Ev}, AllOps (fun o => Op.uploadsList o = false) p → Guarded (Announced M.ownJid) h →
      wp (Rec φ) p (ends (fun _ h => Guarded (Announced M.ownJid) h) fun _ h => Guarded (Announced M.ownJid) h) h := fun hp hh =>
    ends_mono (ends_pres (ann_quiet stable_true hp) ⟨hh, trivial⟩ (X := fun _ h => Guarded (Announced M.ownJid) h) fun _ _ h => h.1)
      (fun _ _ h => h.1) fun _ _ h => h
  unfold firstRun
  refine fin ?_
  rw [ends_bind]
  refine ends_mono (quiet (.perform rfl) hh) (fun _ _ hh => ?_) fun _ _ h => h
  rw [ends_bind]
  refine ends_mono (quiet (by unfold takenDeviceIds; lib_ops []) hh) (fun l _ hh => ?_) fun _ _ h => h
  rw [ends_bind]
  have hops : ∀ fuel, AllOps (fun o => Op.uploadsList o = false) (drawDeviceId l fuel) := by
    intro fuel
    induction fuel with
    | zero => trivial
    | succ n ih => unfold drawDeviceId; lib_ops []
  refine ends_mono (quiet (hops _) hh) (fun d _ hh => ?_) fun _ _ h => h
  dsimp only
  rw [ends_bind]
  refine ends_mono (quiet (.perform rfl) hh) (fun _ _ hh => ?_) fun _ _ h => h
  rw [ends_bind]
  refine ends_mono (quiet (by unfold storeOwnDevice; lib_ops []) hh) (fun _ _ hh => ?_) fun _ _ h => h
  rw [ends_bind]
  refine ends_mono (quiet (.perform rfl) hh) (fun _ _ hh => ?_) fun _ _ h => h
  rw [ends_bind]
  refine ends_mono (quiet (by lib_ops []) hh) (fun _ _ hh => ?_) fun _ _ h => h
  rw [ends_bind]
  refine Rec.call hh (fun bs1 h1 => ?_) fun _ _ => guarded_snoc.2 ⟨hh, announced_other rfl _ _⟩
  obtain rfl := hφ _ h1 _ rfl
  rw [ends_bind]
  refine ends_forEach (fun done _ h => Guarded (Announced M.ownJid) h ∧ ∀ ns, ns ∈ done → BundleUp M.ownJid h ns d)
    ⟨guarded_snoc.2 ⟨hh, announced_other rfl _ _⟩, by simp⟩ (fun done ns rest h _ hi => ?_) fun h hi => ?_
  · refine ends_mono (ann_bundle (M := { M with ownDev := d }) (K := fun h => ∀ ns, ns ∈ done → BundleUp M.ownJid h ns d) ns
      (stable_all fun ns => stable_up _ _ _) h hi) (fun _ h' hi' => ⟨hi'.1, fun ns' hns => ?_⟩) fun _ _ h => h
    rw [List.mem_append, List.mem_singleton] at hns
    rcases hns with hns | rfl
    · exact hi'.2.1 _ hns
    · exact hi'.2.2
  · rw [ends_bind]
    refine Rec.call hi.1 (fun bs2 h2 => ?_) fun _ _ => guarded_snoc.2 ⟨hi.1, announced_other rfl _ _⟩
    obtain rfl := hφ _ h2 _ rfl
    have hK : Stable (fun h => ∀ ns, ns ∈ bs2 → BundleUp M.ownJid h ns d) := stable_all fun ns => stable_up _ _ _
    rw [ends_bind]
    refine ends_mono (ends_pres (I := fun h => Guarded (Announced M.ownJid) h ∧ ∀ ns, ns ∈ bs2 → BundleUp M.ownJid h ns d)
      (X := fun _ h => Guarded (Announced M.ownJid) h) (Pres.forEach fun ns hns => ?_)
      ⟨guarded_snoc.2 ⟨hi.1, announced_other rfl _ _⟩, hK _ _ hi.2⟩ fun _ _ h => h.1) (fun _ _ h => h.1) fun _ _ h => h
    exact ann_refresh (M := { M with ownDev := d }) ns hK fun h hk => hk ns hns

theorem prog_bind_assoc {α β γ : Type} (p : P α) (f : α → P β) (g : β → P γ) : (p >>= f) >>= g = p >>= fun a => f a >>= g := by
  induction p with
  | ret a => rfl
  | raise e => rfl
  | op o k ih => exact congrArg (Prog.op o) (funext ih)

theorem ann_changed : Pres (Rec φ) (Guarded (Announced M.ownJid)) (handleChangedBackends M) := by
  have quiet : ∀ {α : Type} {p : P α}, AllOps (fun o => Op.uploadsList o = false) p → Pres (Rec φ) (Guarded (Announced M.ownJid)) p :=
    fun hp => pres_quiet hp fun _ ho u r => announced_other ho u r
  unfold handleChangedBackends
  refine Pres.bind (quiet ((ops_getOwnDeviceInformation M).mono fun _ h => by cases h <;> rfl)) fun x => ?_
  obtain ⟨device, others⟩ := x
  refine Pres.bind (quiet (.perform rfl)) fun bs => Pres.when fun _ => Pres.bind (quiet (.perform rfl)) fun _ =>
    Pres.bind (quiet (.perform rfl)) fun _ => Pres.bind (quiet (.perform rfl)) fun bs' => Pres.bind (Pres.forEach fun ns _ => ?_) fun _ =>
    Pres.forEach fun ns _ => ?_
  · refine Pres.when fun _ => Pres.bind (quiet (by unfold refillPreKeys; lib_ops [])) fun _ h hh => ?_
    have fin : ∀ {p : P Unit} {h : List Ev}, wp (Rec φ) p (ends (fun _ => Guarded (Announced M.ownJid)) fun _ => Guarded (Announced M.ownJid)) h →
        wp (Rec φ) p (fun _ => Guarded (Announced M.ownJid)) h := fun hp => wp_mono hp fun r _ hr => by cases r <;> exact hr
    have assoc : (do
        let bundle ← call (.getBundle ns M.ownJid M.ownDev)
        call (.uploadBundle bundle)
        refreshDeviceList M ns M.ownJid : P Unit) = (do let bundle ← call (.getBundle ns M.ownJid M.ownDev); call (.uploadBundle bundle) : P Unit) >>=
          fun _ => refreshDeviceList M ns M.ownJid := by exact (prog_bind_assoc _ _ _).symm
    rw [assoc]
    refine fin ?_
    rw [ends_bind]
    refine ends_mono (ann_bundle ns stable_true h ⟨hh, trivial⟩) (fun _ h' hi => ?_) fun _ _ h => h
    exact ends_mono (ends_pres (X := fun _ h => Guarded (Announced M.ownJid) h) (ann_refresh ns (stable_up _ _ _) fun _ h => h) ⟨hi.1, hi.2.2⟩
      fun _ _ h => h.1) (fun _ _ h => h.1) fun _ _ h => h
  · intro h hh
    exact wp_mono (ann_purge ns stable_true h ⟨hh, trivial⟩) fun _ _ h => h.1

end SM

/-- C53: at every point of `create`, however it ends, every device on a device list that is uploaded was on the list downloaded for this
namespace, or its bundle for this namespace was uploaded successfully before.  The loaded backends are assumed not to be changed by
somebody else meanwhile. -/
theorem C53_bundles_first (M : Mgr) (bs : List Ns) (label : Option String) (fuel : Nat) (t : List Ev) (r : Res Exn DevId)
    (h : Exec (create M bs label fuel) t r) (hb : BackendsStay t) : Guarded (Announced M.ownJid) t := by
  have ⟨bs0, hbs0⟩ : ∃ bs0, ∀ e ∈ t, Loads bs0 e := by
    by_cases hx : ∃ bs0, (⟨.getBackends, .ok bs0⟩ : Ev) ∈ t
    · obtain ⟨bs0, hx⟩ := hx
      exact ⟨bs0, fun e he bs' heq => hb _ _ (heq ▸ he) hx⟩
    · exact ⟨[], fun e he bs' heq => absurd ⟨bs', heq ▸ he⟩ hx⟩
  have hp : Pres (Rec (Loads bs0)) (Guarded (Announced M.ownJid)) (create M bs label fuel) := by
    have quiet : ∀ {α : Type} {p : P α}, AllOps (fun o => Op.uploadsList o = false) p →
        Pres (Rec (Loads bs0)) (Guarded (Announced M.ownJid)) p := fun hp => pres_quiet hp fun _ ho u r => announced_other ho u r
    unfold create
    split
    · exact Pres.raise _
    split
    · exact Pres.raise _
    refine Pres.bind (quiet (.perform rfl)) fun _ => Pres.bind (quiet (ops_ikp.mono fun _ h => by cases h <;> rfl)) fun ikp =>
      Pres.bind (quiet (.perform rfl)) fun _ => Pres.bind ?_ fun d => Pres.bind (ann_changed (M := { M with ownDev := d })) fun _ => Pres.pure _
    unfold onNothing
    refine Pres.tryCatch (quiet (.bind (allOps_loadInt rfl) fun _ => allOps_fromJust _)) fun e => ?_
    split
    · exact ann_firstRun label _ fuel bs0 fun _ h => h
    · exact Pres.raise _
  have := Rec.sound (hp [] guarded_nil) h hbs0
  simpa using this

/-- In the first `create` device lists with the new device are uploaded, and the backends stay the same. -/
theorem C53_example : BackendsStay firstCreate.1 ∧
    firstCreate.1.any (fun e => match e.1 with | .uploadList ns l => decide (ns = "o" ∧ (1 : Int) ∈ Dict.keys l) | _ => false) = true := by
  refine ⟨?_, by decide +kernel⟩
  have h : firstCreate.1.all (fun e => match e with | ⟨.getBackends, .ok bs⟩ => decide (bs = ["n", "o"]) | _ => true) = true := by decide +kernel
  intro bs bs' h1 h2
  have a := List.all_eq_true.1 h _ h1
  have b := List.all_eq_true.1 h _ h2
  simp only [decide_eq_true_eq] at a b
  rw [a, b]

end Verif
