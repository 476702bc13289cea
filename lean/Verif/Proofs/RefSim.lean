import Verif.Model.Memory
/-
The methods on objects (Model/Refs.lean) do what the methods on values (Model/SessionManager.lean) do.
-/
namespace Verif.Refs

theorem prog_assoc {S : Sig} {E α β γ : Type} (p : Prog S E α) (f : α → Prog S E β) (g : β → Prog S E γ) :
    (p >>= f) >>= g = p >>= fun x => f x >>= g := by
  show Prog.bind (Prog.bind p f) g = Prog.bind p fun x => Prog.bind (f x) g
  induction p with
  | ret a => rfl
  | raise e => rfl
  | op o k ih =>
    simp only [Prog.bind]
    congr 1
    funext r
    exact ih r

namespace Sim
variable {b : Bool} {α β : Type} {I : Mem → Prop}

theorem lift_keep {q : P α} (hs : Stable I) : Sim b I (Refs.lift q) q (fun _ _ => I) := (Sim.lift hs).post fun _ _ _ h => h.2

theorem lift_eq {q : P α} : Sim b I (Refs.lift q) q (fun x y _ => x = y) :=
  ((Sim.lift (I := fun _ => True) true_stable).pre fun _ _ => trivial).post fun _ _ _ h => h.1

theorem when_bind {γ δ : Type} {c : Prop} [Decidable c] {p : RP Unit} {q : P Unit} {f : Unit → RP γ} {g : Unit → P δ}
    {R : γ → δ → Mem → Prop} (h : c → Sim b I p q fun _ _ => I) (hf : Sim b I (f ()) (g ()) R) :
    Sim b I (Prog.when c p >>= f) (Prog.when c q >>= g) R := Sim.bind (Sim.when h) fun _ _ => hf

end Sim

section
variable {b : Bool} (M : Mgr) (ns : Ns) (jid : Jid) (c : Ref) (dl : DevList) (d : DevId)

theorem sim_addNewDevice : Sim b (Holds c (.devs dl)) (Refs.addNewDevice ns jid c d) (SM.addNewDevice ns jid dl d)
    fun _ _ => Holds c (.devs dl) := by
  unfold Refs.addNewDevice SM.addNewDevice
  refine Sim.lift_bind (holds_stable _ _) fun _ => Sim.devs_bind (fun w h => h.1) ?_
  cases dl.get d with
  | none => exact Sim.raise
  | some label =>
    exact Sim.lift_bind (holds_stable _ _) fun _ => Sim.lift_keep (holds_stable _ _)

theorem sim_updateListed (newLabel : Option String) (h : dl.get d = some newLabel) (namespaces : List Ns) (active : Dict Ns Bool) :
    Sim b (Holds c (.devs dl)) (Refs.updateListed M ns jid c d namespaces active)
      (SM.updateListed M ns jid d newLabel namespaces active) fun _ _ => Holds c (.devs dl) := by
  unfold Refs.updateListed SM.updateListed
  refine Sim.when_bind (fun _ => Sim.lift_keep (holds_stable _ _)) ?_
  refine Sim.lift_bind (holds_stable _ _) fun _ => Sim.lift_bind (holds_stable _ _) fun _ => Sim.devs_bind (fun w h => h.1) ?_
  rw [h]
  exact Sim.when_bind (fun _ => Sim.lift_keep (holds_stable _ _)) (Sim.when fun _ => Sim.lift_keep (holds_stable _ _))

theorem sim_updateKnownDevice : Sim b (Holds c (.devs dl)) (Refs.updateKnownDevice M ns jid c d)
    (SM.updateKnownDevice M ns jid dl d) fun _ _ => Holds c (.devs dl) := by
  unfold Refs.updateKnownDevice SM.updateKnownDevice
  refine Sim.lift_bind (holds_stable _ _) fun _ => Sim.lift_bind (holds_stable _ _) fun _ => ?_
  refine Sim.lift_bind (holds_stable _ _) fun _ => Sim.lift_bind (holds_stable _ _) fun _ => Sim.devs_bind (fun w h => h.1) ?_
  cases h : dl.get d with
  | none => exact Sim.lift_keep (holds_stable _ _)
  | some newLabel => exact sim_updateListed M ns jid c dl d newLabel h _ _

theorem sim_ensureOwnListed : Sim true (Holds c (.devs dl)) (Refs.ensureOwnListed M ns jid c dl.keys)
    (SM.ensureOwnListed M ns jid dl) fun _ y => Holds c (.devs y) := by
  unfold Refs.ensureOwnListed SM.ensureOwnListed
  split
  · refine Sim.attr_bind rfl fun bs => ?_
    split
    · refine Sim.lift_bind (holds_stable _ _) fun _ => Sim.lift_bind (holds_stable _ _) fun label => ?_
      refine Sim.devs_bind (fun w h => h.1) ?_
      refine Sim.write_bind (J := Holds c (.devs (dl.set M.ownDev label)))
        (fun w h => ⟨by simp [Mem.learn], h.2⟩) (Sim.devs_bind (fun w h => h.1) ?_)
      have h := Sim.upload (b := true) (ns := ns) (r := c) (l := dl.set M.ownDev label)
        (I := Holds c (.devs (dl.set M.ownDev label))) (.inl rfl) (holds_stable _ _)
      exact Sim.bind h fun _ _ => Sim.ret fun w hw => hw.2
    · exact Sim.ret fun w hw => hw
  · exact Sim.ret fun w hw => hw

theorem sim_updateDeviceList (r : Ref) (I : Mem → Prop) (hI : ∀ w, I w → w.known r = some (.devs dl)) :
    Sim true I (Refs.updateDeviceList M ns jid r) (SM.updateDeviceList M ns jid dl) fun _ _ _ => True := by
  unfold Refs.updateDeviceList SM.updateDeviceList
  refine Sim.attr_bind rfl fun bs => ?_
  split
  · exact Sim.raise
  · refine Sim.devs_bind hI (Sim.new_bind fun c => Sim.devs_bind (fun w h => h.1) ?_)
    refine Sim.lift_bind (holds_stable c (.devs dl)) fun old => ?_
    refine Sim.bind (sim_ensureOwnListed M ns jid c dl) fun _ dl' => ?_
    refine Sim.bind (R := fun _ _ => Holds c (.devs dl')) (Sim.forEach fun d _ => sim_addNewDevice ns jid c dl' d) fun _ _ => ?_
    refine Sim.bind (R := fun _ _ => Holds c (.devs dl')) (Sim.forEach fun d _ => sim_updateKnownDevice M ns jid c dl' d) fun _ _ => ?_
    exact (Sim.when fun _ => Sim.lift_keep (holds_stable _ _)).post fun _ _ _ _ => trivial

theorem sim_refreshDeviceList {I : Mem → Prop} :
    Sim true I (Refs.refreshDeviceList M ns jid) (SM.refreshDeviceList M ns jid) fun _ _ _ => True :=
  Sim.download_bind fun r l => sim_updateDeviceList M ns jid l r _ fun _ h => h

theorem sim_refreshDeviceLists {I : Mem → Prop} :
    Sim true I (Refs.refreshDeviceLists M jid) (SM.refreshDeviceLists M jid) fun _ _ _ => True := by
  refine Sim.attr_bind rfl fun bs => ?_
  exact (Sim.forEach (I := fun _ => True) fun ns _ => sim_refreshDeviceList M ns jid).pre fun _ _ => trivial

theorem sim_setOwnLabel {I : Mem → Prop} (label : Option String) :
    Sim b I (Refs.setOwnLabel M label) (SM.setOwnLabel M label) fun _ _ _ => True := by
  refine Sim.pre (I := fun _ => True) ?_ fun _ _ => trivial
  refine Sim.lift_bind true_stable fun _ => Sim.attr_bind rfl fun bs => ?_
  refine Sim.forEach (I := fun _ => True) fun ns _ => Sim.download_bind fun r l => ?_
  refine Sim.devs_bind (fun w h => h) ?_
  refine Sim.write_bind (J := fun w => w.known r = some (.devs (l.set M.ownDev label))) (fun w h => by simp [Mem.learn]) ?_
  refine Sim.devs_bind (fun w h => h) ?_
  refine ((Sim.upload (I := fun _ => True) (.inr fun _ _ => trivial) true_stable).pre ?_).post ?_
  · exact fun _ _ => trivial
  · exact fun _ _ _ _ => trivial

theorem sim_purgeBackend {I : Mem → Prop} :
    Sim b I (Refs.purgeBackend M ns) (SM.purgeBackend M ns) fun _ _ _ => True := by
  refine Sim.download_bind fun r l => Sim.devs_bind (fun w h => h) ?_
  refine Sim.bind (R := fun _ _ _ => True) (q := Prog.when (M.ownDev ∈ Dict.keys l) _) (g := fun _ => purgeRest M ns) ?_ fun _ _ => ?_
  · unfold Prog.when
    split
    · refine Sim.write_bind (J := fun w => w.known r = some (.devs (l.erase M.ownDev))) (fun w h => by simp [Mem.learn]) ?_
      refine Sim.devs_bind (fun w h => h) ?_
      refine ((Sim.upload (I := fun _ => True) (.inr fun _ _ => trivial) true_stable).pre ?_).post ?_
      · exact fun _ _ => trivial
      · exact fun _ _ _ _ => trivial
    · exact Sim.ret fun _ _ => trivial
  · exact Sim.lift_keep true_stable

theorem sim_ensureDataConsistency {I : Mem → Prop} :
    Sim true I (Refs.ensureDataConsistency M) (SM.ensureDataConsistency M) fun _ _ _ => True := by
  refine Sim.attr_bind rfl fun bs => ?_
  refine (Sim.forEach (I := fun _ => True) fun ns _ => ?_).pre fun _ _ => trivial
  exact Sim.bind (g := fun _ => checkBundle M ns) (sim_refreshDeviceList M ns M.ownJid) fun _ _ => Sim.lift_keep true_stable

theorem sim_takenDeviceIds {I : Mem → Prop} (bs : List Ns) :
    Sim b I (Refs.takenDeviceIds jid bs) (SM.takenDeviceIds jid bs) fun x y _ => x = y := by
  refine Sim.bind (R := fun x y _ => x = y) (((Sim.mapAll (I := fun _ => True) fun ns _ => ?_).pre fun _ _ => trivial).post
    fun _ _ _ h => h.1) fun x y => ?_
  · refine Sim.download_bind fun r l => Sim.devs_bind (fun w h => h) ?_
    exact Sim.ret fun _ _ => ⟨rfl, trivial⟩
  · exact Sim.ret fun _ h => by rw [h]

/-- Continue with equal results. -/
theorem Sim.bind_eq {b : Bool} {α γ δ : Type} {I : Mem → Prop} {p : RP α} {q : P α} {f : α → RP γ} {g : α → P δ}
    {R : γ → δ → Mem → Prop} (h : Sim b I p q fun x y _ => x = y) (hf : ∀ x, Sim b (fun _ => True) (f x) (g x) R) :
    Sim b I (p >>= f) (q >>= g) R :=
  Sim.bind h fun x y => by
    intro t r w w' he hw hi
    subst hi
    exact hf x t r w w' he hw trivial

theorem sim_firstRun {I : Mem → Prop} (label : Option String) (ik : Bytes) (fuel : Nat) :
    Sim true I (Refs.firstRun M label ik fuel) (SM.firstRun M label ik fuel) fun x y _ => x = y := by
  have heq : SM.firstRun M label ik fuel = (do
      let taken ← SM.takenDeviceIds M.ownJid (← call .getBackends)
      let d ← SM.drawDeviceId taken fuel
      firstSteps { M with ownDev := d } label ik
      Prog.forEach (← call .getBackends) fun ns => SM.refreshDeviceList { M with ownDev := d } ns M.ownJid
      pure d) := by
    unfold SM.firstRun firstSteps
    simp only [prog_assoc]
  rw [heq]
  refine Sim.attr_bind rfl fun bs => Sim.bind_eq (sim_takenDeviceIds M.ownJid bs) fun taken => ?_
  refine Sim.lift_bind true_stable fun d => Sim.lift_bind true_stable fun _ => Sim.attr_bind rfl fun bs => ?_
  refine Sim.bind (R := fun _ _ _ => True) (Sim.forEach fun ns _ => sim_refreshDeviceList _ ns M.ownJid) fun _ _ => ?_
  exact Sim.ret fun _ _ => rfl

theorem sim_handleChangedBackends {I : Mem → Prop} :
    Sim true I (Refs.handleChangedBackends M) (SM.handleChangedBackends M) fun _ _ _ => True := by
  refine Sim.pre (I := fun _ => True) ?_ fun _ _ => trivial
  refine Sim.lift_bind true_stable fun x => Sim.attr_bind rfl fun bs => ?_
  refine Sim.when (I := fun _ => True) fun _ => ?_
  have heq : ∀ q : P Unit, (do
      call (.store (.devActive M.ownJid M.ownDev) (.ofBools ((M.O.iter (dedup bs)).map fun ns => (ns, true))))
      call (.store (.devNamespaces M.ownJid M.ownDev) (.ofStrs (M.O.iter (dedup bs))))
      q) = (do
      storeLoaded M (dedup bs)
      q) := by
    intro q
    unfold storeLoaded
    simp only [prog_assoc]
  rw [heq]
  refine Sim.lift_bind true_stable fun _ => Sim.attr_bind rfl fun bs' => ?_
  refine Sim.bind (R := fun _ _ _ => True) (Sim.forEach fun ns _ => Sim.when fun _ => ?_) fun _ _ => ?_
  · have heq : (do
        SM.refillPreKeys M ns
        let bundle ← call (.getBundle ns M.ownJid M.ownDev)
        call (.uploadBundle bundle)
        SM.refreshDeviceList M ns M.ownJid) = (do
        addBackend M ns
        SM.refreshDeviceList M ns M.ownJid) := by
      unfold addBackend
      simp only [prog_assoc]
    rw [heq]
    exact Sim.lift_bind true_stable fun _ => sim_refreshDeviceList M ns M.ownJid
  · exact Sim.forEach fun ns _ => sim_purgeBackend M ns

theorem sim_create (r : Ref) (bs : List Ns) (I : Mem → Prop) (hI : ∀ w, I w → w.known r = some (.names bs))
    (label : Option String) (fuel : Nat) :
    Sim true I (Refs.create M r label fuel) (SM.create M bs label fuel) fun x y _ => x = y := by
  refine Sim.names_bind hI ?_
  unfold SM.create
  split
  · exact Sim.raise
  · split
    · exact Sim.raise
    · refine Sim.names_bind hI (Sim.new_bind fun c => Sim.names_bind (fun w h => h.1) ?_)
      refine Sim.pre (I := fun _ => True) ?_ fun _ _ => trivial
      have heq : ∀ q : IdentityKeyPair → P DevId, (do
          call (.setBackends bs)
          let ikp ← IdentityKeyPair.get
          call (.setSync true)
          q ikp) = (do
          let ikp ← prepare bs
          q ikp) := by
        intro q
        unfold prepare
        simp only [prog_assoc]
        rfl
      rw [heq]
      refine Sim.lift_bind true_stable fun ikp => ?_
      refine Sim.bind (R := fun x y _ => x = y) ((Sim.tryCatch (I := fun _ => True) true_stable fun e => ?_).post
        fun _ _ _ h => h.1) fun x y => ?_
      · split
        · exact (sim_firstRun M label _ fuel).post fun _ _ _ h => ⟨h, trivial⟩
        · exact Sim.raise
      · intro t r w w' he hw hi
        subst hi
        have := Sim.bind (b := true) (I := fun _ => True) (R := fun _ _ _ => True)
          (sim_handleChangedBackends { M with ownDev := x }) (f := fun _ => pure x) (g := fun _ => pure x)
          (R' := fun x y _ => x = y) fun _ _ => Sim.ret fun _ _ => rfl
        exact this t r w w' he hw trivial

theorem sim_encryptBackend (cache : List Bundle) (rt : Ref) (pt : Dict Ns Bytes) (st : SM.EncAll) :
    Sim b (Holds rt (.texts pt)) (Refs.encryptBackend M cache rt st ns) (SM.encryptBackend M cache pt st ns)
      fun x y w => x = y ∧ Holds rt (.texts pt) w := by
  unfold Refs.encryptBackend SM.encryptBackend
  dsimp only
  split
  · exact Sim.ret fun _ h => ⟨rfl, h⟩
  · refine Sim.texts_bind (fun w h => h.1) ?_
    cases pt.get ns with
    | none => exact Sim.raise
    | some x => exact Sim.lift (q := encryptWith M cache st ns x) (holds_stable _ _)

theorem sim_encryptRest (rt : Ref) (pt : Dict Ns Bytes) (i : Option String) (js : List Jid) (x : List DeviceInfo × List Bundle) :
    Sim b (Holds rt (.texts pt)) (Refs.encryptRest M rt i js x) (do
      let devices ← SM.decideTrust M x.1 i
      SM.encryptTrusted M js x.2 pt devices) fun x y _ => x = y := by
  have hs := holds_stable rt (.texts pt)
  unfold Refs.encryptRest SM.encryptTrusted
  refine Sim.pause_bind hs (Sim.lift_bind hs fun devices => Sim.lift_bind hs fun devices => Sim.attr_bind rfl fun bs => ?_)
  refine Sim.bind (Sim.fold fun st ns _ => sim_encryptBackend M ns x.2 rt pt st) fun st st' => ?_
  intro t r w w' he hw hi
  obtain ⟨rfl, hi⟩ := hi
  exact Sim.lift_eq (b := b) (I := Holds rt (.texts pt)) (q := finish M js st) t r w w' he hw hi

/-- A priority order that is passed by reference. -/
inductive Prio : Option Ref → Option (List Ns) → Mem → Prop where
  | none (w : Mem) : Prio none none w
  | some {r : Ref} {l : List Ns} {w : Mem} (h : Holds r (.names l) w) : Prio (some r) (some l) w

theorem prio_stable (r : Option Ref) (l : Option (List Ns)) : Stable (Prio r l) := by
  intro w h
  cases h with
  | none => exact .none _
  | some h => exact .some (holds_stable _ _ _ h)

theorem sim_priority (r : Option Ref) (l : Option (List Ns)) {I : Mem → Prop} (hI : ∀ w, I w → Prio r l w) :
    Sim b I (priority r) (.ret ()) fun x _ w => x = l ∧ I w := by
  intro t res w w' he hw hi
  refine (?_ : Sim b I _ (.ret ()) fun x _ w => x = l ∧ I w) t res w w' he hw hi
  have h := hI w hi
  unfold priority
  cases h with
  | none => exact Sim.ret fun _ h => ⟨rfl, h⟩
  | some h =>
    refine Sim.names_bind (fun w hw => ?_) (Sim.ret fun _ h => ⟨rfl, h⟩)
    cases hI w hw with
    | some h' => exact h'.1

theorem sim_currentOrder (r : Option Ref) (l : Option (List Ns)) {available order : List Ns}
    (ho : SM.effectiveOrder available l = .ok order) {I : Mem → Prop} (hI : ∀ w, I w → Prio r l w) :
    Sim b I (currentOrder r order) (.ret ()) fun x _ w => x = order ∧ I w := by
  intro t res w w' he hw hi
  refine (?_ : Sim b I _ (.ret ()) fun x _ w => x = order ∧ I w) t res w w' he hw hi
  have h := hI w hi
  unfold currentOrder
  cases h with
  | none => exact Sim.ret fun _ h => ⟨rfl, h⟩
  | @some r l _ h =>
    have hl : l = order := by
      unfold SM.effectiveOrder at ho
      dsimp only at ho
      split at ho
      · cases ho
      · cases ho
        rfl
    subst hl
    refine Sim.skip (Sim.read (x := .names l) fun w hw => ?_) fun y => ?_
    · cases hI w hw with
      | some h' => exact h'.1
    · exact Sim.ret fun _ h => ⟨by rw [h.1]; rfl, h.2⟩

theorem sim_encrypt (rj rt : Ref) (jids : List Jid) (pt : Dict Ns Bytes) (rprio : Option Ref) (prio : Option (List Ns))
    (i : Option String) :
    Sim b (fun w => w.known rj = some (.names jids) ∧ Holds rt (.texts pt) w ∧ Prio rprio prio w)
      (Refs.encrypt M rj rt rprio i) (SM.encrypt M jids pt prio i) fun x y _ => x = y := by
  unfold Refs.encrypt SM.encrypt
  refine Sim.attr_bind rfl fun available => Sim.skip (sim_priority rprio prio fun w h => h.2.2) fun prio' => ?_
  intro t r w w' he hw hi
  obtain ⟨rfl, hi⟩ := hi
  refine (?_ : Sim b (fun w => w.known rj = some (.names jids) ∧ Holds rt (.texts pt) w ∧ Prio rprio prio' w) _ _ fun x y _ => x = y)
    t r w w' he hw hi
  cases ho : SM.effectiveOrder available prio' with
  | error e => exact Sim.raise
  | ok order =>
    refine Sim.names_bind (l := jids) (q := (do
        let (devices, cache) ← SM.recipientDevices M order (setUnion jids [M.ownJid])
        let devices ← SM.decideTrust M devices i
        SM.encryptTrusted M (setUnion jids [M.ownJid]) cache pt devices)) (fun w h => h.1) ?_
    have hs : Stable fun w => Holds rt (.texts pt) w ∧ Prio rprio prio' w := fun w h =>
      ⟨holds_stable _ _ _ h.1, prio_stable _ _ _ h.2⟩
    refine Sim.pre ?_ fun w h => h.2
    unfold SM.recipientDevices
    rw [prog_assoc]
    refine Sim.lift_bind hs fun tmp => Sim.skip (sim_currentOrder rprio prio' ho fun w h => h.2) fun order' => ?_
    intro t r w w' he hw hi
    obtain ⟨rfl, hi⟩ := hi
    have := Sim.lift_bind (b := b) (q := chooseDevices M order' tmp) (f := Refs.encryptRest M rt i (setUnion jids [M.ownJid]))
      (R := fun x y _ => x = y) hs fun x => (sim_encryptRest M rt pt i (setUnion jids [M.ownJid]) x).pre fun w h => h.1
    exact this t r w w' he hw hi

theorem sim_findSender {I : Mem → Prop} (msg : Message) :
    Sim true I (Refs.findSender M msg) (SM.findSender M msg) fun x y _ => x = y := by
  unfold Refs.findSender SM.findSender
  refine Sim.pre (I := fun _ => True) ?_ fun _ _ => trivial
  refine Sim.lift_bind true_stable fun devices => ?_
  cases SM.pickDevice M msg.deviceId devices with
  | some dev => exact Sim.ret fun _ _ => rfl
  | none =>
    refine Sim.bind (sim_refreshDeviceList M msg.ns msg.bareJid) fun _ _ => Sim.lift_bind true_stable fun devices => ?_
    cases SM.pickDevice M msg.deviceId devices with
    | some dev => exact Sim.ret fun _ _ => rfl
    | none => exact Sim.raise

theorem sim_decrypt {I : Mem → Prop} (msg : Message) :
    Sim true I (Refs.decrypt M msg) (SM.decrypt M msg) fun x y _ => x = y := by
  unfold Refs.decrypt SM.decrypt
  refine Sim.attr_bind rfl fun bs => ?_
  split
  · exact Sim.raise
  · cases (M.O.iter msg.keys).find? fun k => decide (k.1.bareJid = M.ownJid ∧ k.1.deviceId = M.ownDev) with
    | none => exact Sim.raise
    | some k =>
      refine Sim.bind_eq (sim_findSender M msg) fun dev => ?_
      exact Sim.lift_eq (q := decryptRest M msg k.1 k.2 dev)

end
end Verif.Refs
