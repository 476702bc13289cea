import Verif.Proofs.Preserve
import Verif.Proofs.KVLemmas
import Verif.Base.Par
import Verif.Model.Backend
/-
C07-C10: the identity key pair, the limits of a backend.
-/
namespace Verif

namespace Spec

/-- The storage holds the identity key pair `kp`: flag and key are there, the key as base64. -/
def HoldsIkp (m : Disk) (kp : IdentityKeyPair) : Prop :=
  ∃ s, m .ikpKey = some (.str s) ∧
    match kp with
    | .seed k => m .ikpIsSeed = some (.bool true) ∧ Base64.decode s = some k
    | .priv k => m .ikpIsSeed = some (.bool false) ∧ Base64.decode s = some k

theorem holds_of {m : Disk} {b : Bool} {k : Bytes} :
    HoldsIkp m (.of b k) ↔ ∃ s, m .ikpKey = some (.str s) ∧ m .ikpIsSeed = some (.bool b) ∧ Base64.decode s = some k := by
  cases b <;> exact Iff.rfl

theorem holds_inj {m : Disk} {kp kp' : IdentityKeyPair} (h : HoldsIkp m kp) (h' : HoldsIkp m kp') : kp = kp' := by
  obtain ⟨s, h1, h2⟩ := h
  obtain ⟨s', h1', h2'⟩ := h'
  rw [h1] at h1'; cases h1'
  cases kp <;> cases kp' <;> simp_all

end Spec

/-! ### What `get` does -/

/-- The loading part returns what the storage holds, or raises `NothingException` because flag or key are absent, or fails. -/
theorem wp_ikp_load (m : Disk) : wp KV IdentityKeyPair.load (fun r m' => m' = m ∧ match r with
    | .ok (b, k) => Spec.HoldsIkp m (.of b k)
    | .raised e => (e = .nothingException ∧ (m .ikpIsSeed = none ∨ m .ikpKey = none)) ∨
        (e ≠ .nothingException ∧ (e.isFailure ∨ ¬ ∃ kp, Spec.HoldsIkp m kp))
    | .crashed => True) m := by
  have hf : ∀ e : Exn, e.isFailure = true → (e ≠ .nothingException ∧ (e.isFailure ∨ ¬ ∃ kp, Spec.HoldsIkp m kp)) :=
    fun e he => ⟨(by rintro rfl; cases he), .inl he⟩
  unfold IdentityKeyPair.load
  rw [wp_bind, KV.wp_loadBool]
  refine ⟨⟨rfl, trivial⟩, fun e he => ⟨rfl, .inr (hf e he)⟩, ?_⟩
  cases h1 : m .ikpIsSeed with
  | none =>
    simp only [fmapRes, andThen_ok]
    rw [wp_bind, wp_fromJust]
    exact ⟨nofun, fun _ => ⟨rfl, .inl ⟨rfl, .inl trivial⟩⟩⟩
  | some v =>
    by_cases hv : ∃ b, v = .bool b
    · obtain ⟨b, rfl⟩ := hv
      simp only [fmapRes, read_bool, andThen_ok]
      rw [wp_bind, wp_fromJust]
      refine ⟨?_, nofun⟩
      rintro _ ⟨⟩
      rw [andThen_ok, wp_bind, KV.wp_loadBytes]
      refine ⟨⟨rfl, trivial⟩, fun e he => ⟨rfl, .inr (hf e he)⟩, ?_⟩
      cases h2 : m .ikpKey with
      | none =>
        simp only [fmapRes, andThen_ok]
        rw [wp_bind, wp_fromJust]
        exact ⟨nofun, fun _ => ⟨rfl, .inl ⟨rfl, .inr trivial⟩⟩⟩
      | some v =>
        simp only [fmapRes]
        cases h3 : checkBytes v with
        | error e =>
          refine ⟨rfl, .inr ⟨?_, .inr ?_⟩⟩
          · rintro rfl
            cases v <;> simp only [checkBytes] at h3 <;> first | cases h3 | skip
            split at h3 <;> cases h3
          · rintro ⟨kp, s, h4, h5⟩
            rw [h2] at h4; cases h4
            have : ∃ k, Base64.decode s = some k := by
              cases kp with
              | seed k => exact ⟨k, h5.2⟩
              | priv k => exact ⟨k, h5.2⟩
            obtain ⟨k, hk⟩ := this
            simp [checkBytes, hk] at h3
        | ok k =>
          simp only [andThen_ok]
          rw [wp_bind, wp_fromJust]
          refine ⟨?_, nofun⟩
          rintro _ ⟨⟩
          refine ⟨rfl, Spec.holds_of.2 ?_⟩
          cases v with
          | str s =>
            simp only [checkBytes] at h3
            refine ⟨s, h2, h1, ?_⟩
            cases h4 : Base64.decode s with
            | none => rw [h4] at h3; cases h3
            | some k' => rw [h4] at h3; cases h3; rfl
          | _ => cases h3
    · have : fmapRes (fun v => (checkPrimitive .bool v).map JVal.asBool) (some v) = .raised .typeError := by
        cases v with
        | bool b => exact absurd ⟨b, rfl⟩ hv
        | _ => rfl
      rw [this]
      refine ⟨rfl, .inr ⟨by decide, .inr ?_⟩⟩
      rintro ⟨kp, s, h4, h5⟩
      cases kp with
      | seed k => rw [h1] at h5; exact hv ⟨_, Option.some.inj h5.1⟩
      | priv k => rw [h1] at h5; exact hv ⟨_, Option.some.inj h5.1⟩

/-- What a storage looks like while a new seed is being written. -/
def Writing (m m' : Disk) (k : Bytes) : Prop :=
  m' = m ∨ m' = m.upd .ikpIsSeed (some (.bool true)) ∨
    m' = (m.upd .ikpIsSeed (some (.bool true))).upd .ikpKey (some (.str (Base64.encode k)))

theorem holds_written (m : Disk) (k : Bytes) :
    Spec.HoldsIkp ((m.upd .ikpIsSeed (some (.bool true))).upd .ikpKey (some (.str (Base64.encode k)))) (.seed k) :=
  ⟨_, Disk.upd_self, by rw [Disk.upd_of_ne (by decide), Disk.upd_self], Base64.decode_encode k⟩

/-- The generating part, with the history `h` of interactions. -/
theorem wp_ikp_generate (m : Disk) (h : List Ev) : wp (KV.prod (.hist _ _)) IdentityKeyPair.generate
    (fun r s => ∃ k, Writing m s.1 k ∧ (s.1 ≠ m → (⟨.tokenBytes 32, .ok k⟩ : Ev) ∈ s.2) ∧ (∀ e ∈ h, e ∈ s.2) ∧
      ∀ x, r = .ok x → x = (true, k) ∧ (⟨.tokenBytes 32, .ok k⟩ : Ev) ∈ s.2 ∧
        s.1 = (m.upd .ikpIsSeed (some (.bool true))).upd .ikpKey (some (.str (Base64.encode k)))) (m, h) := by
  unfold IdentityKeyPair.generate Sto.storeBytes
  wpsimp
  simp only [Sem.prod, Sem.hist, KV, and_true]
  refine ⟨⟨[], .inl rfl, fun h => absurd rfl h, fun _ h => h, nofun⟩, fun k _ => ⟨⟨k, .inl rfl, fun h => absurd rfl h, ?_, nofun⟩,
    fun _ _ => ⟨⟨k, .inr (.inl rfl), fun _ => ?_, ?_, nofun⟩, fun _ _ => ⟨k, .inr (.inr rfl), fun _ => ?_, ?_, ?_⟩, fun e _ => ?_⟩, fun e _ => ?_⟩, fun e _ => ?_⟩
  all_goals first
    | (rintro _ ⟨⟩; exact ⟨rfl, by simp, rfl⟩)
    | exact ⟨[], .inl rfl, fun h => absurd rfl h, fun _ h => by simp [h], nofun⟩
    | exact ⟨k, .inr (.inl rfl), fun _ => by simp, fun _ h => by simp [h], nofun⟩
    | (intro e he; simp [he])
    | simp

/-- `get` on any storage: it returns what the storage held before, unchanged, or a new seed pair drawn by this call and stored. -/
theorem wp_ikp_get (m : Disk) (h : List Ev) : wp (KV.prod (.hist _ _)) IdentityKeyPair.get
    (fun r s => (∀ e ∈ h, e ∈ s.2) ∧
      ((s.1 = m ∧ ∀ kp, r = .ok kp → Spec.HoldsIkp m kp) ∨
      ((m .ikpIsSeed = none ∨ m .ikpKey = none) ∧ ∃ k, Writing m s.1 k ∧
        (s.1 ≠ m → (⟨.tokenBytes 32, .ok k⟩ : Ev) ∈ s.2) ∧
        ∀ kp, r = .ok kp → kp = .seed k ∧ (⟨.tokenBytes 32, .ok k⟩ : Ev) ∈ s.2 ∧
          s.1 = (m.upd .ikpIsSeed (some (.bool true))).upd .ikpKey (some (.str (Base64.encode k)))))) (m, h) := by
  unfold IdentityKeyPair.get
  rw [wp_bind, wp_onNothing]
  have hh : wp (.hist _ _) IdentityKeyPair.load (fun _ h' => ∀ e ∈ h, e ∈ h') h :=
    AllOps.invariant (φ := fun _ => True) (by unfold IdentityKeyPair.load; lib_ops [])
      (fun w o r _ _ hw e he => by simp [Sem.hist, hw e he]) h (fun _ h => h)
  refine wp_mono (wp_prod (wp_ikp_load m) hh) ?_
  rintro r ⟨m', h'⟩ ⟨⟨hm, hr⟩, hh'⟩
  simp only at hm hr hh'; subst hm
  cases r with
  | ok x =>
    obtain ⟨b, k⟩ := x
    refine ⟨hh', .inl ⟨rfl, ?_⟩⟩
    rintro kp ⟨⟩
    exact hr
  | crashed => exact ⟨hh', .inl ⟨rfl, nofun⟩⟩
  | raised e =>
    simp only [handled_raised]
    refine ⟨?_, fun _ => ⟨hh', .inl ⟨rfl, nofun⟩⟩⟩
    rintro rfl
    have habs : m' .ikpIsSeed = none ∨ m' .ikpKey = none := by
      rcases hr with hr | hr
      · exact hr.2
      · exact absurd rfl hr.1
    refine wp_mono (wp_ikp_generate m' h') ?_
    rintro r ⟨m'', h''⟩ ⟨k, h1, h2, h3, h4⟩
    cases r with
    | ok x =>
      obtain ⟨rfl, h5, h6⟩ := h4 _ rfl
      refine ⟨fun e he => h3 e (hh' e he), .inr ⟨habs, k, h1, h2, ?_⟩⟩
      rintro kp ⟨⟩
      exact ⟨rfl, h5, h6⟩
    | raised e => exact ⟨fun e he => h3 e (hh' e he), .inr ⟨habs, k, h1, h2, nofun⟩⟩
    | crashed => exact ⟨fun e he => h3 e (hh' e he), .inr ⟨habs, k, h1, h2, nofun⟩⟩

/-- A `get` on a storage that holds a pair only loads, returns that pair, and fails only if a load fails. -/
theorem wp_ikp_get_stored {m : Disk} {kp : IdentityKeyPair} (h : Spec.HoldsIkp m kp) : wp KV IdentityKeyPair.get (fun r m' =>
    m' = m ∧ (∀ kp', r = .ok kp' → kp' = kp) ∧ ∀ e, r = .raised e → e.isFailure) m := by
  unfold IdentityKeyPair.get
  rw [wp_bind, wp_onNothing]
  refine wp_mono (wp_ikp_load m) ?_
  rintro r m' ⟨rfl, hr⟩
  cases r with
  | ok x =>
    refine ⟨rfl, ?_, nofun⟩
    rintro kp' ⟨⟩
    exact Spec.holds_inj hr h
  | crashed => exact ⟨rfl, nofun, nofun⟩
  | raised e =>
    rcases hr with ⟨rfl, h1⟩ | ⟨h1, h2⟩
    · exfalso
      obtain ⟨s, h3, h4⟩ := h
      rcases h1 with h1 | h1
      · cases kp <;> simp [h1] at h4
      · rw [h1] at h3; cases h3
    · refine ⟨fun h => absurd h h1, fun _ => ⟨rfl, nofun, ?_⟩⟩
      rintro _ ⟨⟩
      rcases h2 with h2 | h2
      · exact h2
      · exact absurd ⟨kp, h⟩ h2

/-- No call writes to the places of the key pair, apart from `get` itself. -/
theorem callOps_ikp {M : Mgr} {c : Call} {o : Op} (h : CallOps M c o) :
    (∀ k v, k = Key.ikpKey ∨ k = Key.ikpIsSeed → o ≠ .store k v) ∧ ∀ k, k = Key.ikpKey ∨ k = Key.ikpIsSeed → o ≠ .delete k := by
  have := callOps_writes h
  constructor
  · rintro k v hk rfl
    rcases hk with rfl | rfl <;> (cases this with | other _ h _ => exact h _ _ rfl)
  · rintro k hk rfl
    rcases hk with rfl | rfl <;> (cases this with | other _ _ h => exact h _ rfl)

/-! ### C07: the identity key pair is stable -/

/-- C07.  A `get` returned `kp`; then any history of calls, each ending in any way, runs, by any managers (the one
assumption on their applications is that the trust decision callback does not overwrite the stored key pair); then another `get`
runs: if it returns a pair, this is `kp`; it raises only what the storage raised; and it has changed nothing. -/
theorem C07_identity_stable {m0 m1 m2 m3 : Disk} {t1 t2 : List Ev} {kp : IdentityKeyPair} {r : Res Exn IdentityKeyPair}
    {cs : List (Mgr × Call)}
    (h1 : Exec IdentityKeyPair.get t1 (.ok kp)) (hr1 : KV.Runs m0 t1 m1)
    (hh : Hist KV m1 cs m2)
    (happ : ∀ x ∈ cs, ∀ ds i, Pres KV (fun m => Spec.HoldsIkp m kp) (x.1.decide ds i))
    (h2 : Exec IdentityKeyPair.get t2 r) (hr2 : KV.Runs m2 t2 m3) :
    (∀ kp', r = .ok kp' → kp' = kp) ∧ (∀ e, r = .raised e → e.isFailure) ∧ m3 = m2 := by
  have hold1 : Spec.HoldsIkp m1 kp := by
    obtain ⟨_, hq⟩ := wp_sound (wp_ikp_get m0 []) h1 (w' := (m1, t1)) (Sem.runs_prod.2 ⟨hr1, Sem.runs_hist.2 (by simp)⟩)
    rcases hq with ⟨h1, h2⟩ | ⟨_, k, _, _, h3⟩
    · simp only at h1; rw [h1]; exact h2 kp rfl
    · obtain ⟨rfl, _, h4⟩ := h3 kp rfl
      simp only at h4; rw [h4]; exact holds_written m0 k
  have hold2 : Spec.HoldsIkp m2 kp := by
    refine hh.invariant (I := fun m => Spec.HoldsIkp m kp) (fun x hx => ?_) hold1
    refine Call.pres x.1 x.2 ?_ (fun _ => happ x hx) fun o ho m r hok hm => ?_
    · exact fun m hm => wp_mono (wp_ikp_get_stored hm) fun _ m' h => h.1 ▸ hm
    · have hw := callOps_ikp ho
      obtain ⟨s, h3, h4⟩ := hm
      have hk : ∀ k, k = Key.ikpKey ∨ k = Key.ikpIsSeed → KV.next m ⟨o, r⟩ k = m k := by
        intro k hk
        cases o with
        | store k' v =>
          have : k ≠ k' := by rintro rfl; exact hw.1 k v hk rfl
          cases r with
          | ok _ => exact Disk.upd_of_ne this
          | error _ => rfl
        | delete k' =>
          have : k ≠ k' := by rintro rfl; exact hw.2 k hk rfl
          cases r with
          | ok _ => exact Disk.upd_of_ne this
          | error _ => rfl
        | _ => rfl
      refine ⟨s, (hk _ (.inl rfl)).trans h3, ?_⟩
      cases kp with
      | seed k => exact ⟨(hk _ (.inr rfl)).trans h4.1, h4.2⟩
      | priv k => exact ⟨(hk _ (.inr rfl)).trans h4.1, h4.2⟩
  have := wp_sound (wp_ikp_get_stored hold2) h2 hr2
  exact ⟨this.2.1, this.2.2, this.1⟩

/-- The manager used in examples: first device of `me`, sets iterate in insertion order, the trust decision callback does nothing. -/
def Mgr.ex : Mgr where
  ownJid := "me"
  ownDev := 1
  undecided := "undecided"
  threshold := 99
  O := .insertion
  sameSession := fun a b => Decidable.decide (a = b)
  decide := fun _ _ => pure ()
  x := ⟨id, id, id⟩

/-- The hypotheses of C07 are met: a private key is in storage, trust is set in between. -/
example : ∃ (m0 m1 m2 m3 : Disk) (t1 t2 : List Ev),
    Exec IdentityKeyPair.get t1 (.ok (.priv [1, 2, 3])) ∧ KV.Runs m0 t1 m1 ∧
    Hist KV m1 [(Mgr.ex, .setTrust "you" [7] "trusted"), (Mgr.ex, .getDeviceInformation "you")] m2 ∧
    Exec IdentityKeyPair.get t2 (.ok (.priv [1, 2, 3])) ∧ KV.Runs m2 t2 m3 :=
  let f := fun o : Op => (.error (.app 0) : Except Exn o.Ret)
  let m0 : Disk := fun k => match k with
    | .ikpIsSeed => some (.bool false)
    | .ikpKey => some (.str (Base64.encode [1, 2, 3]))
    | _ => none
  ⟨m0, _, _, _, _, _, runProg_exec (KV.env f) KV.next 20 _ m0, runProg_runs KV (KV.env f) (KV.env_ok f) 20 _ m0,
    .cons (runProg_exec (KV.env f) KV.next 20 _ _) (runProg_runs KV (KV.env f) (KV.env_ok f) 20 _ _)
      (.cons (runProg_exec (KV.env f) KV.next 20 _ _) (runProg_runs KV (KV.env f) (KV.env_ok f) 20 _ _) (.nil _)),
    runProg_exec (KV.env f) KV.next 20 _ _, runProg_runs KV (KV.env f) (KV.env_ok f) 20 _ _⟩

/-! ### C08: generation is crash safe -/

/-- Any number of `get` calls, one after the other, each ending in any way; `u` are all their interactions. -/
inductive Gets : Disk → List Ev → Disk → Prop where
  | nil (m : Disk) : Gets m [] m
  | snoc {m m1 m2 : Disk} {u t : List Ev} {r : Res Exn IdentityKeyPair} :
      Gets m u m1 → Exec IdentityKeyPair.get t r → KV.Runs m1 t m2 → Gets m (u ++ t) m2

/-- What attempts on a fresh storage can leave behind. -/
def Spec.Attempted (u : List Ev) (m : Disk) : Prop :=
  (m .ikpKey = none ∧ (m .ikpIsSeed = none ∨ m .ikpIsSeed = some (.bool true))) ∨
  ∃ k, (⟨.tokenBytes 32, .ok k⟩ : Ev) ∈ u ∧ m .ikpKey = some (.str (Base64.encode k)) ∧ m .ikpIsSeed = some (.bool true)

theorem attempted_step {m m' : Disk} {u t : List Ev} {r : Res Exn IdentityKeyPair} (h : Spec.Attempted u m)
    (he : Exec IdentityKeyPair.get t r) (hr : KV.Runs m t m') :
    Spec.Attempted (u ++ t) m' ∧ (∀ k, k ≠ .ikpKey → k ≠ .ikpIsSeed → m' k = m k) ∧
    ∀ kp, r = .ok kp → ∃ k, kp = .seed k ∧ (⟨.tokenBytes 32, .ok k⟩ : Ev) ∈ u ++ t ∧
      m' .ikpKey = some (.str (Base64.encode k)) ∧ m' .ikpIsSeed = some (.bool true) ∧
      (m .ikpKey ≠ none → m' = m) ∧ (m .ikpKey = none → (⟨.tokenBytes 32, .ok k⟩ : Ev) ∈ t) := by
  obtain ⟨_, hq⟩ := wp_sound (wp_ikp_get m []) he (w' := (m', t)) (Sem.runs_prod.2 ⟨hr, Sem.runs_hist.2 (by simp)⟩)
  simp only at hq
  rcases hq with ⟨rfl, h2⟩ | ⟨habs, k, hw, htok, hok⟩
  · refine ⟨?_, fun _ _ _ => rfl, fun kp hkp => ?_⟩
    · rcases h with h | ⟨k, h1, h3⟩
      · exact .inl h
      · exact .inr ⟨k, by simp [h1], h3⟩
    · obtain ⟨s, h3, h4⟩ := h2 kp hkp
      rcases h with ⟨h, _⟩ | ⟨k, h5, h6, h7⟩
      · rw [h] at h3; cases h3
      · rw [h6] at h3; cases h3
        rw [h7, Base64.decode_encode] at h4
        cases kp with
        | priv k' => simp at h4
        | seed k' =>
          simp only [true_and, Option.some.injEq] at h4
          subst h4
          exact ⟨k, rfl, by simp [h5], h6, h7, fun _ => rfl, fun h8 => by rw [h8] at h6; cases h6⟩
  · have hkey : m .ikpKey = none := by
      rcases h with h | ⟨k, _, h1, h2⟩
      · exact h.1
      · rcases habs with h3 | h3
        · rw [h2] at h3; cases h3
        · rw [h1] at h3; cases h3
    have hflag : m .ikpIsSeed = none ∨ m .ikpIsSeed = some (.bool true) := by
      rcases h with h | ⟨k, _, h1, h2⟩
      · exact h.2
      · exact .inr h2
    refine ⟨?_, ?_, fun kp hkp => ?_⟩
    · rcases hw with rfl | rfl | h1
      · exact .inl ⟨hkey, hflag⟩
      · exact .inl ⟨by rw [Disk.upd_of_ne (by decide)]; exact hkey, .inr Disk.upd_self⟩
      · refine .inr ⟨k, ?_, ?_, ?_⟩
        · have : m' ≠ m := by
            intro h2
            have : m' .ikpKey = m .ikpKey := by rw [h2]
            rw [h1, Disk.upd_self, hkey] at this; cases this
          simp [htok this]
        · rw [h1, Disk.upd_self]
        · rw [h1, Disk.upd_of_ne (by decide), Disk.upd_self]
    · intro k' h1 h2
      rcases hw with rfl | rfl | rfl
      · rfl
      · exact Disk.upd_of_ne h2
      · rw [Disk.upd_of_ne h1, Disk.upd_of_ne h2]
    · obtain ⟨rfl, h1, rfl⟩ := hok kp hkp
      exact ⟨k, rfl, by simp [h1], Disk.upd_self, by rw [Disk.upd_of_ne (by decide), Disk.upd_self],
        fun h => absurd hkey h, fun _ => h1⟩

/-- C08.  On a fresh storage any number of `get` calls were made, each of them ending in any way: with a value, an exception or death of
the process at any point.  If the next `get` returns a pair, it is the pair of a seed drawn by one of these calls;
storage then holds exactly this seed with the matching flag and everything else is untouched.  If a key had been stored by
an earlier call, it is that key, and nothing changed; otherwise it was drawn by this call.  The seed has 32 bytes if the random
source returns as many bytes as asked for. -/
theorem C08_generation_crash_safe {m0 m1 m2 : Disk} {u t : List Ev} {kp : IdentityKeyPair}
    (hfresh : m0 .ikpKey = none ∧ m0 .ikpIsSeed = none) (hu : Gets m0 u m1)
    (he : Exec IdentityKeyPair.get t (.ok kp)) (hr : KV.Runs m1 t m2) :
    ∃ k, kp = .seed k ∧ (⟨.tokenBytes 32, .ok k⟩ : Ev) ∈ u ++ t ∧
      m2 .ikpKey = some (.str (Base64.encode k)) ∧ m2 .ikpIsSeed = some (.bool true) ∧
      (∀ k', k' ≠ .ikpKey → k' ≠ .ikpIsSeed → m2 k' = m0 k') ∧
      (m1 .ikpKey ≠ none → m2 = m1) ∧ (m1 .ikpKey = none → (⟨.tokenBytes 32, .ok k⟩ : Ev) ∈ t) ∧
      ((∀ n b, (⟨.tokenBytes n, .ok b⟩ : Ev) ∈ u ++ t → b.length = n) → k.length = 32) := by
  have hatt : Spec.Attempted u m1 ∧ ∀ k', k' ≠ .ikpKey → k' ≠ .ikpIsSeed → m1 k' = m0 k' := by
    clear he hr
    induction hu with
    | nil => exact ⟨.inl ⟨hfresh.1, .inl hfresh.2⟩, fun _ _ _ => rfl⟩
    | snoc _ he hr ih =>
      have := attempted_step ih.1 he hr
      exact ⟨this.1, fun k' h1 h2 => (this.2.1 k' h1 h2).trans (ih.2 k' h1 h2)⟩
  obtain ⟨_, hother, hok⟩ := attempted_step hatt.1 he hr
  obtain ⟨k, h1, h2, h3, h4, h5, h6⟩ := hok kp rfl
  exact ⟨k, h1, h2, h3, h4, fun k' a b => (hother k' a b).trans (hatt.2 k' a b), h5, h6, fun hlen => hlen 32 k h2⟩

/-- The hypotheses of C08 are met by a first attempt that dies between the two stores. -/
example : ∃ m0 m1 m2 u t, m0 .ikpKey = none ∧ m0 .ikpIsSeed = none ∧ Gets m0 u m1 ∧ m1 .ikpIsSeed ≠ none ∧ m1 .ikpKey = none ∧
    Exec IdentityKeyPair.get t (.ok (.seed [9, 9])) ∧ KV.Runs m1 t m2 :=
  let f : (o : Op) → Except Exn o.Ret := fun o => match o with
    | .tokenBytes _ => .ok [9, 9]
    | _ => .error (.app 0)
  ⟨fun _ => none, _, _, _, _, rfl, rfl,
    .snoc (.nil _) (runProg_exec (KV.env f) KV.next 3 _ _) (runProg_runs KV (KV.env f) (KV.env_ok f) 3 _ _),
    nofun, rfl, runProg_exec (KV.env f) KV.next 20 _ _, runProg_runs KV (KV.env f) (KV.env_ok f) 20 _ _⟩

/-! ### C09: concurrent requests -/

/-- C09 in full: two `get` calls, interleaved in any way, that both return, return the same pair. -/
def C09_Claim : Prop :=
  ∀ (m m' : Disk) (t1 t2 t : List Ev) (a b : IdentityKeyPair),
    Exec IdentityKeyPair.get t1 (.ok a) → Exec IdentityKeyPair.get t2 (.ok b) → Shuffle [t1, t2] t → KV.Runs m t m' → a = b

/-- Interactions of a `get` that finds nothing and draws `k`. -/
def getTrace (k : Bytes) : List Ev :=
  [⟨.load .ikpIsSeed, .ok none⟩, ⟨.tokenBytes 32, .ok k⟩, ⟨.store .ikpIsSeed (.bool true), .ok ()⟩,
   ⟨.store .ikpKey (.str (Base64.encode k)), .ok ()⟩]

theorem getTrace_exec (k : Bytes) : Exec IdentityKeyPair.get (getTrace k) (.ok (.seed k)) :=
  .op (S := LibSig) (o := .load _) (.ok none) (.op (S := LibSig) (o := .tokenBytes _) (.ok k)
    (.op (S := LibSig) (o := .store _ _) (.ok ()) (.op (S := LibSig) (o := .store _ _) (.ok ()) (.ret _))))

/-- C09 is false of the code: both calls may find the storage empty and draw different seeds. -/
theorem C09_refuted : ¬ C09_Claim := by
  intro h
  have hs : Shuffle [getTrace [1], getTrace [2]]
      [⟨.load .ikpIsSeed, .ok none⟩, ⟨.load .ikpIsSeed, .ok none⟩, ⟨.tokenBytes 32, .ok [1]⟩, ⟨.store .ikpIsSeed (.bool true), .ok ()⟩,
       ⟨.store .ikpKey (.str (Base64.encode [1])), .ok ()⟩, ⟨.tokenBytes 32, .ok [2]⟩, ⟨.store .ikpIsSeed (.bool true), .ok ()⟩,
       ⟨.store .ikpKey (.str (Base64.encode [2])), .ok ()⟩] :=
    .cons (pre := []) (.cons (pre := [_]) (.cons (pre := []) (.cons (pre := []) (.cons (pre := [])
      (.cons (pre := [_]) (.cons (pre := [_]) (.cons (pre := [_]) (.nil (by simp)))))))))
  have := h (fun _ => none) _ _ _ _ _ _ (getTrace_exec [1]) (getTrace_exec [2]) hs
    ⟨rfl, rfl, trivial, trivial, trivial, trivial, trivial, trivial, rfl⟩
  cases this

/-- On a storage that holds a pair, `get` only loads flag and key. -/
theorem guar_ikp_get {m : Disk} {kp : IdentityKeyPair} (h : Spec.HoldsIkp m kp) :
    guar KV (fun l o => l = m ∧ (o = .load .ikpIsSeed ∨ o = .load .ikpKey)) IdentityKeyPair.get (fun _ _ => True) m := by
  obtain ⟨s, h1, h2⟩ := h
  obtain ⟨b, k, h2, h3⟩ : ∃ b k, m .ikpIsSeed = some (.bool b) ∧ Base64.decode s = some k := by
    cases kp with
    | seed k => exact ⟨true, k, h2⟩
    | priv k => exact ⟨false, k, h2⟩
  unfold IdentityKeyPair.get onNothing IdentityKeyPair.load Sto.loadBool Sto.loadBytes
  simp only [guar_bind, guar_tryCatch, Prog.perform, guar_op, forall_except, guar_ret, guar_raise, andThen_ok, andThen_raised,
    andThen_crashed, handled_raised, handled_crashed]
  refine ⟨⟨trivial, .inl trivial⟩, trivial, ?_, fun e he => ?_⟩
  · rintro v (rfl : v = _)
    simp only [h2, Maybe.fmap, read_bool, guar_ret, andThen_ok, Maybe.fromJust]
    refine ⟨⟨rfl, .inr trivial⟩, trivial, ?_, fun e he => ?_⟩
    · rintro v (rfl : v = _)
      simp only [KV, h1, checkBytes, h3, guar_ret, andThen_ok]
      trivial
    · have : e ≠ .nothingException := by rintro rfl; cases he
      simp only [this, if_false]; trivial
  · have : e ≠ .nothingException := by rintro rfl; cases he
    simp only [this, if_false]; trivial

/-- C09, the part that holds: on a storage that already holds a pair, any number of `get` calls interleaved in any way
return that pair and change nothing.  Missing: a storage without a pair, where the claim is false. -/
theorem C09_concurrent_stored_partial {m m' : Disk} {kp : IdentityKeyPair} (h : Spec.HoldsIkp m kp)
    (runs : List (List Ev × Res Exn IdentityKeyPair)) (hex : ∀ x ∈ runs, Exec IdentityKeyPair.get x.1 x.2)
    {t : List Ev} (hs : Shuffle (runs.map (·.1)) t) (hr : KV.Runs m t m') :
    m' = m ∧ ∀ x ∈ runs, ∀ kp', x.2 = .ok kp' → kp' = kp := by
  let ks : List (Task LibSig Exn Disk) := runs.attach.map fun x => ⟨_, _, x.1.1, x.1.2, m, hex x.1 x.2⟩
  have hks : ks.map (·.trace) = runs.map (·.1) := by
    simp only [ks, List.map_map, Function.comp_def]
    exact List.attach_map_val (f := fun x : List Ev × Res Exn IdentityKeyPair => x.1) (l := runs)
  have main := rely_guarantee (N := KV) (M := KV) (φ := fun l o => l = m ∧ (o = .load .ikpIsSeed ∨ o = .load .ikpKey))
    (J := fun w => w = m) (R := fun l w => l = w)
    (fun w l e hJ hR hφ hok => by
      subst hR
      obtain ⟨o, r⟩ := e
      have hn : KV.next l ⟨o, r⟩ = l := by rcases hφ.2 with rfl | rfl <;> rfl
      rw [hn]
      exact ⟨hok, hJ, rfl, fun _ h => h⟩)
    ks (fun k hk => by
      obtain ⟨x, _, rfl⟩ := List.mem_map.1 hk
      exact guar_ikp_get h) (fun k hk => by
      obtain ⟨x, _, rfl⟩ := List.mem_map.1 hk
      rfl) rfl (hks ▸ hs) hr
  refine ⟨main.1, fun x hx kp' hkp => ?_⟩
  obtain ⟨l', hl, _⟩ := main.2 ⟨_, _, x.1, x.2, m, hex x hx⟩ (List.mem_map.2 ⟨⟨x, hx⟩, by simp, rfl⟩)
  exact (wp_sound (wp_ikp_get_stored h) (hex x hx) hl).2.1 kp' hkp

/-- The hypotheses of the partial C09 are met by two interleaved calls. -/
example : let m : Disk := fun k => match k with
      | .ikpIsSeed => some (.bool true)
      | .ikpKey => some (.str (Base64.encode [5]))
      | _ => none
    ∃ t1 t2 t, Spec.HoldsIkp m (.seed [5]) ∧ Exec IdentityKeyPair.get t1 (.ok (.seed [5])) ∧
      Exec IdentityKeyPair.get t2 (.ok (.seed [5])) ∧ t1 ≠ [] ∧ Shuffle [t1, t2] t ∧ KV.Runs m t m := by
  intro m
  let f := fun o : Op => (.error (.app 0) : Except Exn o.Ret)
  let e1 : Ev := ⟨.load .ikpIsSeed, .ok (some (.bool true))⟩
  let e2 : Ev := ⟨.load .ikpKey, .ok (some (.str (Base64.encode [5])))⟩
  have hex : Exec IdentityKeyPair.get [e1, e2] (.ok (.seed [5])) := by
    have := runProg_exec (KV.env f) KV.next 3 IdentityKeyPair.get m
    exact this
  exact ⟨[e1, e2], [e1, e2], [e1, e1, e2, e2], ⟨_, rfl, rfl, Base64.decode_encode _⟩, hex, hex, nofun,
    .cons (pre := []) (.cons (pre := [_]) (.cons (pre := []) (.cons (pre := [_]) (.nil (by simp))))),
    ⟨rfl, rfl, rfl, rfl, rfl⟩⟩

/-! ### C10: limits of skipped message keys -/

/-- backend.py:97-106 ("The number of skipped message keys to keep around per session / per message... `None` for the per session
maximum; 0 only together with a per session maximum of 0; otherwise between 1 and the per session maximum"). -/
def Spec.ValidLimits (perSession : Int) (perMessage : Option Int) : Prop :=
  perMessage = none ∨ (perMessage = some 0 ∧ perSession = 0) ∨ ∃ n, perMessage = some n ∧ 1 ≤ n ∧ n ≤ perSession

/-- C10 in full. -/
def C10_Claim : Prop :=
  ∀ perSession perMessage, ((∃ l, Backend.init perSession perMessage = .ok l) ↔ Spec.ValidLimits perSession perMessage)

/-- C10 is false of the code: `x or 0 > y` is `x or (0 > y)`, so that every nonzero maximum per message is rejected. -/
theorem C10_refuted : ¬ C10_Claim := by
  intro h
  obtain ⟨l, hl⟩ := (h 10 (some 5)).2 (.inr (.inr ⟨5, rfl, by decide, by decide⟩))
  cases hl

/-- C10: the parameters the code accepts, exactly, with the limits in effect.  Every other choice raises `ValueError`. -/
theorem C10_accepted_partial (perSession : Int) (perMessage : Option Int) :
    (((perMessage = none ∧ 0 ≤ perSession) ∨ (perMessage = some 0 ∧ perSession = 0)) →
      Backend.init perSession perMessage = .ok ⟨perSession, perSession⟩) ∧
    (¬ ((perMessage = none ∧ 0 ≤ perSession) ∨ (perMessage = some 0 ∧ perSession = 0)) →
      Backend.init perSession perMessage = .error .valueError) := by
  constructor
  · rintro (⟨rfl, h⟩ | ⟨rfl, rfl⟩)
    · have : ¬ (0 > perSession) := by omega
      simp [Backend.init, orGreater, this]
    · rfl
  · intro h
    unfold Backend.init
    split
    · rfl
    · rename_i h1
      rw [if_pos]
      cases perMessage with
      | none => simp only [orGreater, decide_eq_true_eq]; simp at h; omega
      | some n =>
        simp only [orGreater]
        split
        · rfl
        · rename_i h2
          have : n = 0 := by omega
          subst this
          simp at h h1; omega

/-- C10, the direction that holds: what is accepted is valid as documented, and `None` stands for the maximum per session.
Missing: the converse, which is false. -/
theorem C10_sound_partial (perSession : Int) (perMessage : Option Int) (l : BackendLimits)
    (h : Backend.init perSession perMessage = .ok l) :
    Spec.ValidLimits perSession perMessage ∧ l.perSession = perSession ∧ l.perMessage = perMessage.getD perSession := by
  by_cases hc : (perMessage = none ∧ 0 ≤ perSession) ∨ (perMessage = some 0 ∧ perSession = 0)
  · rw [(C10_accepted_partial _ _).1 hc] at h
    cases h
    rcases hc with ⟨rfl, _⟩ | ⟨rfl, rfl⟩
    · exact ⟨.inl rfl, rfl, rfl⟩
    · exact ⟨.inr (.inl ⟨rfl, rfl⟩), rfl, rfl⟩
  · rw [(C10_accepted_partial _ _).2 hc] at h; cases h

example : Backend.init 1000 none = .ok ⟨1000, 1000⟩ ∧ Backend.init 0 (some 0) = .ok ⟨0, 0⟩ ∧
    Backend.init 1000 (some 0) = .error .valueError ∧ Backend.init (-1) none = .error .valueError := ⟨rfl, rfl, rfl, rfl⟩

/-! ### C76 -/

/-- What XEdDSA guarantees: the public key derived from a seed is the one derived from the private key of this seed. -/
def Spec.Coherent (x : XEdDSA) : Prop := ∀ s, x.privToPub (x.seedToPriv s) = x.seedToPub s

/-- C76: `as_priv` returns a private key for the same public key; a private key is returned as it is. -/
theorem C76 (x : XEdDSA) (hx : Spec.Coherent x) (kp : IdentityKeyPair) :
    (kp.asPriv x).identityKey x = kp.identityKey x ∧ ∃ p, kp.asPriv x = .priv p ∧ match kp with
      | .seed s => p = x.seedToPriv s
      | .priv p0 => p = p0 := by
  cases kp with
  | seed s => exact ⟨hx s, _, rfl, rfl⟩
  | priv p => exact ⟨rfl, _, rfl, rfl⟩

theorem C76_example : let x : XEdDSA := ⟨fun s => 1 :: s, fun s => 2 :: 1 :: s, fun p => 2 :: p⟩
    Spec.Coherent x ∧ (IdentityKeyPair.seed [5]).asPriv x = .priv [1, 5] ∧ (IdentityKeyPair.priv [1, 5]).asPriv x = .priv [1, 5] ∧
    ((IdentityKeyPair.seed [5]).asPriv x).identityKey x = [2, 1, 5] := ⟨fun _ => rfl, rfl, rfl, rfl⟩

end Verif
