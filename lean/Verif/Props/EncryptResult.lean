import Verif.Proofs.EncryptResult
import Verif.Props.Encrypt
/-
`encrypt`: undecided devices, what is returned, what is stored (C28, C29, C32, C33, C34, C35).
-/
namespace Verif
open Spec SM

/-! ### C28 -/

theorem SM.Decided.lastEval {M : Mgr} {devices out : List DeviceInfo} {i : Option String} {u t h tm : List Ev} {v1 v2 : DeviceInfo → TrustLevel}
    (hd : Decided M devices i t out h v1 v2 tm) {d : DeviceInfo} (hm : d ∈ out) : LastEval (u ++ t) d (v2 d) := by
  have := lastEval_of_evals (v := v2) (u := u ++ (evals (M.O.iter devices) v1 ++ tm)) (w := [])
    (((M.O.perm out).map addr).nodup_iff.2 hd.nodup) ((M.O.mem_iter).2 hm) (by simp)
  rw [hd.trace]
  simpa using this

/-- C28, first half: when `encrypt` raises `StillUndecided`, and nothing it called raised that, then nothing was encrypted and no session
was built or stored, and the last evaluation of some device said undecided. -/
theorem C28_raised (M : Mgr) (jids : List Jid) (pt : Dict Ns Bytes) (prio : Option (List Ns)) (i : Option String) (t : List Ev)
    (hdec : CallbackQuiet M.decide) (he : Exec (encrypt M jids pt prio i) t (.raised .stillUndecided)) (hb : BackendsOnce t)
    (hno : ¬ ErrIn t .stillUndecided) (hcb : ∀ ds td, Exec (M.decide ds i) td (.raised .stillUndecided) → ErrIn td .stillUndecided) :
    (∀ e ∈ t, Op.encrypts e.1 = false) ∧ ∃ dev, LastEval t dev .undecided := by
  have main : ∀ r, EncRun M jids pt prio i t r → r = .raised .stillUndecided →
      (∀ e ∈ t, Op.encrypts e.1 = false) ∧ ∃ dev, LastEval t dev .undecided := by
    intro r hr hs
    have hx : ∀ {x : Option Exn}, (early x : Res Exn (Dict Message PlainKM × List EncError)) = .raised .stillUndecided →
        x = some .stillUndecided := by
      rintro (_ | x) h <;> cases h; rfl
    have hsp : special .stillUndecided := .inl rfl
    have up : ∀ {A B : List Ev} {y}, (∀ e ∈ A, e ∈ B) → ErrIn A y → ErrIn B y := fun h ⟨e, h1, h2⟩ => ⟨e, h e h1, h2⟩
    have ev : ∀ {A B : List Ev} {y}, (∀ e ∈ A, e ∈ B) → (∃ dev, (⟨.evalTrust dev, .error y⟩ : Ev) ∈ A) → ErrIn B y :=
      fun h ⟨dev, h1⟩ => ⟨_, h _ h1, rfl⟩
    cases hr with
    | prep _ h => exact absurd (h _ (hx hs) hsp) hno
    | decide hp hd =>
      refine ⟨quiet_append hp.no_encrypts (hd.no_encrypts hdec), ?_⟩
      have hx' := hx hs
      cases hd with
      | first _ h => exact absurd (ev (by simp; grind) (h _ hx')) hno
      | ask h =>
        exfalso
        obtain ⟨_, td, tl, r, rfl, hex, _, h⟩ := h
        rcases h _ hx' with rfl | ⟨j, ik, h | h⟩
        · exact hno (up (by simp; grind) (hcb _ _ hex))
        · exact hno ⟨_, List.mem_append_right _ (List.mem_append_right _ (List.mem_append_right _ h)), rfl⟩
        · cases h.1
      | second _ _ _ _ h => exact absurd (ev (by simp; grind) (h _ hx')) hno
      | still hd hu =>
        obtain ⟨d, hd1, hd2⟩ := hu
        refine ⟨d, ?_⟩
        rw [← hd2]
        exact hd.lastEval hd1
    | third _ _ _ h => exact absurd (ev (by simp; grind) (h _ (hx hs))) hno
    | loop _ _ _ _ h => exact absurd (up (by simp; grind) (h _ (hx hs) hsp)) hno
    | missing => cases hs
    | store _ _ _ _ _ _ h => exact absurd (up (by simp; grind) (h _ (hx hs))) hno
    | done => cases hs
  exact main _ (encrypt_run hdec jids pt prio i he hb) rfl

/-- C28, second half: if the trust evaluation of the application is a function of the device information during the call, and the last
evaluation of some device said undecided, then nothing was encrypted and no session was built or stored, and `encrypt` raises
`StillUndecided`, unless an evaluation, the trust decision callback or the loading of a trust level raised something else, or the process
died. -/
theorem C28_undecided_blocks (M : Mgr) (jids : List Jid) (pt : Dict Ns Bytes) (prio : Option (List Ns)) (i : Option String) (t : List Ev)
    (r : Res Exn (Dict Message PlainKM × List EncError)) (hdec : CallbackQuiet M.decide) (he : Exec (encrypt M jids pt prio i) t r)
    (hb : BackendsOnce t)
    (hfun : ∀ dev l l', (⟨.evalTrust dev, .ok l⟩ : Ev) ∈ t → (⟨.evalTrust dev, .ok l'⟩ : Ev) ∈ t → l = l')
    (dev : DeviceInfo) (hu : LastEval t dev .undecided) :
    (∀ e ∈ t, Op.encrypts e.1 = false) ∧ (r = .crashed ∨ r = .raised .stillUndecided ∨ ∃ y, r = .raised y ∧
      ((∃ dev', (⟨.evalTrust dev', .error y⟩ : Ev) ∈ t) ∨ (∃ ds u td v, t = u ++ td ++ v ∧ Exec (M.decide ds i) td (.raised y)) ∨ TrustLoadFailed t y)) := by
  have hx : ∀ {x : Option Exn}, (early x : Res Exn (Dict Message PlainKM × List EncError)) = .crashed ∨ ∃ y, x = some y ∧
      (early x : Res Exn (Dict Message PlainKM × List EncError)) = .raised y := by
    rintro (_ | x)
    · exact .inl rfl
    · exact .inr ⟨x, rfl, rfl⟩
  have hmem : (⟨.evalTrust dev, .ok .undecided⟩ : Ev) ∈ t := by
    obtain ⟨u, v, rfl, _⟩ := hu
    simp
  -- once a round without undecided devices is complete, no device is undecided
  have late : ∀ {t1 t2 w order devices cache infos out v1 v2 tm}, Prep M jids prio t1 order devices cache infos →
      Agreed M devices i t1 t2 out v1 v2 tm → t = t1 ++ t2 ++ w → (∀ e ∈ w, ∀ d, e.1 = .evalTrust d → d ∈ out) → False := by
    intro t1 t2 w order devices cache infos out v1 v2 tm hp ha ht hw
    obtain ⟨⟨h0, _, hd⟩, hnone⟩ := ha
    have h2 := hd.trace
    subst h2
    have inB : ∀ d ∈ out, (⟨.evalTrust d, .ok (v2 d)⟩ : Ev) ∈ evals (M.O.iter out) v2 ++ w := fun d hd =>
      List.mem_append_left _ (mem_evals.2 ⟨d, by simpa using hd, rfl⟩)
    have inT : ∀ d ∈ out, (⟨.evalTrust d, .ok (v2 d)⟩ : Ev) ∈ t := fun d hd => by
      have := inB d hd
      rw [ht]
      rcases List.mem_append.1 this with h | h <;> simp [h]
    have contra : dev ∈ out → False := fun h => hnone dev h (hfun dev _ _ (inT dev h) hmem)
    obtain ⟨u, v, hu1, hlast⟩ := hu
    have ht' : (t1 ++ (evals (M.O.iter devices) v1 ++ tm)) ++ (evals (M.O.iter out) v2 ++ w) = u ++ ⟨.evalTrust dev, .ok .undecided⟩ :: v := by
      rw [← hu1, ht]; simp
    rcases split_cases ht' with h | ⟨h, hB⟩
    · rcases List.mem_append.1 h with h | h
      · obtain ⟨d, hd', h⟩ := mem_evals.1 h
        injection h with h _
        cases h
        exact contra (by simpa using hd')
      · exact contra (hw _ h dev rfl)
    · rcases List.mem_append.1 h with h | h
      · exact not_eval_of_quiet (hp.quiet _ h) dev rfl
      · rcases List.mem_append.1 h with h | h
        · obtain ⟨d, hd', h⟩ := mem_evals.1 h
          injection h with h _
          cases h
          have : addr dev ∈ out.map addr := (hd.addrs _).2 (List.mem_map_of_mem (by simpa using hd'))
          obtain ⟨d, hd1, hd2⟩ := List.mem_map.1 this
          simp only [addr, Prod.mk.injEq] at hd2
          exact hlast _ (hB _ (inB d hd1)) d hd2.1 hd2.2 rfl
        · exact (asked_quiet hdec hd.asked _ h).2 dev rfl
  have lateEvals : ∀ {out : List DeviceInfo} {v3 w}, (∀ e ∈ w, ∀ d, e.1 ≠ .evalTrust d) →
      ∀ e ∈ evals (M.O.iter out) v3 ++ w, ∀ d, e.1 = .evalTrust d → d ∈ out := by
    intro out v3 w hw e he d hd
    rcases List.mem_append.1 he with he | he
    · obtain ⟨d', h1, rfl⟩ := mem_evals.1 he
      cases hd
      simpa using h1
    · exact absurd hd (hw e he d)
  have sends : ∀ {o : Op} (d), Op.sends o = true → o ≠ .evalTrust d := fun d h hc => by rw [hc] at h; cases h
  have hrun := encrypt_run hdec jids pt prio i he hb
  clear he hb
  cases hrun with
  | prep hq _ => exact absurd rfl (not_eval_of_quiet (hq _ hmem) dev)
  | @decide _ _ _ _ _ _ x hp hd =>
    refine ⟨quiet_append hp.no_encrypts (hd.no_encrypts hdec), ?_⟩
    rcases hx (x := x) with h | ⟨y, rfl, h⟩
    · exact .inl h
    · right
      cases hd with
      | first _ h' =>
        obtain ⟨d, hd⟩ := h' _ rfl
        exact .inr ⟨y, h, .inl ⟨d, by simp [hd]⟩⟩
      | ask h' =>
        obtain ⟨_, td, tl, r, rfl, hex, _, h'⟩ := h'
        rcases h' _ rfl with rfl | ⟨j, ik, h' | h'⟩
        · exact .inr ⟨y, h, .inr (.inl ⟨_, _, td, tl, by rw [← List.append_assoc, ← List.append_assoc], hex⟩)⟩
        · exact .inr ⟨y, h, .inr (.inr ⟨j, ik, .inl (by simp [h'])⟩)⟩
        · obtain ⟨h1, v, h2⟩ := h'
          exact .inr ⟨y, h, .inr (.inr ⟨j, ik, .inr ⟨h1, v, by simp [h2]⟩⟩)⟩
      | second _ _ _ _ h' =>
        obtain ⟨d, hd⟩ := h' _ rfl
        exact .inr ⟨y, h, .inl ⟨d, by simp [hd]⟩⟩
      | still => exact .inl h
  | third hp ha ht _ =>
    exact absurd (late hp ha rfl fun e he d hd => by
      obtain ⟨d', h1, h2⟩ := ht e he
      rw [h2] at hd
      cases hd
      exact h1) id
  | loop hp ha ht _ _ =>
    refine absurd (late hp ha (List.append_assoc ..) (lateEvals fun e he d hd => ?_)) id
    have := ht e he
    rw [hd] at this
    cases this
  | missing hp ha ht _ _ =>
    refine absurd (late hp ha (List.append_assoc ..) (lateEvals fun e he d hd => ?_)) id
    rcases List.mem_cons.1 he with rfl | he
    · cases hd
    · exact sends d (ht e he) hd
  | store hp ha ht _ _ h5 _ =>
    refine absurd (late hp ha (by rw [List.append_assoc, List.append_assoc]) (lateEvals fun e he d hd => ?_)) id
    rcases List.mem_append.1 he with he | he
    · rcases List.mem_cons.1 he with rfl | he
      · cases hd
      · exact sends d (ht e he) hd
    · obtain ⟨_, _, _, h⟩ := h5 e he
      rw [hd] at h
      cases h
  | done hp ha ht _ _ =>
    refine absurd (late hp ha (by rw [List.append_assoc, List.append_assoc]) (lateEvals fun e he d hd => ?_)) id
    rcases List.mem_append.1 he with he | he
    · rcases List.mem_cons.1 he with rfl | he
      · cases hd
      · exact sends d (ht e he) hd
    · obtain ⟨p, _, rfl⟩ := List.mem_map.1 he
      cases hd

/-- The example world without a trust level for the key of the own device 2. -/
def World.unsure : World := { World.chat with disk := World.chat.disk.upd (.trust "me" [2]) none }
def unsureRun := runProg (Lib.env polite) Lib.next 100 (encrypt Mgr.ex ["a"] [("n", [1]), ("o", [1, 2])] none none) World.unsure

/-- Two devices could get the message, the third one is undecided and blocks it. -/
theorem unsure_exec : Exec (encrypt Mgr.ex ["a"] [("n", [1]), ("o", [1, 2])] none none) unsureRun.1 (.raised .stillUndecided) :=
  runProg_exec (Lib.env polite) Lib.next 100 _ World.unsure
theorem unsure_eval : unsureRun.1.any (fun e => match e with
    | ⟨.evalTrust dev, .ok .undecided⟩ => decide (dev.bareJid = "me" ∧ dev.deviceId = 2) | _ => false) = true := by decide +kernel
theorem unsure_no_error : unsureRun.1.all (fun e => match e.2 with | .ok _ => true | .error _ => false) = true := by decide +kernel

theorem lib_once {w w' : World} {t : List Ev} (hr : Lib.Runs w t w') (hw : w.backends.Nodup)
    (hset : t.all (fun e => match e.1 with | .setBackends _ => false | _ => true) = true) : BackendsOnce t ∧ BackendsStay t := by
  have : ∀ bs, (⟨.getBackends, .ok bs⟩ : Ev) ∈ t → bs = w.backends := by
    refine lib_backends hr ?_
    rw [List.all_eq_true] at hset
    intro e he bs hb
    have := hset e he
    rw [hb] at this
    cases this
  exact ⟨fun bs h => by rw [this bs h]; exact hw, fun bs bs' h h' => by rw [this bs h, this bs' h']⟩

theorem unsure_once : BackendsOnce unsureRun.1 :=
  (lib_once (runProg_runs Lib (Lib.env polite) (Lib.env_ok polite polite_ok) 100 _ World.unsure) (by decide) (by decide +kernel)).1

theorem no_err_of_all {t : List Ev} (h : t.all (fun e => match e.2 with | .ok _ => true | .error _ => false) = true) (y : Exn) : ¬ ErrIn t y := by
  rw [List.all_eq_true] at h
  rintro ⟨e, he, h1⟩
  have := h e he
  rw [h1] at this
  cases this

example : ∃ dev, LastEval unsureRun.1 dev .undecided :=
  (C28_raised _ _ _ _ _ _ Mgr.ex_quiet unsure_exec unsure_once (no_err_of_all unsure_no_error _) (fun _ _ h => by cases h)).2

/-! ### C29 -/

namespace SM
/-- `encrypt` up to the call of the trust decision callback. -/
def beforeAsk (M : Mgr) (jids : List Jid) (prio : Option (List Ns)) : P (List DeviceInfo × List Bundle × List DeviceInfo) := do
  let available ← call .getBackends
  let order ← liftE (effectiveOrder available prio)
  let x ← recipientDevices M order (setUnion jids [M.ownJid])
  let undecided ← devicesWithTrust .undecided (M.O.iter x.1)
  pure (x.1, x.2, undecided)

/-- `encrypt` after it. -/
def afterAsk (M : Mgr) (jids : List Jid) (pt : Dict Ns Bytes) (cache : List Bundle) (devices : List DeviceInfo) :
    P (Dict Message PlainKM × List EncError) := do
  let stillUndecided ← devicesWithTrust .undecided (M.O.iter devices)
  let devices ← (if stillUndecided.length > 0 then throwE .stillUndecided else pure devices)
  encryptTrusted M (setUnion jids [M.ownJid]) cache pt devices

theorem bind_assoc' {S : Sig} {E α β γ : Type} (p : Prog S E α) (f : α → Prog S E β) (g : β → Prog S E γ) :
    Prog.bind (Prog.bind p f) g = Prog.bind p fun a => Prog.bind (f a) g := by
  induction p with
  | ret => rfl
  | raise => rfl
  | op o k ih => simp only [Prog.bind, ih]

theorem encrypt_split (M : Mgr) (jids : List Jid) (pt : Dict Ns Bytes) (prio : Option (List Ns)) (i : Option String) :
    encrypt M jids pt prio i = Prog.bind (beforeAsk M jids prio) fun x =>
      Prog.bind (askTrust M x.1 x.2.2 i) fun devices => afterAsk M jids pt x.2.1 devices := by
  unfold encrypt beforeAsk afterAsk decideTrust
  simp only [Bind.bind, bind_assoc']
  rfl

theorem trace_beforeAsk {φ : Ev → Prop} (M : Mgr) (jids : List Jid) (prio : Option (List Ns)) :
    wp (Rec φ) (beforeAsk M jids prio) (ends (fun x h => x.2.2.Nodup ∧ (∀ dev, dev ∈ x.2.2 ↔ (⟨.evalTrust dev, .ok .undecided⟩ : Ev) ∈ h) ∧
      ∀ dev ∈ x.1, ∃ l, (⟨.evalTrust dev, .ok l⟩ : Ev) ∈ h) fun _ _ => True) [] := by
  unfold beforeAsk
  rw [ends_bind]
  refine Rec.call trivial (fun bs _ => ?_) fun _ _ => trivial
  rw [ends_bind]
  cases ho : effectiveOrder bs prio with
  | error e => trivial
  | ok order =>
    show wp _ (recipientDevices M order (setUnion jids [M.ownJid]) >>= fun x => _) _ _
    rw [ends_bind]
    refine wp_mono (wp_and (Rec.ops (ops_recipients (M := M) order (setUnion jids [M.ownJid])))
      (trace_recipientDevices order (setUnion jids [M.ownJid]) (nodup_dedup _))) ?_
    rintro r h' ⟨⟨t0, rfl, hq⟩, h2⟩
    cases r with
    | crashed => trivial
    | raised => trivial
    | ok x =>
      obtain ⟨_, infos, hri⟩ := h2
      show wp _ (devicesWithTrust .undecided (M.O.iter x.1) >>= fun u => _) _ _
      rw [ends_bind]
      have hn : (M.O.iter x.1).Nodup := by simpa using nodup_of_map hri.addrs
      refine ends_mono (trace_devicesWithTrust .undecided _ hn) ?_ fun _ _ _ => trivial
      rintro _ _ ⟨v, rfl, rfl⟩
      refine ⟨hn.sublist List.filter_sublist, fun dev => ?_, fun dev hd =>
        ⟨_, List.mem_append_right _ (mem_evals.2 ⟨dev, by simpa using hd, rfl⟩)⟩⟩
      constructor
      · intro hd
        obtain ⟨h1, h2⟩ := List.mem_filter.1 hd
        refine List.mem_append_right _ (mem_evals.2 ⟨dev, h1, ?_⟩)
        simp only [decide_eq_true_eq] at h2
        rw [h2]
      · intro hd
        rcases List.mem_append.1 hd with hd | hd
        · exfalso
          simp only [List.nil_append, List.singleton_append, List.mem_cons] at hd
          rcases hd with hd | hd
          · cases hd
          · exact not_eval_of_quiet (hq _ hd) dev rfl
        · obtain ⟨d, h1, h2⟩ := mem_evals.1 hd
          injection h2 with h2 h3
          cases h2
          refine List.mem_filter.2 ⟨h1, ?_⟩
          simp only [Except.ok.injEq] at h3
          simp [← h3]

/-- No other devices are evaluated later. -/
theorem ops_afterAsk (M : Mgr) (jids : List Jid) (pt : Dict Ns Bytes) (cache : List Bundle) (devices : List DeviceInfo) :
    AllOps (S := LibSig) (fun o => ∀ dev, o = .evalTrust dev → dev ∈ devices) (afterAsk M jids pt cache devices) := by
  have hw : ∀ level, AllOps (S := LibSig) (fun o => ∀ dev, o = .evalTrust dev → dev ∈ devices) (devicesWithTrust level (M.O.iter devices)) := fun level =>
    .filterAll fun d hd => .bind (.perform fun dev h => by cases h; simpa using hd) fun _ => .ret _
  unfold afterAsk
  refine .bind (hw _) fun su => ?_
  split
  · trivial
  show AllOps (S := LibSig) _ (encryptTrusted ..)
  unfold encryptTrusted encryptBackend encryptDevice encryptForDevice bundleFor
  lib_ops [hw]
  all_goals contradiction

theorem raises_beforeAsk (M : Mgr) (jids : List Jid) (prio : Option (List Ns)) :
    Raises (S := LibSig) (fun _ e => e ≠ .stillUndecided) (· ≠ .stillUndecided) (beforeAsk M jids prio) := by
  have hb : Basic (· ≠ Exn.stillUndecided) := basic_of_special (.inl rfl)
  unfold beforeAsk devicesWithTrust
  refine .bind (.perform fun _ h => h) fun bs => .bind (raises_liftE fun e he => ?_) fun order =>
    .bind (raises_recipientDevices hb.toCore (fun _ _ h => h) ..) fun x => .bind (.filterAll fun d _ => .bind (.perform fun _ h => h) fun _ => .pure _) fun _ => .pure _
  unfold effectiveOrder at he
  split at he
  · cases he
  · split at he <;> cases he
    nofun
end SM

/-- C29: the trust decision callback is called at most once, and exactly if some device evaluated to undecided; it gets exactly the set
of these devices, and the given identifier.  In the first case it is not called: the same interactions happen with any other callback,
because each device that is evaluated at all was evaluated as something else up to the point of the call, or because the process ended before this point.  In the second
case it is called once: any other callback that is called with the same arguments and returns leads to the same other interactions. -/
theorem C29_bulk (M : Mgr) (jids : List Jid) (pt : Dict Ns Bytes) (prio : Option (List Ns)) (i : Option String) (t : List Ev)
    (r : Res Exn (Dict Message PlainKM × List EncError)) (he : Exec (encrypt M jids pt prio i) t r) :
    ((∀ decide', Exec (encrypt { M with decide := decide' } jids pt prio i) t r) ∧
      ((∃ u w, t = u ++ w ∧ (∀ dev, (⟨.evalTrust dev, .ok .undecided⟩ : Ev) ∉ u) ∧
            ∀ dev a, (⟨.evalTrust dev, a⟩ : Ev) ∈ w → ∃ l, (⟨.evalTrust dev, .ok l⟩ : Ev) ∈ u) ∨
        r = .crashed ∨ ∃ y, r = .raised y ∧ (y = .stillUndecided → ErrIn t y))) ∨
    ∃ ds u td w r', t = u ++ td ++ w ∧ Exec (M.decide ds i) td r' ∧ ds ≠ [] ∧ ds.Nodup ∧
      (∀ dev, dev ∈ ds ↔ (⟨.evalTrust dev, .ok .undecided⟩ : Ev) ∈ u) ∧
      ((r' = .ok () ∧ ∀ decide' td', Exec (decide' ds i) td' (.ok ()) →
          Exec (encrypt { M with decide := decide' } jids pt prio i) (u ++ td' ++ w) r) ∨
        (w = [] ∧ (r' = .crashed ∧ r = .crashed ∨ ∃ y, r' = .raised y ∧ r = .raised y))) := by
  rw [encrypt_split, exec_bind_iff] at he
  have same : ∀ decide', beforeAsk { M with decide := decide' } jids prio = beforeAsk M jids prio := fun _ => rfl
  have same' : ∀ decide' cache devices, afterAsk { M with decide := decide' } jids pt cache devices = afterAsk M jids pt cache devices :=
    fun _ _ _ => rfl
  rcases he with ⟨u, x, w, rfl, h1, h2⟩ | ⟨e, h1, rfl⟩ | ⟨h1, rfl⟩
  · obtain ⟨hnd, hund, hev⟩ := Rec.sound (trace_beforeAsk (φ := fun _ => True) M jids prio) h1 fun _ _ => trivial
    simp only [List.nil_append] at hund hev
    rw [exec_bind_iff] at h2
    by_cases hl : x.2.2.length > 0
    · right
      have hne : x.2.2 ≠ [] := List.length_pos_iff.1 hl
      have ask : ∀ decide', askTrust { M with decide := decide' } x.1 x.2.2 i = Prog.bind (decide' x.2.2 i) fun _ =>
          Prog.bind (Prog.mapAll (M.O.iter x.1) (reloadTrust M)) fun ds => pure (dedup ds) := by
        intro decide'
        unfold askTrust
        rw [if_pos hl]
        rfl
      have askM : askTrust M x.1 x.2.2 i = _ := ask M.decide
      rw [askM] at h2
      have put : ∀ {td w}, (∃ r0, Exec (M.decide x.2.2 i) td r0 ∧
          ((r0 = .ok () ∧ Exec (Prog.bind (Prog.bind (Prog.mapAll (M.O.iter x.1) (reloadTrust M)) fun ds => pure (dedup ds))
              fun devices => afterAsk M jids pt x.2.1 devices) w r) ∨
            (w = [] ∧ (r0 = .crashed ∧ r = .crashed ∨ ∃ y, r0 = .raised y ∧ r = .raised y)))) →
          ∃ ds u' td' w' r', u ++ (td ++ w) = u' ++ td' ++ w' ∧ Exec (M.decide ds i) td' r' ∧ ds ≠ [] ∧ ds.Nodup ∧
            (∀ dev, dev ∈ ds ↔ (⟨.evalTrust dev, .ok .undecided⟩ : Ev) ∈ u') ∧
            ((r' = .ok () ∧ ∀ decide' td', Exec (decide' ds i) td' (.ok ()) →
                Exec (encrypt { M with decide := decide' } jids pt prio i) (u' ++ td' ++ w') r) ∨
              (w' = [] ∧ (r' = .crashed ∧ r = .crashed ∨ ∃ y, r' = .raised y ∧ r = .raised y))) := by
        rintro td w ⟨r0, h3, h4⟩
        refine ⟨x.2.2, u, td, w, r0, by simp, h3, hne, hnd, hund, ?_⟩
        rcases h4 with ⟨rfl, h4⟩ | h4
        · refine .inl ⟨rfl, fun decide' td' h5 => ?_⟩
          rw [encrypt_split, exec_bind_iff]
          refine .inl ⟨u, x, td' ++ w, by simp, h1, ?_⟩
          rw [ask, bind_assoc', exec_bind_iff]
          exact .inl ⟨td', (), w, rfl, h5, h4⟩
        · exact .inr h4
      have h2' : Exec (Prog.bind (Prog.bind (M.decide x.2.2 i) fun _ => Prog.bind (Prog.mapAll (M.O.iter x.1) (reloadTrust M))
          fun ds => pure (dedup ds)) fun devices => afterAsk M jids pt x.2.1 devices) w r := exec_bind_iff.2 h2
      rw [bind_assoc', exec_bind_iff] at h2'
      rcases h2' with ⟨td, _, w', rfl, h3, h4⟩ | ⟨y, h3, rfl⟩ | ⟨h3, rfl⟩
      · exact put ⟨_, h3, .inl ⟨rfl, h4⟩⟩
      · have := put (td := w) (w := []) ⟨_, h3, .inr ⟨rfl, .inr ⟨y, rfl, rfl⟩⟩⟩
        simpa using this
      · have := put (td := w) (w := []) ⟨_, h3, .inr ⟨rfl, .inl ⟨rfl, rfl⟩⟩⟩
        simpa using this
    · left
      have ask : ∀ decide', askTrust { M with decide := decide' } x.1 x.2.2 i = askTrust M x.1 x.2.2 i := by
        intro decide'
        unfold askTrust
        rw [if_neg hl, if_neg hl]
      refine ⟨fun decide' => ?_, .inl ⟨u, w, rfl, fun dev hd => ?_, fun dev a hd => ?_⟩⟩
      · rw [encrypt_split, exec_bind_iff]
        refine .inl ⟨u, x, w, rfl, h1, ?_⟩
        rw [exec_bind_iff, ask]
        exact h2
      · exact hl (List.length_pos_of_mem ((hund dev).2 hd))
      · have ha : askTrust M x.1 x.2.2 i = pure x.1 := by unfold askTrust; rw [if_neg hl]
        rw [← exec_bind_iff, ha] at h2
        exact hev dev ((ops_afterAsk M jids pt x.2.1 x.1).exec h2 _ hd dev rfl)
  · left
    refine ⟨fun decide' => ?_, .inr (.inr ⟨e, rfl, ?_⟩)⟩
    · rw [encrypt_split, exec_bind_iff]
      exact .inr (.inl ⟨e, h1, rfl⟩)
    · rintro rfl
      apply Classical.byContradiction
      intro hno
      exact (raises_beforeAsk M jids prio).exec h1 (fun x hx z hz hzy => hno ⟨x, hx, by rw [hz, hzy]⟩) rfl
  · left
    refine ⟨fun decide' => ?_, .inr (.inl rfl)⟩
    rw [encrypt_split, exec_bind_iff]
    exact .inr (.inr ⟨h1, rfl⟩)

/-- A callback that leaves a mark: it stores the number of devices it is asked about. -/
def Mgr.marking : Mgr := { Mgr.ex with decide := fun ds _ => call (.store .ownDeviceId (.int ds.length)) }
def markedRun (w : World) := runProg (Lib.env polite) Lib.next 100 (encrypt Mgr.marking ["a"] [("n", [1]), ("o", [1, 2])] none none) w

/-- The numbers stored. -/
def marks (t : List Ev) : List Int :=
  t.filterMap fun e => match e with | ⟨.store .ownDeviceId (.int n), _⟩ => some n | _ => none

/-- One device is undecided, and the callback is called once, for one device.  If no device is, it is not called, and the message is
sent. -/
theorem C29_example : Exec (encrypt Mgr.marking ["a"] [("n", [1]), ("o", [1, 2])] none none) (markedRun World.unsure).1 (.raised .stillUndecided) ∧
    marks (markedRun World.unsure).1 = [1] ∧
    (∃ r, Exec (encrypt Mgr.marking ["a"] [("n", [1]), ("o", [1, 2])] none none) (markedRun World.chat).1 (.ok r)) ∧
    marks (markedRun World.chat).1 = [] := by
  have hu : Exec (encrypt Mgr.marking ["a"] [("n", [1]), ("o", [1, 2])] none none) (markedRun World.unsure).1 (markedRun World.unsure).2.1 :=
    runProg_exec (Lib.env polite) Lib.next 100 _ World.unsure
  have hr : (match (markedRun World.unsure).2.1 with | .raised .stillUndecided => true | _ => false) = true := by decide +kernel
  refine ⟨?_, by decide +kernel, ?_, by decide +kernel⟩
  · split at hr
    · rename_i h
      rw [← h]
      exact hu
    · cases hr
  have he : Exec (encrypt Mgr.marking ["a"] [("n", [1]), ("o", [1, 2])] none none) (markedRun World.chat).1 (markedRun World.chat).2.1 :=
    runProg_exec (Lib.env polite) Lib.next 100 _ World.chat
  have : (match (markedRun World.chat).2.1 with | .ok _ => true | _ => false) = true := by decide +kernel
  split at this
  · rename_i r hr
    exact ⟨r, by rw [← hr]; exact he⟩
  · cases this

/-! ### C32 -/

theorem SM.effectiveOrder_ok {bs order : List Ns} {prio : Option (List Ns)} (ho : effectiveOrder bs prio = .ok order) :
    order = prio.getD bs ∧ ∀ n ∈ order, n ∈ bs := by
  unfold effectiveOrder at ho
  split at ho
  · cases ho; exact ⟨rfl, fun _ h => h⟩
  · split at ho
    · cases ho
    · rename_i hn
      cases ho
      refine ⟨rfl, fun n hn' => ?_⟩
      apply Classical.byContradiction
      intro hnb
      refine hn (List.length_pos_of_mem (a := n) ?_)
      simp [hn', hnb]

theorem Spec.Addressed.part {t u : List Ev} (h : Addressed t) (hu : ∀ e ∈ u, e ∈ t) : Addressed u :=
  ⟨fun ns j d s hm => h.load ns j d s (hu _ hm), fun ns j d b m s k hm => h.build ns j d b m s k (hu _ hm),
    fun ns s m k s' hm => h.encrypt ns s m k s' (hu _ hm)⟩

namespace SM
open Spec
variable {M : Mgr} {jids : List Jid} {pt : Dict Ns Bytes} {prio : Option (List Ns)} {i : Option String}

theorem trustedOf_nodup {out : List DeviceInfo} {v3 : DeviceInfo → TrustLevel} (hn : (out.map addr).Nodup) :
    ((trustedOf M out v3).map addr).Nodup :=
  (((M.O.perm out).map addr).nodup_iff.2 hn).sublist (List.filter_sublist.map _)

theorem mem_trustedOf {out : List DeviceInfo} {v3 : DeviceInfo → TrustLevel} {dev : DeviceInfo} :
    dev ∈ trustedOf M out v3 ↔ dev ∈ out ∧ v3 dev = .trusted := by
  unfold trustedOf
  simp

theorem sends_not_eval {e : Ev} (h : Op.sends e.1 = true) (dev : DeviceInfo) : e.1 ≠ .evalTrust dev := by
  intro he; rw [he] at h; cases h

/-- All trusted devices have an outcome. -/
theorem Outer.total {t1 t2 t4 order devices cache infos out v1 v2 tm v3 bs st os}
    (hp : Prep M jids prio t1 order devices cache infos) (ha : Agreed M devices i t1 t2 out v1 v2 tm)
    (ho : Outer M pt cache (trustedOf M out v3) bs (t1 ++ t2 ++ evals (M.O.iter out) v3 ++ ⟨.getBackends, .ok bs⟩ :: t4) st os)
    (hs : BackendsStay (t1 ++ t2 ++ evals (M.O.iter out) v3 ++ ⟨.getBackends, .ok bs⟩ :: t4)) {dev : DeviceInfo} (hd : dev ∈ trustedOf M out v3) :
    ∃ o ∈ os, o.dev = dev := by
  obtain ⟨x, _, src, _, _, _, ns, hns, hf⟩ := ha.chosen hp (mem_trustedOf.1 hd).1
  obtain ⟨bs0, t0, rfl, he⟩ := hp.chosen
  have : bs0 = bs := hs bs0 bs (by simp) (by simp)
  subst this
  exact ho.all dev hd ns ((effectiveOrder_ok he).2 ns hf.mem) hns

/-- Who is reached. -/
theorem Outer.reached {trusted : List DeviceInfo} {bs h st os} {cache : List Bundle} (ho : Outer M pt cache trusted bs h st os) (hA : Addressed h)
    (hall : ∀ dev ∈ trusted, ∃ o ∈ os, o.dev = dev) (j : Jid) : (∃ dev ∈ st.devices, dev.bareJid = j) ↔ Reached h j := by
  constructor
  · rintro ⟨dev, hd, rfl⟩
    obtain ⟨hd, hf⟩ := (ho.devices dev).1 hd
    obtain ⟨o, hm, rfl⟩ := hall dev hd
    have hf := hf o hm rfl
    cases hr : o.res with
    | error e => simp [Out.failed, hr] at hf
    | ok ks => exact ⟨_, _, _, _, _, (ho.out o hm).2.2.2.1 ks.1 ks.2 hr⟩
  · rintro ⟨ns, d, m, k, s, hs⟩
    have hg := served_given hs
    rw [ho.given] at hg
    obtain ⟨o, hm, he⟩ := List.mem_filterMap.1 hg
    cases hr : o.res with
    | error e => simp [Out.sess, hr] at he
    | ok ks =>
      have hso := (ho.out o hm).2.2.2.1 ks.1 ks.2 hr
      have : (o.ns, ks.2) = (ns, s) := by
        unfold Out.sess at he
        rw [hr] at he
        injection he
      cases this
      refine ⟨o.dev, (ho.devices _).2 ⟨(ho.out o hm).1, fun o' ho' he' => ?_⟩, ?_⟩
      · have : o' = o := inj_of_nodup_map (f := Out.dev) ho.nodup ho' hm he'
        rw [this]
        simp [Out.failed, hr]
      · rw [← (served_addr hA hso).1.1, (served_addr hA hs).1.1]

end SM

/-- What a successful execution looks like. -/
theorem SM.EncRun.succeeded {M : Mgr} {jids : List Jid} {pt : Dict Ns Bytes} {prio : Option (List Ns)} {i : Option String} {t : List Ev}
    {r : Res Exn (Dict Message PlainKM × List EncError)} {msgs : Dict Message PlainKM} {errs : List EncError}
    (hr : EncRun M jids pt prio i t r) (hs : r = .ok (msgs, errs)) :
    ∃ t1 t2 t4 order devices cache infos out v1 v2 v3 tm bs, ∃ (st : EncAll) (os : List Out),
      t = t1 ++ t2 ++ evals (M.O.iter out) v3 ++ ⟨.getBackends, .ok bs⟩ :: t4 ++
        (M.O.iter st.sessions).map (fun p => ⟨.storeSession p.1 p.2, .ok ()⟩) ∧ msgs = st.messages ∧ errs = st.errors ∧
      Prep M jids prio t1 order devices cache infos ∧ Agreed M devices i t1 t2 out v1 v2 tm ∧ (∀ e ∈ t4, Op.sends e.1 = true) ∧
      Outer M pt cache (trustedOf M out v3) bs (t1 ++ t2 ++ evals (M.O.iter out) v3 ++ ⟨.getBackends, .ok bs⟩ :: t4) st os ∧
      noEligible M st.devices (setUnion jids [M.ownJid]) = [] := by
  cases hr with
  | @prep _ x => cases x <;> cases hs
  | @decide _ _ _ _ _ _ x => cases x <;> cases hs
  | @third _ _ _ _ _ _ _ _ _ _ _ x => cases x <;> cases hs
  | @loop _ _ _ _ _ _ _ _ _ _ _ _ x => cases x <;> cases hs
  | missing => cases hs
  | @store _ _ _ _ _ _ _ _ _ _ _ _ _ _ _ _ x => cases x <;> cases hs
  | done hp ha ht ho hm =>
    cases hs
    exact ⟨_, _, _, _, _, _, _, _, _, _, _, _, _, _, _, rfl, rfl, rfl, hp, ha, ht, ho, hm⟩

/-- C32: when `encrypt` succeeds, then each device whose last evaluation said trusted has exactly one key in exactly one message,
namely that of its selected namespace, and no error, or no key and exactly one error, for the selected namespace; every other device
has neither; and every listed device of the given JIDs and the own one was evaluated, except for this device, devices whose key is not
available, and devices not active for any namespace in the order. -/
theorem C32_served_or_reported (M : Mgr) (jids : List Jid) (pt : Dict Ns Bytes) (prio : Option (List Ns)) (i : Option String) (t : List Ev)
    (msgs : Dict Message PlainKM) (errs : List EncError) (hdec : CallbackQuiet M.decide)
    (he : Exec (encrypt M jids pt prio i) t (.ok (msgs, errs))) (hb : BackendsOnce t) (hs : BackendsStay t) (hA : Addressed t) :
    (∀ dev, LastEval t dev .trusted → ∃ ns, dev.namespaces = [ns] ∧
      (((∃ x ∈ msgs, x.1.ns = ns ∧ (∃ k, keysFor x.1 dev.bareJid dev.deviceId = [k]) ∧
          ∀ x' ∈ msgs, x' ≠ x → keysFor x'.1 dev.bareJid dev.deviceId = []) ∧ errorsFor errs dev.bareJid dev.deviceId = []) ∨
       ((∀ x ∈ msgs, keysFor x.1 dev.bareJid dev.deviceId = []) ∧ ∃ e, errorsFor errs dev.bareJid dev.deviceId = [e] ∧ e.ns = ns))) ∧
    (∀ j d, (∀ dev, dev.bareJid = j → dev.deviceId = d → ¬ LastEval t dev .trusted) →
      (∀ x ∈ msgs, keysFor x.1 j d = []) ∧ errorsFor errs j d = []) ∧
    ∃ bs, t.head? = some ⟨.getBackends, .ok bs⟩ ∧ ∀ j, j ∈ jids ∨ j = M.ownJid → ∃ ids, LoadedIds t j ids ∧ ∀ d ∈ ids,
      (j = M.ownJid ∧ d = M.ownDev) ∨ Keyless t j d ∨
      (∃ l active, Loaded t (.devNamespaces j d) (.ofStrs l) ∧ Loaded t (.devActive j d) (.ofBools active) ∧
        ∀ ns ∈ prio.getD bs, ns ∈ l → active.get ns ≠ some true) ∨
      ∃ dev l, dev.bareJid = j ∧ dev.deviceId = d ∧ LastEval t dev l := by
  obtain ⟨t1, t2, t4, order, devices, cache, infos, out, v1, v2, v3, tm, bs, st, os, rfl, rfl, rfl, hp, ha, ht, ho, _⟩ :=
    (encrypt_run hdec jids pt prio i he hb).succeeded rfl
  have hle : ∀ {dev l}, LastEval (t1 ++ t2 ++ evals (M.O.iter out) v3 ++ ⟨.getBackends, .ok bs⟩ :: t4 ++
      (M.O.iter st.sessions).map fun p => ⟨.storeSession p.1 p.2, .ok ()⟩) dev l ↔ dev ∈ out ∧ v3 dev = l := by
    intro dev l
    rw [List.append_assoc]
    refine lastEval_iff hdec hp ha ?_
    intro e he
    simp only [List.cons_append, List.mem_cons, List.mem_append, List.mem_map] at he
    rcases he with rfl | he | ⟨p, _, rfl⟩
    · nofun
    · exact sends_not_eval (ht e he)
    · nofun
  have hs1 : BackendsStay (t1 ++ t2 ++ evals (M.O.iter out) v3 ++ ⟨.getBackends, .ok bs⟩ :: t4) := fun b b' h h' =>
    hs b b' (List.mem_append_left _ h) (List.mem_append_left _ h')
  have hA1 : Addressed (t1 ++ t2 ++ evals (M.O.iter out) v3 ++ ⟨.getBackends, .ok bs⟩ :: t4) := hA.part fun e h => List.mem_append_left _ h
  have hn := trustedOf_nodup (M := M) (v3 := v3) ha.nodup
  have hin : ∀ e ∈ t1, e ∈ t1 ++ t2 ++ evals (M.O.iter out) v3 ++ ⟨.getBackends, .ok bs⟩ :: t4 ++
      (M.O.iter st.sessions).map fun p => (⟨.storeSession p.1 p.2, .ok ()⟩ : Ev) := fun e he => by
    simp only [List.mem_append]; exact .inl (.inl (.inl (.inl he)))
  refine ⟨fun dev hd => ?_, fun j d hno => ?_, ?_⟩
  · have hd' := mem_trustedOf (M := M).2 (hle.1 hd)
    obtain ⟨o, hm, rfl⟩ := ho.total hp ha hs1 hd'
    exact ⟨o.ns, (ho.out o hm).2.1, ho.one hA1 hn hm⟩
  · refine ho.none hA1 hn fun o hm he => ?_
    simp only [addr, Prod.mk.injEq] at he
    exact hno o.dev he.1 he.2 (hle.2 (mem_trustedOf.1 (ho.out o hm).1))
  · obtain ⟨bs0, t0, rfl, hord⟩ := hp.chosen
    refine ⟨bs0, rfl, fun j hj => ?_⟩
    obtain ⟨x, hx, rfl⟩ := (hp.recipients.asked j).2 (by simpa [setUnion] using hj)
    have hi := hp.recipients.info x hx
    obtain ⟨ids, h1, _, h3⟩ := hi.complete
    refine ⟨ids, h1.mono hin, fun d hd => ?_⟩
    rcases h3 d hd with ⟨dev, hdev, rfl⟩ | hk
    · by_cases hown : x.1 = M.ownJid ∧ dev.deviceId = M.ownDev
      · exact .inl hown
      · right; right
        have hj := hi.bareJid dev hdev
        have hseen := (hi.seen dev hdev).mono hin
        obtain ⟨l, hl1, hl2, _⟩ := hseen.namespaces
        rw [hj] at hl1
        have hact := hseen.active
        rw [hj] at hact
        by_cases hex : ∃ ns ∈ order, ns ∈ dev.namespaces ∧ dev.active.get ns = some true
        · right
          have hc : ∃ ns, FirstActive order dev ns := by
            obtain ⟨_, _, hc⟩ := applyPriority_spec (order := order) (hi.seen dev hdev)
            rcases hc with ⟨_, hc⟩ | ⟨ns, _, hf⟩
            · exact absurd hex hc
            · exact ⟨ns, hf⟩
          obtain ⟨ns, hf⟩ := hc
          have hch := (hp.recipients.devices { dev with namespaces := [ns] }).2 ⟨x, hx, dev, hdev, by rw [hj]; exact hown, ns, hf, rfl⟩
          have : addr dev ∈ out.map addr := (ha.addrs _).2 (List.mem_map.2 ⟨_, hch, rfl⟩)
          obtain ⟨d', hd', he'⟩ := List.mem_map.1 this
          simp only [addr, Prod.mk.injEq] at he'
          exact ⟨d', _, by rw [he'.1, hj], he'.2, hle.2 ⟨hd', rfl⟩⟩
        · left
          refine ⟨l, dev.active, hl1, hact, fun ns h4 h5 h6 => hex ⟨ns, ?_, (hl2 ns).2 ⟨h5, by rw [h6]; rfl⟩, h6⟩⟩
          rw [(effectiveOrder_ok hord).1]
          exact h4
    · exact .inr (.inl (hk.mono hin))

/-- The hypotheses are met by the example run, with two trusted devices and one that is not trusted. -/
example := C32_served_or_reported Mgr.ex ["a"] [("n", [1]), ("o", [1, 2])] none none _ _ _ Mgr.ex_quiet chat_exec chat_once chat_stay chat_addressed

/-! ### C33 -/

/-- `encrypt` came to the point where it misses recipients. -/
def SM.Missed (M : Mgr) (jids : List Jid) (pt : Dict Ns Bytes) (prio : Option (List Ns)) (i : Option String) (js : List Jid) (t : List Ev) : Prop :=
  ∃ t1 t2 t4 order devices cache infos out v1 v2 v3 tm bs st os,
    t = t1 ++ t2 ++ evals (M.O.iter out) v3 ++ ⟨.getBackends, .ok bs⟩ :: t4 ∧ js = noEligible M st.devices (setUnion jids [M.ownJid]) ∧ js ≠ [] ∧
    Prep M jids prio t1 order devices cache infos ∧ Agreed M devices i t1 t2 out v1 v2 tm ∧ (∀ e ∈ t4, Op.sends e.1 = true) ∧
    Outer M pt cache (trustedOf M out v3) bs (t1 ++ t2 ++ evals (M.O.iter out) v3 ++ ⟨.getBackends, .ok bs⟩ :: t4) st os

theorem SM.EncRun.missed {M : Mgr} {jids : List Jid} {pt : Dict Ns Bytes} {prio : Option (List Ns)} {i : Option String} {t : List Ev} {js : List Jid}
    (hr : EncRun M jids pt prio i t (.raised (.noEligibleDevices js))) (hno : ¬ ErrIn t (.noEligibleDevices js))
    (hcb : ∀ ds td, Exec (M.decide ds i) td (.raised (.noEligibleDevices js)) → ErrIn td (.noEligibleDevices js)) :
    Missed M jids pt prio i js t := by
  have main : ∀ r, EncRun M jids pt prio i t r → r = .raised (.noEligibleDevices js) → Missed M jids pt prio i js t := by
    intro r hr hs'
    have hx : ∀ {x : Option Exn}, (early x : Res Exn (Dict Message PlainKM × List EncError)) = .raised (.noEligibleDevices js) →
        x = some (.noEligibleDevices js) := by
      rintro (_ | x) h <;> cases h; rfl
    have hsp : special (.noEligibleDevices js) := .inr ⟨js, rfl⟩
    have up : ∀ {A B : List Ev} {y}, (∀ e ∈ A, e ∈ B) → ErrIn A y → ErrIn B y := fun h ⟨e, h1, h2⟩ => ⟨e, h e h1, h2⟩
    have ev : ∀ {A B : List Ev} {y}, (∀ e ∈ A, e ∈ B) → (∃ dev, (⟨.evalTrust dev, .error y⟩ : Ev) ∈ A) → ErrIn B y :=
      fun h ⟨dev, h1⟩ => ⟨_, h _ h1, rfl⟩
    cases hr with
    | prep _ h => exact absurd (h _ (hx hs') hsp) hno
    | decide hp hd =>
      have hx' := hx hs'
      cases hd with
      | first _ h => exact absurd (ev (by simp; grind) (h _ hx')) hno
      | ask h =>
        exfalso
        obtain ⟨_, td, tl, r, rfl, hex, _, h⟩ := h
        rcases h _ hx' with rfl | ⟨j, ik, h | h⟩
        · exact hno (up (by simp; grind) (hcb _ _ hex))
        · exact hno ⟨_, List.mem_append_right _ (List.mem_append_right _ (List.mem_append_right _ h)), rfl⟩
        · cases h.1
      | second _ _ _ _ h => exact absurd (ev (by simp; grind) (h _ hx')) hno
      | still => cases hx'
    | third _ _ _ h => exact absurd (ev (by simp; grind) (h _ (hx hs'))) hno
    | loop _ _ _ _ h => exact absurd (up (by simp; grind) (h _ (hx hs') hsp)) hno
    | store _ _ _ _ _ _ h => exact absurd (up (by simp; grind) (h _ (hx hs'))) hno
    | done => cases hs'
    | missing hp ha ht ho hm =>
      cases hs'
      exact ⟨_, _, _, _, _, _, _, _, _, _, _, _, _, _, _, rfl, rfl, hm, hp, ha, ht, ho⟩
  exact main _ hr rfl

/-- C33: if `encrypt` raises `NoEligibleDevices`, and nothing it called raised that, then it names exactly the given JIDs other than the
own one without a device that got key material, at least one, and no session was stored. -/
theorem C33_missing (M : Mgr) (jids : List Jid) (pt : Dict Ns Bytes) (prio : Option (List Ns)) (i : Option String) (t : List Ev)
    (js : List Jid) (hdec : CallbackQuiet M.decide)
    (he : Exec (encrypt M jids pt prio i) t (.raised (.noEligibleDevices js))) (hb : BackendsOnce t) (hs : BackendsStay t) (hA : Addressed t)
    (hno : ¬ ErrIn t (.noEligibleDevices js)) (hcb : ∀ ds td, Exec (M.decide ds i) td (.raised (.noEligibleDevices js)) → ErrIn td (.noEligibleDevices js)) :
    js ≠ [] ∧ (∀ j, j ∈ js ↔ j ∈ jids ∧ j ≠ M.ownJid ∧ ¬ Reached t j) ∧ ∀ e ∈ t, Op.storesSession e.1 = false := by
  obtain ⟨t1, t2, t4, order, devices, cache, infos, out, v1, v2, v3, tm, bs, st, os, rfl, rfl, hm, hp, ha, ht, ho⟩ :=
    (encrypt_run hdec jids pt prio i he hb).missed hno hcb
  refine ⟨hm, fun j => ?_, ?_⟩
  · rw [← ho.reached hA (fun dev hd => ho.total hp ha hs hd)]
    simp only [noEligible, mem_setDiff, List.mem_filter, setUnion, mem_dedup, List.mem_append, List.mem_singleton, List.all_eq_true,
      decide_eq_true_eq, not_exists, not_and]
    constructor
    · rintro ⟨⟨h1 | h1, h2⟩, h3⟩
      · exact ⟨h1, h3, h2⟩
      · exact absurd h1 h3
    · rintro ⟨h1, h2, h3⟩
      exact ⟨⟨.inl h1, h3⟩, h2⟩
  · have hq : ∀ {o : Op}, Op.encrypts o = false → Op.storesSession o = false := by
      intro o; cases o <;> simp [Op.encrypts, Op.storesSession]
    intro e hem
    simp only [List.mem_append, List.mem_cons] at hem
    rcases hem with ((hem | hem) | hem) | rfl | hem
    · exact hq (hp.no_encrypts e hem)
    · exact hq (ha.no_encrypts hdec e hem)
    · obtain ⟨d, _, rfl⟩ := mem_evals.1 hem
      rfl
    · rfl
    · have := ht e hem
      revert this
      cases e.1 <;> simp [Op.sends, Op.storesSession]

/-- Encrypting for "a" and "b": nothing is known about "b". -/
def lonelyRun := runProg (Lib.env polite) Lib.next 100 (encrypt Mgr.ex ["a", "b"] [("n", [1]), ("o", [1, 2])] none none) World.chat

theorem lonely_exec : Exec (encrypt Mgr.ex ["a", "b"] [("n", [1]), ("o", [1, 2])] none none) lonelyRun.1 (.raised (.noEligibleDevices ["b"])) :=
  runProg_exec (Lib.env polite) Lib.next 100 _ World.chat

example : ¬ Reached lonelyRun.1 "b" := by
  have h1 := lib_once (runProg_runs Lib (Lib.env polite) (Lib.env_ok polite polite_ok) 100
    (encrypt Mgr.ex ["a", "b"] [("n", [1]), ("o", [1, 2])] none none) World.chat) (by decide) (by decide +kernel)
  have h2 : Addressed lonelyRun.1 := by
    have h := runProg_answers (Lib.env polite) Lib.next 100 (encrypt Mgr.ex ["a", "b"] [("n", [1]), ("o", [1, 2])] none none) World.chat
    exact polite_addressed h
  have := C33_missing _ _ _ _ _ _ _ Mgr.ex_quiet lonely_exec h1.1 h1.2 h2 (no_err_of_all (by decide +kernel) _) (fun _ _ h => by cases h)
  exact ((this.2.1 "b").1 (by simp)).2.2

/-- C33, converse: if `encrypt` succeeds, then every given JID other than the own one has a device that got key material. -/
theorem C33_reached (M : Mgr) (jids : List Jid) (pt : Dict Ns Bytes) (prio : Option (List Ns)) (i : Option String) (t : List Ev)
    (msgs : Dict Message PlainKM) (errs : List EncError) (hdec : CallbackQuiet M.decide)
    (he : Exec (encrypt M jids pt prio i) t (.ok (msgs, errs))) (hb : BackendsOnce t) (hs : BackendsStay t) (hA : Addressed t)
    (j : Jid) (hj : j ∈ jids) (hne : j ≠ M.ownJid) : Reached t j := by
  obtain ⟨t1, t2, t4, order, devices, cache, infos, out, v1, v2, v3, tm, bs, st, os, rfl, rfl, rfl, hp, ha, ht, ho, hm⟩ :=
    (encrypt_run hdec jids pt prio i he hb).succeeded rfl
  have hs1 : BackendsStay (t1 ++ t2 ++ evals (M.O.iter out) v3 ++ ⟨.getBackends, .ok bs⟩ :: t4) := fun b b' h h' =>
    hs b b' (List.mem_append_left _ h) (List.mem_append_left _ h')
  have hA1 : Addressed (t1 ++ t2 ++ evals (M.O.iter out) v3 ++ ⟨.getBackends, .ok bs⟩ :: t4) := hA.part fun e h => List.mem_append_left _ h
  have : Reached (t1 ++ t2 ++ evals (M.O.iter out) v3 ++ ⟨.getBackends, .ok bs⟩ :: t4) j := by
    rw [← ho.reached hA1 (fun dev hd => ho.total hp ha hs1 hd)]
    apply Classical.byContradiction
    intro hc
    have : j ∈ noEligible M st.devices (setUnion jids [M.ownJid]) := by
      simp only [noEligible, mem_setDiff, List.mem_filter, setUnion, mem_dedup, List.mem_append, List.mem_singleton, List.all_eq_true,
        decide_eq_true_eq]
      exact ⟨⟨.inl hj, fun dev hd hdj => hc ⟨dev, hd, hdj⟩⟩, hne⟩
    rw [hm] at this
    cases this
  obtain ⟨ns, d, m, k, s, h1, e, h2, h3, h4, h5⟩ := this
  exact ⟨ns, d, m, k, s, h1, e, h2 ++ (M.O.iter st.sessions).map (fun p => ⟨.storeSession p.1 p.2, .ok ()⟩), by rw [h3]; simp, h4, h5⟩

/-! ### C34 -/

/-- C34: at any point of an execution of `encrypt`, sessions are stored only if nothing is encrypted afterwards. -/
theorem C34_stored_last (M : Mgr) (jids : List Jid) (pt : Dict Ns Bytes) (prio : Option (List Ns)) (i : Option String) (t : List Ev)
    (r : Res Exn (Dict Message PlainKM × List EncError)) (hdec : CallbackQuiet M.decide) (he : Exec (encrypt M jids pt prio i) t r)
    (hb : BackendsOnce t) : ∃ u w, t = u ++ w ∧ (∀ e ∈ u, Op.storesSession e.1 = false) ∧ ∀ e ∈ w, Op.storesSession e.1 = true := by
  rcases (encrypt_run hdec jids pt prio i he hb).phases hdec with hq | ⟨t1, t2, t4, t5, order, devices, cache, infos, out, v1, v2, v3, tm, rfl, hp⟩
  · refine ⟨t, [], by simp, fun e hem => ?_, by simp⟩
    have := hq e hem
    revert this
    cases e.1 <;> simp [Op.encrypts, Op.storesSession]
  · refine ⟨t1 ++ t2 ++ evals (M.O.iter out) v3 ++ t4, t5, rfl, ?_, hp.stores⟩
    have hq : ∀ {o : Op}, Op.encrypts o = false → Op.storesSession o = false := by
      intro o; cases o <;> simp [Op.encrypts, Op.storesSession]
    intro e hem
    simp only [List.mem_append] at hem
    rcases hem with ((hem | hem) | hem) | hem
    · exact hq (hp.prep.no_encrypts e hem)
    · exact hq (hp.agreed.no_encrypts hdec e hem)
    · obtain ⟨d, _, rfl⟩ := mem_evals.1 hem
      rfl
    · have := hp.sends e hem
      revert this
      cases e.1 <;> simp [Op.sendsOrFields, Op.sends, Op.storesSession]

/-- The sessions stored. -/
def Spec.stored (t : List Ev) : List (Ns × Session) :=
  t.filterMap fun
    | ⟨.storeSession ns s, .ok _⟩ => some (ns, s)
    | _ => none

/-- C34, on success: exactly the sessions returned by the backends were stored, once each, and there are as many as keys in the returned
messages. -/
theorem C34_all_stored (M : Mgr) (jids : List Jid) (pt : Dict Ns Bytes) (prio : Option (List Ns)) (i : Option String) (t : List Ev)
    (msgs : Dict Message PlainKM) (errs : List EncError) (hdec : CallbackQuiet M.decide)
    (he : Exec (encrypt M jids pt prio i) t (.ok (msgs, errs))) (hb : BackendsOnce t) (hA : Addressed t) :
    (stored t).Perm (given t) ∧ (stored t).length = (msgs.map fun x => x.1.keys.length).sum := by
  obtain ⟨u, w, hu, h1, h2⟩ := C34_stored_last M jids pt prio i t _ hdec he hb
  obtain ⟨t1, t2, t4, order, devices, cache, infos, out, v1, v2, v3, tm, bs, st, os, rfl, rfl, rfl, hp, ha, ht, ho, hm⟩ :=
    (encrypt_run hdec jids pt prio i he hb).succeeded rfl
  clear hu h1 h2 u w
  have hA1 : Addressed (t1 ++ t2 ++ evals (M.O.iter out) v3 ++ ⟨.getBackends, .ok bs⟩ :: t4) := hA.part fun e h => List.mem_append_left _ h
  have hfl := ho.flat hA1 (trustedOf_nodup (M := M) (v3 := v3) ha.nodup)
  have hg := ho.given
  rw [← ho.sessions] at hg
  have hno : ∀ e ∈ t1 ++ t2 ++ evals (M.O.iter out) v3 ++ (⟨.getBackends, .ok bs⟩ : Ev) :: t4, Op.storesSession e.1 = false := by
    have hq : ∀ {o : Op}, Op.encrypts o = false → Op.storesSession o = false := by
      intro o; cases o <;> simp [Op.encrypts, Op.storesSession]
    intro e hem
    simp only [List.mem_append, List.mem_cons] at hem
    rcases hem with ((hem | hem) | hem) | rfl | hem
    · exact hq (hp.no_encrypts e hem)
    · exact hq (ha.no_encrypts hdec e hem)
    · obtain ⟨d, _, rfl⟩ := mem_evals.1 hem
      rfl
    · rfl
    · have := ht e hem
      revert this
      cases e.1 <;> simp [Op.sends, Op.storesSession]
  generalize t1 ++ t2 ++ evals (M.O.iter out) v3 ++ (⟨.getBackends, .ok bs⟩ : Ev) :: t4 = A at *
  have e1 : stored (A ++ (M.O.iter st.sessions).map fun p => ⟨.storeSession p.1 p.2, .ok ()⟩) = M.O.iter st.sessions := by
    unfold stored
    rw [List.filterMap_append]
    have : A.filterMap (fun | ⟨.storeSession ns s, .ok _⟩ => some (ns, s) | _ => Option.none : Ev → Option (Ns × Session)) = [] := by
      rw [List.filterMap_eq_nil_iff]
      intro e hem
      have := hno e hem
      split
      · cases this
      · rfl
    rw [this, List.filterMap_map]
    simp only [List.nil_append]
    exact List.filterMap_some
  have e2 : given (A ++ (M.O.iter st.sessions).map fun p => ⟨.storeSession p.1 p.2, .ok ()⟩) = st.sessions := by
    rw [given_append, hg]
    have : given ((M.O.iter st.sessions).map fun p => (⟨.storeSession p.1 p.2, .ok ()⟩ : Ev)) = [] := by
      refine given_nil fun e hem => ?_
      obtain ⟨p, _, rfl⟩ := List.mem_map.1 hem
      rfl
    rw [this, List.append_nil]
  rw [e1, e2]
  exact ⟨M.O.perm _, by rw [(M.O.perm _).length_eq, hfl, hg]⟩

example := C34_all_stored Mgr.ex ["a"] [("n", [1]), ("o", [1, 2])] none none _ _ _ Mgr.ex_quiet chat_exec chat_once chat_addressed
/-- Two sessions are stored in the example. -/
example : (chatRun.1.filter fun e => Op.storesSession e.1).length = 2 := by decide +kernel

end Verif
