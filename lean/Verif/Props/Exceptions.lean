import Verif.Proofs.RaisesCalls
import Verif.Proofs.DiskTrace
import Verif.Proofs.Sample
import Verif.Props.Replace
/-
C67, C69: where exceptions come from.
-/
namespace Verif
namespace Spec

/-- The exceptions a method raises for reasons of its own, according to the documentation of the method (session_manager.py; `create`:
lines 337-342). -/
def Documented : Call → Exn → Prop
  | .create .., e => e = .valueError
  | .updateDeviceList .., e | .refreshDeviceList .., e => e = .unknownNamespace
  | .encrypt .., e => e = .unknownNamespace ∨ e = .stillUndecided ∨ ∃ js, e = .noEligibleDevices js
  | .decrypt _, e => e = .unknownNamespace ∨ e = .messageNotForUs ∨ e = .senderNotFound ∨ e = .senderDistrusted ∨ e = .noSession ∨
      e = .publicDataInconsistency
  | _, _ => False

/-- The exceptions for malformed or missing stored data. -/
def BadData (e : Exn) : Prop := e = .nothingException ∨ e = .typeError ∨ e = .valueError

/-- The methods that raise `KeyError`, given their interactions: those that update device lists, if activity information is missing; `encrypt`, if
the plaintext is missing for one of the loaded backends. -/
def LooksUp : Call → List Ev → Prop
  | .create .., _ | .ensureDataConsistency, _ | .refreshDeviceLists _, _ | .updateDeviceList .., _ | .refreshDeviceList .., _ | .decrypt _, _ => True
  | .encrypt _ pt .., t => ∃ bs : List Ns, ⟨.getBackends, .ok bs⟩ ∈ t ∧ ∃ ns ∈ bs, pt.get ns = none
  | _, _ => False

/-- The methods that look for a device and expect to find it. -/
def SearchesDevice : Call → Prop
  | .create .. | .purgeBackend _ | .replaceSessions .. | .getOwnDeviceInformation => True
  | _ => False

/-- The methods that iterate over the loaded backends and update device lists for them. -/
def UpdatesLists : Call → Prop
  | .create .. | .ensureDataConsistency | .refreshDeviceLists _ => True
  | _ => False

/-- Not an exception of the code: the model stopped a loop. -/
def Unfinished : Call → Exn → Prop
  | .create .., e | .rotation .., e => e = .outOfFuel
  | _, _ => False

/-- The trust decision callback fails as documented (session_manager.py:941-943), or because something it calls fails. -/
def CallbackFair (M : Mgr) : Prop :=
  ∀ ds i t e, Exec (M.decide ds i) t (.raised e) → e = .trustDecisionFailed ∨ ErrIn t e

end Spec
open Spec SM

theorem Call.raises {M : Mgr} {c : Call} {ρ : Exn → Prop} {t : List Ev} (h0 : ∀ e, ErrIn t e → ρ e) (hb : Core ρ) (hk : LooksUp c t → ρ .keyError)
    (h1 : ∀ e, Documented c e → ρ e) (h2 : SearchesDevice c → ρ .runtimeError) (h3 : UpdatesLists c → ρ .unknownNamespace)
    (h4 : ∀ e, Unfinished c e → ρ e) (hd : ∀ ds i, Raises (S := LibSig) (fun _ => ErrIn t) ρ (M.decide ds i)) :
    RaisesOn (S := LibSig) (· ∈ t) ρ (c.run M) := by
  have h : ∀ (_ : Op) e, ErrIn t e → ρ e := fun _ => h0
  have hχ : ∀ x, x ∈ t → ∀ e, x.2 = .error e → ErrIn t e := fun x hx e he => ⟨x, hx, he⟩
  cases c with
  | getIdentityKeyPair => exact .of (.bind (raises_identityKeyPair hb h) fun _ => .pure _) hχ
  | create bs l f => exact .of (.bind (raises_create hb h (hk trivial) (h2 trivial) (h4 _ rfl) (h3 trivial) ..) fun _ => .pure _) hχ
  | purgeBackend ns => exact .of (raises_purgeBackend hb h (h2 trivial) ns) hχ
  | purgeBareJid j => exact .of (raises_purgeBareJid hb h j) hχ
  | ensureDataConsistency => exact .of (raises_ensureDataConsistency hb h (hk trivial) (h3 trivial)) hχ
  | rotation p f r => exact .of (raises_manageRotation h (h4 _ rfl) p f r) hχ
  | updateDeviceList ns j dl => exact .of (raises_updateDeviceList hb h (hk trivial) (h1 _ rfl) ns j dl) hχ
  | refreshDeviceList ns j => exact .of (raises_refreshDeviceList hb h (hk trivial) (h1 _ rfl) ns j) hχ
  | refreshDeviceLists j =>
    exact .of (χ' := fun _ => ErrIn t) (.bind (.perform fun _ => h0 _) fun _ => .forEach fun ns _ => raises_refreshDeviceList hb h (hk trivial) (h3 trivial) ns j) hχ
  | setTrust j ik l => exact .of (χ' := fun _ => ErrIn t) (.perform fun _ => h0 _) hχ
  | replaceSessions j d => exact .of (.bind (raises_replaceSessions hb h (h2 trivial) j d) fun _ => .pure _) hχ
  | getSendingChainLength dev => exact .of (.bind (raises_getSendingChainLength h dev) fun _ => .pure _) hχ
  | setOwnLabel l => exact .of (raises_setOwnLabel h l) hχ
  | getDeviceInformation j => exact .of (.bind (raises_getDeviceInformation hb h j) fun _ => .pure _) hχ
  | getOwnDeviceInformation => exact .of (.bind (raises_getOwnDeviceInformation hb h (h2 trivial)) fun _ => .pure _) hχ
  | beforeHistorySync => exact .of (χ' := fun _ => ErrIn t) (.perform fun _ => h0 _) hχ
  | afterHistorySync => exact .of (raises_afterHistorySync hb h) hχ
  | encrypt jids pt prio i =>
    exact .bind (raisesOn_encrypt hb h hχ (fun bs hbs ns hns hn => hk ⟨bs, hbs, ns, hns, hn⟩) (fun _ _ _ _ _ => h1 _ (.inl rfl)) (h1 _ (.inr (.inl rfl)))
      (fun js => h1 _ (.inr (.inr ⟨js, rfl⟩))) hd jids i) fun _ => trivial
  | decrypt msg =>
    exact .of (.bind (raises_decrypt hb h (hk trivial) (h1 _ (.inl rfl)) (h1 _ (.inr (.inl rfl))) (h1 _ (.inr (.inr (.inl rfl))))
      (h1 _ (.inr (.inr (.inr (.inl rfl))))) (h1 _ (.inr (.inr (.inr (.inr (.inl rfl)))))) (h1 _ (.inr (.inr (.inr (.inr (.inr rfl)))))) msg)
      fun _ => .pure _) hχ

/-- C69: every exception that leaves a public method was either raised by something the library called, or is documented for this
method, or reports bad stored data, a plaintext that was not given, a device that could not be found or a backend that was unloaded meanwhile. -/
theorem C69_causes (M : Mgr) (hd : CallbackFair M) (c : Call) (t : List Ev) (e : Exn) (he : Exec (c.run M) t (.raised e)) :
    ErrIn t e ∨ Documented c e ∨ e = .trustDecisionFailed ∨ BadData e ∨ (LooksUp c t ∧ e = .keyError) ∨
      (SearchesDevice c ∧ e = .runtimeError) ∨ (UpdatesLists c ∧ e = .unknownNamespace) ∨ Unfinished c e := by
  let ρ : Exn → Prop := fun e => ErrIn t e ∨ Documented c e ∨ e = .trustDecisionFailed ∨ BadData e ∨ (LooksUp c t ∧ e = .keyError) ∨
      (SearchesDevice c ∧ e = .runtimeError) ∨ (UpdatesLists c ∧ e = .unknownNamespace) ∨ Unfinished c e
  have hb : Core ρ := ⟨.inr (.inr (.inr (.inl (.inl rfl)))), .inr (.inr (.inr (.inl (.inr (.inl rfl))))),
    .inr (.inr (.inr (.inl (.inr (.inr rfl)))))⟩
  refine (Call.raises (M := M) (c := c) (ρ := ρ) (t := t) (fun e h => .inl h) hb
    (fun h => .inr (.inr (.inr (.inr (.inl ⟨h, rfl⟩))))) (fun e h => .inr (.inl h))
    (fun h => .inr (.inr (.inr (.inr (.inr (.inl ⟨h, rfl⟩)))))) (fun h => .inr (.inr (.inr (.inr (.inr (.inr (.inl ⟨h, rfl⟩)))))))
    (fun e h => .inr (.inr (.inr (.inr (.inr (.inr (.inr h)))))))
    fun ds i => .of_exec fun t' e' h' ht' => ?_).exec he fun x hx => hx
  rcases hd ds i t' e' h' with h | ⟨x, hx, hy⟩
  · exact .inr (.inr (.inl h))
  · exact .inl (ht' x hx e' hy)

/-- The callback that decides nothing is fair; a message for somebody else is rejected with a documented exception. -/
theorem Mgr.ex_fair : CallbackFair Mgr.ex := by
  intro ds i t e h
  cases h

example : ∃ t, Exec ((Call.decrypt otherMessage).run Mgr.ex) t (.raised .messageNotForUs) ∧ Documented (.decrypt otherMessage) .messageNotForUs ∧
    ¬ ErrIn t .messageNotForUs := by
  let x := genuineRun ((Call.decrypt otherMessage).run Mgr.ex) World.started
  have h : x.2.1 = .raised .messageNotForUs := by decide +kernel
  have hx := genuineRun_exec ((Call.decrypt otherMessage).run Mgr.ex) World.started
  refine ⟨x.1, h ▸ hx, .inr (.inl rfl), ?_⟩
  have hn : x.1.all (fun e => match e.2 with | .error .messageNotForUs => false | _ => true) = true := by decide +kernel
  rintro ⟨e, he, hy⟩
  have := List.all_eq_true.1 hn e he
  rw [hy] at this
  cases this

/-! ### C67 -/

/-- C67, as stated: in no state that library calls can lead to does a method raise `RuntimeError`. -/
def C67_Claim : Prop :=
  ∀ (cs : List (Mgr × Call)) (w w' : World) (M : Mgr) (c : Call) (t : List Ev), Hist Lib World.fresh cs w → CallbackFair M →
    Exec (c.run M) t (.raised .runtimeError) → ¬ Lib.Runs w t w'

/-- C67 is false of the code: `replace_sessions` for a device that is not known (any more) raises `RuntimeError`. -/
theorem C67_refuted : ¬ C67_Claim := by
  intro h
  have hr : (genuineRun ((Call.replaceSessions "a" 7).run Mgr.ex) World.started).2.1 = .raised .runtimeError := by decide +kernel
  exact h _ _ _ Mgr.ex (.replaceSessions "a" 7) _ World.started_hist Mgr.ex_fair (hr ▸ genuineRun_exec _ _) (genuineRun_runs _ _)

/-- After purging the own JID. -/
def World.selfless : World := (genuineRun ((Call.purgeBareJid "me").run Mgr.ex) World.started).2.2

/-- C67 is also false for the own device: after `purge_bare_jid` of the own JID, `get_own_device_information` raises `RuntimeError`. -/
theorem C67_refuted_own : ∃ cs w w' t, Hist Lib World.fresh cs w ∧ Exec (Call.getOwnDeviceInformation.run Mgr.ex) t (.raised .runtimeError) ∧
    Lib.Runs w t w' := by
  have h1 : Hist Lib World.fresh [(Mgr.ex, .create ["n", "o"] (some "pc") 5), (Mgr.ex, .purgeBareJid "me")] World.selfless := by
    have h := World.started_hist
    cases h with
    | cons he hr hn =>
      cases hn
      exact .cons he hr (.cons (genuineRun_exec _ _) (genuineRun_runs _ _) (.nil _))
  have hr : (genuineRun (Call.getOwnDeviceInformation.run Mgr.ex) World.selfless).2.1 = .raised .runtimeError := by decide +kernel
  exact ⟨_, _, _, _, h1, hr ▸ genuineRun_exec _ _, genuineRun_runs _ _⟩

/-- C67, what holds: apart from the four methods that look for one particular device, no method raises `RuntimeError` unless something it
calls does.  Missing: the four methods, which do raise it. -/
theorem C67_others_partial (M : Mgr) (hd : CallbackFair M) (c : Call) (hc : ¬ SearchesDevice c) (t : List Ev) (w w' : World)
    (hr : Lib.Runs w t w') : ¬ Exec (c.run M) t (.raised .runtimeError) := by
  intro he
  rcases C69_causes M hd c t _ he with ⟨x, hx, hy⟩ | h | h | h | ⟨_, h⟩ | ⟨h, _⟩ | ⟨_, h⟩ | h
  · have := Lib.no_internal hr x hx hy
    cases this
  · cases c <;> simp [Documented] at h
  · cases h
  · rcases h with h | h | h <;> cases h
  · cases h
  · exact hc h
  · cases h
  · cases c <;> simp [Unfinished] at h

/-- A device that is listed and has a stored identity key is returned by device lookups. -/
theorem SM.found {M : Mgr} {jid : Jid} {d : DevId} {t : List Ev} {w w' : World} {devs : List DeviceInfo}
    (he : Exec (getDeviceInformation M jid) t (.ok devs)) (hr : Lib.Runs w t w') (hk : Known w.disk jid d) {ik : Bytes}
    (hik : HasKey w.disk jid d ik) : ∃ dev ∈ devs, dev.deviceId = d := by
  obtain ⟨c, hi⟩ := exec_getDeviceInformation he
  obtain ⟨ids, h1, _, h3⟩ := hi.complete
  obtain ⟨l, hl, hdl⟩ := hk
  have hops := (ops_getDeviceInformation M jid).exec he
  obtain ⟨hc, _⟩ := Lib.load_const (k := .devList jid) hr
    (fun e hm v hv => by have := hops e hm; rw [hv] at this; cases this)
    (fun e hm hv => by have := hops e hm; rw [hv] at this; cases this)
  obtain ⟨hn, _⟩ := Lib.load_present (k := .devIdentityKey jid d) hr
    (fun e hm hv => by have := hops e hm; rw [hv] at this; cases this) (by rw [hik]; nofun)
  have hd : d ∈ ids := by
    rcases h1 with ⟨l', h1, rfl⟩ | ⟨h1, rfl⟩
    · have := hc _ h1
      rw [hl] at this
      cases this
      simpa [JVal.asInt] using hdl
    · have := hc _ h1
      rw [hl] at this
      cases this
  rcases h3 d hd with h | ⟨h | h, _⟩
  · exact h
  · exact absurd h hn
  · have := Lib.load_failure hr h
    cases this

/-- Device lookups do not raise `RuntimeError`. -/
theorem SM.info_no_runtime {M : Mgr} {jid : Jid} {t : List Ev} {w w' : World} (hr : Lib.Runs w t w') :
    ¬ Exec (getDeviceInformation M jid) t (.raised .runtimeError) := fun he =>
  (raises_getDeviceInformation (χ := fun _ e => e ≠ .runtimeError) (ρ := fun e => e ≠ .runtimeError) ⟨nofun, nofun, nofun⟩ (fun _ _ h => h) jid).exec he
    (fun x hx y hy hz => by subst hz; have := Lib.no_internal hr x hx hy; cases this) rfl

theorem Lib.runs_split {w w' : World} {t1 t2 : List Ev} (hr : Lib.Runs w (t1 ++ t2) w') : ∃ w1, Lib.Runs w t1 w1 ∧ Lib.Runs w1 t2 w' := by
  induction t1 generalizing w with
  | nil => exact ⟨w, rfl, hr⟩
  | cons e t1 ih =>
    obtain ⟨h1, h2⟩ := hr
    obtain ⟨w1, h3, h4⟩ := ih h2
    exact ⟨w1, ⟨h1, h3⟩, h4⟩

/-- C67, what holds: `get_own_device_information` does not raise `RuntimeError` as long as the own device is listed with its identity
key. -/
theorem C67_own_partial (M : Mgr) (t : List Ev) (w w' : World) (hr : Lib.Runs w t w') (hk : Known w.disk M.ownJid M.ownDev) (ik : Bytes)
    (hik : HasKey w.disk M.ownJid M.ownDev ik) : ¬ Exec (getOwnDeviceInformation M) t (.raised .runtimeError) := by
  intro he
  replace he := exec_seq.1 he
  rcases he with ⟨t1, devs, t2, rfl, h1, he⟩ | ⟨e, h1, h⟩ | ⟨h1, h⟩
  · obtain ⟨w1, hr1, hr2⟩ := Lib.runs_split hr
    obtain ⟨dev, hm, hd⟩ := found h1 hr1 hk hik
    have : dev ∈ M.O.iter (setDiff devs (devs.filter fun dev => decide (dev.deviceId ≠ M.ownDev))) := by
      refine M.O.mem_iter.2 (List.mem_filter.2 ⟨hm, ?_⟩)
      simp [hd]
    cases hh : (M.O.iter (setDiff devs (devs.filter fun dev => decide (dev.deviceId ≠ M.ownDev)))).head? with
    | none =>
      rw [List.head?_eq_none_iff] at hh
      rw [hh] at this
      cases this
    | some own =>
      dsimp only at he
      rw [hh] at he
      cases he
  · cases h
    exact info_no_runtime hr h1
  · cases h

/-- C67, what holds: `replace_sessions` does not raise `RuntimeError` for listed devices with known identity key. -/
theorem C67_replace_partial (M : Mgr) (jid : Jid) (d : DevId) (t : List Ev) (w w' : World) (hr : Lib.Runs w t w') (hk : Known w.disk jid d)
    (ik : Bytes) (hik : HasKey w.disk jid d ik) : ¬ Exec (replaceSessions M jid d) t (.raised .runtimeError) := by
  intro he
  replace he := exec_seq.1 he
  rcases he with ⟨t1, devs, t2, rfl, h1, he⟩ | ⟨e, h1, h⟩ | ⟨h1, h⟩
  · obtain ⟨w1, hr1, hr2⟩ := Lib.runs_split hr
    obtain ⟨dev, hm, hd⟩ := found h1 hr1 hk hik
    cases hf : (M.O.iter devs).find? fun dev => decide (dev.deviceId = d) with
    | none =>
      have := List.find?_eq_none.1 hf dev (M.O.mem_iter.2 hm)
      simp [hd] at this
    | some dev' =>
      rw [hf] at he
      have hcause : Raises (S := LibSig) (fun _ e => e ≠ .runtimeError) (fun e => e ≠ .runtimeError) (do
          let withSession ← Prog.filterAll (← call .getBackends) fun ns => do
            let s ← call (.loadSession ns dev'.bareJid dev'.deviceId)
            pure (Option.isSome s)
          let namespaces := setInter dev'.namespaces withSession
          Prog.fold (← call .getBackends) ([] : Dict Ns Exn) fun unsuccessful ns => do
            if ns ∈ namespaces then
              Prog.tryElse (replaceSession M dev'.bareJid dev'.deviceId ns)
                (fun e => if e.isOmemo then pure (Dict.set unsuccessful ns e) else throwE e)
                (fun _ => pure unsuccessful)
            else pure unsuccessful : P (Dict Ns Exn)) := by
        refine .bind (.perform fun _ h => h) fun _ =>
          .bind (.filterAll fun _ _ => .bind (.perform fun _ h => h) fun _ => .pure _) fun _ => .bind (.perform fun _ h => h) fun _ => .fold fun _ _ _ => ?_
        split
        · refine .tryElse (ρ' := fun e => e ≠ .runtimeError) ?_ (fun e he => ?_) fun _ => .pure _
          · exact .bind (.perform fun _ h => h) fun _ => .bind (.perform fun _ h => h) fun _ => .bind (.perform fun _ h => h) fun _ =>
              .bind (.perform fun _ h => h) fun _ => .perform fun _ h => h
          · split
            · exact .pure _
            · exact he
        · exact .pure _
      exact hcause.exec he (fun x hx y hy hz => by subst hz; have := Lib.no_internal hr2 x hx hy; cases this) rfl
  · cases h
    exact info_no_runtime hr h1
  · cases h

/-- The own device is listed with its key after `create`. -/
example : Known World.started.disk "me" 1 ∧ HasKey World.started.disk "me" 1 [1, 2, 3] :=
  ⟨⟨[1], rfl, by simp⟩, rfl⟩

/-! ### Examples for C63 and C64 -/

/-- A contact with two backends is known. -/
def World.met : World := { World.chat with backends := ["n", "o", "p"] }

/-- The replacement for backend "n" works, for "o" the message can not be sent, "p" is not supported by the device. -/
def replaceRun := genuineRun (replaceSessions Mgr.ex "a" 7) World.met

example : ∃ t, Exec (replaceSessions Mgr.ex "a" 7) t (.ok [("o", .messageSendingFailed)]) ∧ BackendsOnce t ∧ BackendsStay t ∧
    ∃ s, (⟨.storeSession "n" s, .ok ()⟩ : Ev) ∈ t := by
  have h : replaceRun.2.1 = .ok [("o", .messageSendingFailed)] := by decide +kernel
  have hx := genuineRun_exec (replaceSessions Mgr.ex "a" 7) World.met
  have hrun := genuineRun_runs (replaceSessions Mgr.ex "a" 7) World.met
  have hs : replaceRun.1.any (fun e => match e with | ⟨.storeSession "n" _, .ok _⟩ => true | _ => false) = true := by decide +kernel
  have hset : replaceRun.1.all (fun e => match e with | ⟨.setBackends _, _⟩ => false | _ => true) = true := by decide +kernel
  have hbs := lib_backends hrun fun e he bs hb => by
    have := List.all_eq_true.1 hset e he
    obtain ⟨o, r⟩ := e
    cases hb
    cases this
  refine ⟨replaceRun.1, h ▸ hx, fun bs hb => ?_, fun bs bs' hb hb' => ?_, ?_⟩
  · rw [hbs bs hb]; decide
  · rw [hbs bs hb, hbs bs' hb']
  · obtain ⟨e, he, h⟩ := any_mem hs
    split at h
    · exact ⟨_, he⟩
    · cases h

/-- The lengths for a device that supports "n" and "o" where "n", "o" and "p" are loaded. -/
example : ∃ t, Exec (getSendingChainLength phone) t (.ok [("n", some 4), ("o", some 4)]) := by
  have h : (genuineRun (getSendingChainLength phone) World.met).2.1 = .ok [("n", some 4), ("o", some 4)] := by decide +kernel
  exact ⟨_, h ▸ genuineRun_exec _ _⟩

end Verif
