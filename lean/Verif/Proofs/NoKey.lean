import Verif.Proofs.CallParts
import Verif.Proofs.RaisesCalls
/-
Calls without `KeyError`, from updates of device lists without `KeyError`.
-/
namespace Verif
open Spec Foot

/-- `p` keeps `I`, and does not raise `KeyError` where it holds. -/
def NoKey {α : Type} (I : World → Prop) (p : P α) : Prop := ∀ w, I w → wp Lib p (fun r w' => I w' ∧ r ≠ .raised .keyError) w

/-- No interaction raises `KeyError`. -/
theorem Lib.not_key {w w' : World} {t : List Ev} (h : Lib.Runs w t w') : ∀ x ∈ t, ∀ y, x.2 = .error y → y ≠ .keyError := by
  induction t generalizing w with
  | nil => simp
  | cons e t ih =>
    intro x hx y hy
    rcases List.mem_cons.1 hx with rfl | hx
    · obtain ⟨o, r⟩ := x
      change r = .error y at hy
      rw [hy] at h
      rintro rfl
      have h1 := h.1
      cases o <;> cases h1
    · exact ih h.2 x hx y hy

namespace NoKey
variable {I : World → Prop} {M : Mgr} {α β γ : Type}

theorem of {p : P α} (h : Pres Lib I p) (hr : Raises (S := LibSig) (fun _ e => e ≠ .keyError) (· ≠ .keyError) p) : NoKey I p := by
  intro w hw
  refine wp_iff.2 fun t r w' he hr' => ⟨wp_sound (h w hw) he hr', ?_⟩
  rintro rfl
  exact hr.exec he (Lib.not_key hr') rfl

theorem ret (a : α) : NoKey I (.ret a : P α) := fun _ hw => ⟨hw, nofun⟩
theorem pure (a : α) : NoKey I (Pure.pure a : P α) := fun _ hw => ⟨hw, nofun⟩
theorem raise {e : Exn} (h : e ≠ .keyError) : NoKey I (.raise e : P α) := fun _ hw => ⟨hw, fun h' => h (Res.raised.inj h')⟩

theorem bind {p : P α} {f : α → P β} (hp : NoKey I p) (hf : ∀ a, NoKey I (f a)) : NoKey I (p >>= f) := by
  intro w hw
  rw [wp_bind]
  refine wp_mono (hp w hw) fun r w' h => ?_
  cases r with
  | ok a => exact hf a w' h.1
  | raised e => exact ⟨h.1, fun h' => h.2 (by cases h'; rfl)⟩
  | crashed => exact ⟨h.1, nofun⟩

theorem tryElse {p : P α} {g : Exn → P β} {f : α → P β} (hp : NoKey I p) (hg : ∀ e, e ≠ .keyError → NoKey I (g e)) (hf : ∀ a, NoKey I (f a)) :
    NoKey I (Prog.tryElse p g f) := by
  intro w hw
  rw [wp_tryElse]
  refine wp_mono (hp w hw) fun r w' h => ?_
  cases r with
  | ok a => exact hf a w' h.1
  | raised e => exact hg e (fun h' => h.2 (by rw [h'])) w' h.1
  | crashed => exact ⟨h.1, nofun⟩

theorem when {c : Prop} [Decidable c] {p : P Unit} (h : c → NoKey I p) : NoKey I (Prog.when c p) := by
  unfold Prog.when
  split
  · exact h ‹_›
  · exact ret ()

theorem forEach {xs : List β} {f : β → P Unit} (h : ∀ x ∈ xs, NoKey I (f x)) : NoKey I (Prog.forEach xs f) := by
  induction xs with
  | nil => exact ret ()
  | cons x xs ih => exact bind (h x (by simp)) fun _ => ih fun y hy => h y (by simp [hy])

theorem pres {p : P α} (h : NoKey I p) : Pres Lib I p := fun w hw => wp_mono (h w hw) fun _ _ h => h.1

theorem core : Core (· ≠ .keyError) := ⟨nofun, nofun, nofun⟩

section
variable (hP : Parts I M)
include hP

theorem op {o : Op} (ho : Quiet o) : NoKey I (call o) := of (hP.op ho) (.perform fun _ h => h)

theorem info (jid : Jid) : NoKey I (SM.getDeviceInformation M jid) :=
  of (hP.getDeviceInformation jid) (SM.raises_getDeviceInformation core (fun _ _ h => h) jid)

variable (hU : ∀ ns jid dl, NoKey I (SM.updateDeviceList M ns jid dl))
include hU

theorem refresh (ns : Ns) (jid : Jid) : NoKey I (SM.refreshDeviceList M ns jid) := bind (op hP trivial) fun _ => hU _ _ _

theorem consistency : NoKey I (SM.ensureDataConsistency M) := by
  refine bind (op hP trivial) fun _ => forEach fun _ _ => bind (refresh hP hU _ _) fun _ => bind (op hP trivial) fun _ =>
    bind (tryElse (op hP trivial) (fun e he => ?_) fun _ => pure _) fun _ => when fun _ => op hP trivial
  split
  · exact pure _
  · exact raise he

theorem changedBackends (hp : ∀ ns, Pres Lib I (SM.purgeBackend M ns))
    (ha : ∀ l : List Ns, Pres Lib I (Verif.call (.store (.devActive M.ownJid M.ownDev) (.ofBools (l.map fun ns => (ns, true))))))
    (hn : ∀ l : List Ns, Pres Lib I (Verif.call (.store (.devNamespaces M.ownJid M.ownDev) (.ofStrs l)))) : NoKey I (SM.handleChangedBackends M) := by
  have h1 : NoKey I (SM.getOwnDeviceInformation M) :=
    of hP.getOwnDeviceInformation (SM.raises_getOwnDeviceInformation core (fun _ _ h => h) nofun)
  have h2 : ∀ ns, NoKey I (SM.purgeBackend M ns) := fun ns =>
    of (hp ns) (SM.raises_purgeBackend core (fun _ _ h => h) (fun h => nomatch h) ns)
  have h3 := refresh hP hU
  have h4 : ∀ ns, NoKey I (SM.refillPreKeys M ns) := fun ns => by
    unfold SM.refillPreKeys
    refine of (by parts_tac hP []) ?_
    lib_raises core, []
    all_goals assumption
  have h5 := fun l => of (ha l) (.perform fun _ h => h)
  have h6 := fun l => of (hn l) (.perform fun _ h => h)
  unfold SM.handleChangedBackends
  repeat' (first
    | exact pure _ | exact h1 | exact h2 _ | exact h3 _ _ | exact h4 _ | exact h5 _ | exact h6 _
    | exact op hP trivial
    | with_reducible apply NoKey.bind | with_reducible apply NoKey.when | with_reducible apply NoKey.forEach
    | dsimp only
    | split
    | intro _)

theorem decrypt (msg : Message) : NoKey I (SM.decrypt M msg) := by
  have h1 : NoKey I (SM.findSender M msg) := by
    unfold SM.findSender
    refine bind (info hP _) fun ds => ?_
    split
    · exact pure _
    · refine bind (refresh hP hU _ _) fun _ => bind (info hP _) fun ds => ?_
      split
      · exact pure _
      · exact raise nofun
  have h2 : ∀ dev ekm kex, NoKey I (SM.decryptContent M msg dev ekm kex) := fun dev ekm kex => by
    unfold SM.decryptContent SM.keyMaterial SM.plaintextOf SM.decryptKeyMaterial SM.handleKeyExchange
    refine of (by parts_tac hP []) ?_
    lib_raises core, []
    all_goals first | assumption | contradiction
  have h3 : ∀ kex s, NoKey I (SM.postDecrypt M msg.ns kex s) := fun kex s => by
    have h := hP.sendEmptyMessage
    have h' := @SM.raises_sendEmptyMessage (fun _ e => e ≠ .keyError) (· ≠ .keyError) M (fun _ _ h => h)
    unfold SM.postDecrypt SM.consumePreKey SM.discardPreKey SM.refillPreKeys SM.autoReply SM.queueEmpty
    refine of (by parts_tac hP [h]) ?_
    lib_raises core, [h']
    all_goals assumption
  unfold SM.decrypt
  refine bind (op hP trivial) fun bs => ?_
  dsimp only
  split
  · exact raise nofun
  · split
    · exact raise nofun
    · exact bind h1 fun dev => bind (h2 _ _ _) fun _ => bind (h3 _ _) fun _ => pure _

omit hU in
/-- `encrypt` raises `KeyError` only if the plaintext for a loaded backend is missing. -/
theorem encrypt (hd : ∀ ds i, NoKey I (M.decide ds i)) (jids : List Jid) (pt : Dict Ns Bytes) (prio : Option (List Ns)) (i : Option String) (w : World)
    (hw : I w) : wp Lib (SM.encrypt M jids pt prio i) (fun r w' => I w' ∧ (r = .raised .keyError → ∃ ns ∈ w'.backends, pt.get ns = none)) w := by
  have h1 : ∀ order jids, NoKey I (SM.recipientDevices M order jids) := fun order jids =>
    of (by unfold SM.recipientDevices; parts_tac hP []) (SM.raises_recipientDevices core (fun _ _ h => h) _ _)
  have h2 : ∀ l ds, NoKey I (SM.devicesWithTrust l ds) := fun l ds => by
    unfold SM.devicesWithTrust
    exact of (by parts_tac hP []) (.filterAll fun _ _ => .bind (.perform fun _ h => h) fun _ => .pure _)
  have h3 : ∀ ds, NoKey I (Prog.mapAll (M.O.iter ds) (SM.reloadTrust M)) := fun ds => by
    unfold SM.reloadTrust
    refine of (by parts_tac hP []) ?_
    lib_raises core, []
    all_goals assumption
  have h4 : ∀ ds, NoKey I (SM.decideTrust M ds i) := fun ds => by
    unfold SM.decideTrust SM.askTrust
    refine bind (h2 _ _) fun _ => bind ?_ fun _ => bind (h2 _ _) fun _ => ?_
    · split
      · exact bind (hd _ _) fun _ => bind (h3 _) fun _ => pure _
      · exact pure _
    · split
      · exact raise nofun
      · exact pure _
  have h5 : ∀ c ds bs, (∀ ns ∈ bs, pt.get ns ≠ none) →
      NoKey I (Prog.fold bs { devices := ds, errors := [], sessions := [], messages := [] } (SM.encryptBackend M c pt)) := fun c ds bs hbs => by
    refine of ?_ (.fold fun st ns hns => SM.raises_encryptBackend core (fun _ _ h => h) _ _ _ _ fun h => (hbs ns hns h).elim)
    unfold SM.encryptBackend SM.encryptDevice SM.encryptForDevice SM.bundleFor
    parts_tac hP []
  have h6 : ∀ jids c ds w, I w → wp Lib (SM.encryptTrusted M jids c pt ds)
      (fun r w' => I w' ∧ (r = .raised .keyError → ∃ ns ∈ w'.backends, pt.get ns = none)) w := fun jids c ds w hw => by
    unfold SM.encryptTrusted
    rw [wp_bind]
    refine wp_mono (h2 .trusted (M.O.iter ds) w hw) fun r w1 hr => ?_
    cases r with
    | raised e => exact ⟨hr.1, fun h => (hr.2 (by cases h; rfl)).elim⟩
    | crashed => exact ⟨hr.1, nofun⟩
    | ok ds' =>
      change wp Lib _ _ w1
      rw [wp_bind]
      refine wp_perform.2 ⟨⟨hr.1, nofun⟩, fun bs hbs => ?_, fun e he => by cases he⟩
      cases hbs
      have hrest : ∀ st : SM.EncAll, Pres Lib I (if (SM.noEligible M st.devices jids).length > 0 then throwE (.noEligibleDevices (SM.noEligible M st.devices jids))
          else do
            Prog.forEach (M.O.iter st.sessions) fun (ns, session) => Verif.call (.storeSession ns session)
            Pure.pure (st.messages, st.errors) : P (Dict Message PlainKM × List SM.EncError)) := fun st => by parts_tac hP []
      by_cases hb : ∃ ns ∈ w1.backends, pt.get ns = none
      · have hl : ∀ w2 : World, w2.backends = w1.backends → ∃ ns ∈ w2.backends, pt.get ns = none := fun (w2 : World) h => h ▸ hb
        have hp : AllOps (fun o : Op => ∀ l, o ≠ .setBackends l) (do
            let st ← Prog.fold w1.backends { devices := ds', errors := [], sessions := [], messages := [] } (SM.encryptBackend M c pt)
            if (SM.noEligible M st.devices jids).length > 0 then throwE (.noEligibleDevices (SM.noEligible M st.devices jids))
            else do
              Prog.forEach (M.O.iter st.sessions) fun (ns, session) => Verif.call (.storeSession ns session)
              Pure.pure (st.messages, st.errors) : P (Dict Message PlainKM × List SM.EncError)) := by
          unfold SM.encryptBackend SM.encryptDevice SM.encryptForDevice SM.bundleFor
          lib_ops []
          all_goals (rename_i h; cases h)
        have h7 : Pres Lib (fun w => w.backends = w1.backends) _ := Pres.ofOps hp fun o ho w r _ hw => by
          rw [← hw]
          cases o with
          | setBackends l => exact (ho l rfl).elim
          | _ => cases r <;> rfl
        refine wp_mono (wp_and (h7 w1 rfl) (Pres.bind ?_ hrest w1 hr.1)) fun r w2 h => ⟨h.2, fun _ => hl w2 h.1⟩
        unfold SM.encryptBackend SM.encryptDevice SM.encryptForDevice SM.bundleFor
        parts_tac hP []
      · refine wp_mono (bind (h5 c ds' _ fun ns hns h => hb ⟨ns, hns, h⟩) (fun st => ?_) w1 hr.1) fun r w2 h => ⟨h.1, fun h' => (h.2 h').elim⟩
        dsimp only
        split
        · exact raise nofun
        · exact bind (forEach fun _ _ => op hP trivial) fun _ => pure _
  have after : ∀ {α : Type} {p : P α} {f : α → P (Dict Message PlainKM × List SM.EncError)}, NoKey I p → (∀ a w, I w → wp Lib (f a)
      (fun r w' => I w' ∧ (r = .raised .keyError → ∃ ns ∈ w'.backends, pt.get ns = none)) w) → ∀ w, I w → wp Lib (p >>= f)
      (fun r w' => I w' ∧ (r = .raised .keyError → ∃ ns ∈ w'.backends, pt.get ns = none)) w := by
    intro α p f hp hf w hw
    rw [wp_bind]
    refine wp_mono (hp w hw) fun r w1 hr => ?_
    cases r with
    | raised e => exact ⟨hr.1, fun h => (hr.2 (by cases h; rfl)).elim⟩
    | crashed => exact ⟨hr.1, nofun⟩
    | ok x => exact hf x w1 hr.1
  refine after (op hP (o := .getBackends) trivial) (fun available => after (of (hP.liftE _) (raises_liftE fun e he => ?_)) fun order => after (h1 _ _) fun x =>
      after (h4 _) fun _ => h6 _ _ _) w hw
  unfold SM.effectiveOrder at he
  split at he
  · cases he
  · split at he <;> cases he
    nofun

/-- Calls other than creating a manager and encrypting. -/
theorem call {c : Call} (hp : Pres Lib I (c.run M)) (hc : ∀ bs l f, c ≠ .create bs l f) (he : ∀ jids pt prio i, c ≠ .encrypt jids pt prio i) :
    NoKey I (c.run M) := by
  cases c with
  | getIdentityKeyPair => exact of hp (.bind (SM.raises_identityKeyPair core fun _ _ h => h) fun _ => .pure _)
  | create bs l f => exact (hc _ _ _ rfl).elim
  | purgeBackend ns => exact of hp (SM.raises_purgeBackend core (fun _ _ h => h) (fun h => nomatch h) ns)
  | purgeBareJid jid => exact of hp (SM.raises_purgeBareJid core (fun _ _ h => h) jid)
  | ensureDataConsistency => exact consistency hP hU
  | rotation p f r => exact of hp (SM.raises_manageRotation (χ := fun _ e => e ≠ .keyError) (ρ := (· ≠ .keyError)) (fun _ _ h => h) (fun h => nomatch h) p f r)
  | updateDeviceList ns jid dl => exact hU ns jid dl
  | refreshDeviceList ns jid => exact refresh hP hU ns jid
  | refreshDeviceLists jid => exact bind (op hP trivial) fun _ => forEach fun _ _ => refresh hP hU _ _
  | setTrust jid ik level => exact of hp (.perform fun _ h => h)
  | replaceSessions jid d => exact of hp (.bind (SM.raises_replaceSessions core (fun _ _ h => h) (fun h => nomatch h) jid d) fun _ => .pure _)
  | getSendingChainLength x => exact of hp (.bind (SM.raises_getSendingChainLength (χ := fun _ e => e ≠ .keyError) (ρ := (· ≠ .keyError)) (fun _ _ h => h) x) fun _ => .pure _)
  | setOwnLabel l => exact of hp (SM.raises_setOwnLabel (χ := fun _ e => e ≠ .keyError) (ρ := (· ≠ .keyError)) (fun _ _ h => h) l)
  | getDeviceInformation jid => exact bind (info hP jid) fun _ => pure _
  | getOwnDeviceInformation =>
    exact of hp (.bind (SM.raises_getOwnDeviceInformation core (fun _ _ h => h) (fun h => nomatch h)) fun _ => .pure _)
  | beforeHistorySync => exact of hp (.perform fun _ h => h)
  | afterHistorySync => exact of hp (SM.raises_afterHistorySync core (fun _ _ h => h))
  | encrypt jids pt prio i => exact (he _ _ _ _ rfl).elim
  | decrypt msg => exact bind (decrypt hP hU msg) fun _ => pure _

/-- Programs of the application. -/
theorem app (hx : ∀ c : Call, c.inDecision = true → Pres Lib I (c.run M)) {p : P α} (hp : AppProg M (· ≠ .keyError) p) : NoKey I p := by
  induction hp with
  | ret a => exact ret a
  | raise e he => exact raise he
  | ext o k ho _ ih =>
    intro w hw
    have ha : Quiet o := by cases o <;> first | trivial | cases ho
    refine ⟨⟨hw, nofun⟩, fun r hr => ih r (fun e he => ?_) _ (hP.quiet o ha w r hr hw)⟩
    subst he
    exact Lib.not_key (w' := Lib.next w ⟨o, .error e⟩) (t := [⟨o, .error e⟩]) ⟨hr, rfl⟩ ⟨o, .error e⟩ (by simp) e rfl
  | info jid g f _ _ ihh ihf => exact tryElse (info hP jid) (fun e he => ihh e he) ihf
  | api c g f hc _ _ ihh ihf =>
    refine tryElse (call hP hU (hx c hc) ?_ ?_) (fun e he => ihh e he) ihf
    · rintro bs l f rfl; cases hc
    · rintro jids pt prio i rfl; cases hc

end
end NoKey
end Verif
