import Verif.Props.RoundTrip
import Verif.Wrong.Decrypt
import Verif.Wrong.Trust
/-
Wrong programs for C79.  See Wrong/Encrypt.lean for the method.
-/
namespace Verif
namespace Wrong
open SM Spec

/-! ### C79: from sender to recipient -/

/-- C79 for programs that encrypt and decrypt. -/
def C79 (enc : Enc) (dec : Dec) : Prop :=
  ∀ (A B : Mgr) (jids : List Jid) (pt : Dict Ns Bytes) (prio : Option (List Ns)) (i : Option String) (tA tB : List Ev)
    (msgs : Dict Message PlainKM) (errs : List EncError), CallbackQuiet A.decide → Exec (enc A jids pt prio i) tA (.ok (msgs, errs)) → BackendsOnce tA → Addressed tA →
    ∀ (x : Message × PlainKM), x ∈ msgs → ∀ (p : Option Bytes) (dev : DeviceInfo) (km : PlainKM), Exec (dec B x.1) tB (.ok (p, dev, km)) → Fitting tA tB →
    (∃ b, p = some b ∧ pt.get x.1.ns = some b) ∧ km = x.2 ∧ (dev.bareJid = A.ownJid ∧ dev.deviceId = A.ownDev) ∧
    ∃ info h e h' ekm kex s, tA = h ++ e :: h' ∧ HandsOut h e x.1.ns B.ownJid B.ownDev x.2 ∧ Gives e ekm s ∧ keyForUs B x.1 = some (ekm, kex) ∧
      LastEval h info .trusted ∧ info.bareJid = B.ownJid ∧ info.deviceId = B.ownDev

theorem C79_real : C79 encrypt decrypt := fun A B jids pt prio i tA tB msgs errs hdec hA hb ha x hx p dev km hB hf =>
  C79_round_trip A B jids pt prio i tA tB msgs errs hdec hA hb ha x hx p dev km hB hf

/-- Encrypting for "a". -/
def uttered (enc : Enc) (w : World) := trial polite (enc Mgr.ex ["a"] [("o", [1, 2]), ("n", [1])] none none) w

/-- Device 7 of "a" reads a message. -/
def listened (dec : Dec) (m : Message) := trial reader (dec Mgr.phone m) World.chat

theorem C79_not {enc : Enc} {dec : Dec} (w : World) (hw : w.backends.Nodup) (x : Message × PlainKM)
    (h1 : (match (uttered enc w).2.1 with | .ok (msgs, _) => decide (x ∈ msgs) | _ => false) = true) (h2 : (uttered enc w).1.all settled = true)
    (h3 : (uttered enc w).1.all (fun e => match e.1 with | .encryptPlaintext _ p => decide (p = [1] ∨ p = [1, 2]) | _ => true) = true)
    (h4 : (match (listened dec x.1).2.1 with
      | .ok (p, dev, km) => !(decide (p = Dict.get [("o", [1, 2]), ("n", [1])] x.1.ns) && decide (km = x.2) && decide (dev.bareJid = "me" ∧ dev.deviceId = 1)) ||
        !((uttered enc w).1.any fun e => match e.1 with | .evalTrust dev => decide (dev.bareJid = "a" ∧ dev.deviceId = 7) | _ => false)
      | _ => false) = true) : ¬ C79 enc dec := by
  intro hc
  have hA := runProg_answers (Lib.env polite) Lib.next 300 (enc Mgr.ex ["a"] [("o", [1, 2]), ("n", [1])] none none) w
  have hB := runProg_answers (Lib.env reader) Lib.next 300 (dec Mgr.phone x.1) World.chat
  have hadd : Addressed (uttered enc w).1 := by
    refine ⟨?_, ?_, ?_⟩
    · intro ns j d s hm
      obtain ⟨w, hw⟩ := hA _ hm
      change Except.ok (some s) = polite w (.loadSession ns j d) at hw
      simp only [polite] at hw
      split at hw <;> cases hw
      exact ⟨rfl, rfl⟩
    · intro ns j d b m s k hm
      obtain ⟨w, hw⟩ := hA _ hm
      cases hw; exact ⟨⟨rfl, rfl⟩, rfl, rfl⟩
    · intro ns s m k s' hm
      obtain ⟨w, hw⟩ := hA _ hm
      cases hw; exact ⟨⟨rfl, rfl⟩, rfl, rfl⟩
  have hfit : Fitting (uttered enc w).1 (listened dec x.1).1 := by
    refine ⟨?_, ?_, ?_⟩
    · intro ns e e' k m s m' he he' hw hg
      obtain ⟨w, hw'⟩ := hA e he
      obtain ⟨w', hg'⟩ := hB e' he'
      have h1 : k.blob = m.blob := by
        rcases hw with ⟨_, _, _, _, rfl⟩ | ⟨_, _, rfl⟩ <;> cases hw' <;> rfl
      have h2 : m'.blob = k.blob := by
        rcases hg with ⟨_, rfl⟩ | ⟨_, _, _, rfl⟩ <;> cases hg'; rfl
      cases m; cases m'; simp_all
    · intro ns p c m p' he he'
      have hp := List.all_eq_true.1 h3 _ he
      obtain ⟨w, hw⟩ := hA _ he
      obtain ⟨w', hw'⟩ := hB _ he'
      cases hw; cases hw'
      rcases of_decide_eq_true hp with rfl | rfl <;> rfl
    · intro ns p c m he
      obtain ⟨w, hw⟩ := hA _ he
      cases hw
      rfl
  have he := trial_exec polite (enc Mgr.ex ["a"] [("o", [1, 2]), ("n", [1])] none none) w
  have hd := trial_exec reader (dec Mgr.phone x.1) World.chat
  change Exec _ (uttered enc w).1 (uttered enc w).2.1 at he
  change Exec _ (listened dec x.1).1 (listened dec x.1).2.1 at hd
  generalize (uttered enc w).2.1 = r at h1 he
  generalize (listened dec x.1).2.1 = r' at h4 hd
  match r, r', h1, h4, he, hd with
  | .ok (msgs, errs), .ok (p, dev, km), h1, h4, he, hd =>
    obtain ⟨⟨b, hb, hb'⟩, hk, hs, info, h, e, h', ekm, kex, s, ht, -, -, -, hl, hi⟩ :=
      hc Mgr.ex Mgr.phone _ _ _ _ _ _ msgs errs Mgr.ex_quiet he (trial_once polite_ok h2 hw) hadd x (of_decide_eq_true h1) p dev km hd hfit
    have h5 : ((uttered enc w).1.any fun e => match e.1 with | .evalTrust dev => decide (dev.bareJid = "a" ∧ dev.deviceId = 7) | _ => false) = true :=
      List.any_eq_true.2 ⟨⟨.evalTrust info, .ok .trusted⟩, by rw [ht]; exact List.mem_append_left _ (Wrong.evaluated hl), decide_eq_true hi⟩
    simp only [h5, Bool.not_true, Bool.or_false, Bool.not_eq_true', Bool.and_eq_false_iff, decide_eq_false_iff_not] at h4
    rcases h4 with (h4 | h4) | h4
    · exact h4 (hb.trans hb'.symm)
    · exact h4 hk
    · exact h4 hs

/-- The plaintext for the first backend is used for all (sm:1880). -/
theorem C79_careless : ¬ C79 careless decrypt :=
  C79_not World.chat (by decide +kernel) (⟨"n", "me", 1, ⟨false, 2⟩, [(⟨"a", 7, 2⟩, none)]⟩, ⟨2⟩) (by decide +kernel) (by decide +kernel) (by decide +kernel) (by decide +kernel)

/-- The device looked at last is taken for the sender (sm:2038-2049: the wrong variable after the loop). -/
def lastSeen : Dec := decryptBy fun M => { rightly M with
  sender := fun msg => do
    match (M.O.iter (← getDeviceInformation M msg.bareJid)).getLast? with
    | some dev => pure dev
    | none => throwE .senderNotFound }

theorem C79_lastSeen : ¬ C79 encrypt lastSeen :=
  C79_not World.chat (by decide +kernel) (chatMessage, ⟨1⟩) (by decide +kernel) (by decide +kernel) (by decide +kernel) (by decide +kernel)

/-- The content is decrypted, but nothing is returned (sm:2194: the assignment forgotten). -/
def wordless : Dec := decryptBy fun M => { rightly M with
  plaintext := fun msg _ km => do
    let _ ← plaintextOf msg km
    pure none }

theorem C79_wordless : ¬ C79 encrypt wordless :=
  C79_not World.chat (by decide +kernel) (chatMessage, ⟨1⟩) (by decide +kernel) (by decide +kernel) (by decide +kernel) (by decide +kernel)

end Wrong
end Verif
