import Verif.Spec.Decrypt
import Verif.Proofs.ExecLib
import Verif.Proofs.PresLib
/-
The executions of `decrypt`, phase by phase, for arbitrary answers.
-/
namespace Verif
open Spec Foot
namespace SM
variable {M : Mgr} {msg : Message}

theorem looks_info {jid : Jid} {o : Op} (h : Info jid o) : Op.looks o = true := by cases h <;> rfl
theorem looks_update {ns : Ns} {jid : Jid} {o : Op} (h : Update M ns jid o) : Op.looks o = true := by cases h <;> rfl
theorem looks_refresh {ns : Ns} {jid : Jid} {o : Op} (h : Refresh M ns jid o) : Op.looks o = true := by
  cases h
  · rfl
  · exact looks_update ‹_›

theorem ops_findSender : AllOps (fun o => Op.looks o = true) (findSender M msg) := by
  have h1 : AllOps (fun o => Op.looks o = true) (getDeviceInformation M msg.bareJid) :=
    (ops_getDeviceInformation M _).mono fun _ h => looks_info h
  have h2 : AllOps (fun o => Op.looks o = true) (refreshDeviceList M msg.ns msg.bareJid) :=
    (ops_refreshDeviceList M _ _).mono fun _ h => looks_refresh h
  unfold findSender
  lib_ops []

/-- What `get_device_information` returns. -/
theorem exec_getDeviceInformation {jid : Jid} {t : List Ev} {x : List DeviceInfo} (h : Exec (getDeviceInformation M jid) t (.ok x)) :
    ∃ c, InfoOk M jid t (x, c) := by
  unfold getDeviceInformation at h
  replace h := exec_seq_ok.1 h; obtain ⟨t1, ⟨y, c⟩, t2, rfl, h1, h2⟩ := h
  replace h2 := exec_pure.1 h2; obtain ⟨rfl, h2⟩ := h2
  cases h2
  have := Rec.sound (φ := fun _ => True) (h := []) (trace_getDeviceInformation' jid) h1 fun _ _ => trivial
  simp only [ends_ok, List.nil_append] at this
  exact ⟨c, by simpa using this.2⟩

theorem sender_of_pick {t t' : List Ev} {x : List DeviceInfo} {c : List Bundle} {dev : DeviceInfo} (hi : InfoOk M msg.bareJid t (x, c))
    (hp : pickDevice M msg.deviceId x = some dev) (ht : ∀ e ∈ t, e ∈ t') : KnownSender M msg t' dev := by
  unfold pickDevice at hp
  have h1 := List.find?_some hp
  have h2 := List.mem_of_find?_eq_some hp
  rw [SetOrder.mem_iter] at h2
  simp only [decide_eq_true_eq] at h1
  obtain ⟨ids, h3, h4, _⟩ := hi.complete
  exact ⟨hi.bareJid dev h2, h1, (hi.seen dev h2).mono ht, ids, h3.mono ht, h1 ▸ h4 dev h2⟩

theorem exec_findSender {t : List Ev} {dev : DeviceInfo} (h : Exec (findSender M msg) t (.ok dev)) : KnownSender M msg t dev := by
  unfold findSender at h
  replace h := exec_seq_ok.1 h; obtain ⟨t1, x, t2, rfl, h1, h2⟩ := h
  obtain ⟨c, hi⟩ := exec_getDeviceInformation h1
  cases hp : pickDevice M msg.deviceId x with
  | some d =>
    simp only [hp] at h2
    replace h2 := exec_pure.1 h2; obtain ⟨rfl, h2⟩ := h2
    cases h2
    exact sender_of_pick hi hp fun e he => by simp [he]
  | none =>
    simp only [hp] at h2
    replace h2 := exec_seq_ok.1 h2; obtain ⟨t3, _, t4, rfl, h3, h4⟩ := h2
    replace h4 := exec_seq_ok.1 h4; obtain ⟨t5, y, t6, rfl, h5, h6⟩ := h4
    obtain ⟨c', hi'⟩ := exec_getDeviceInformation h5
    cases hp' : pickDevice M msg.deviceId y with
    | some d =>
      simp only [hp'] at h6
      replace h6 := exec_pure.1 h6; obtain ⟨rfl, h6⟩ := h6
      cases h6
      exact sender_of_pick hi' hp' fun e he => by simp [he]
    | none =>
      simp only [hp'] at h6
      replace h6 := exec_throw.1 h6; obtain ⟨_, h6⟩ := h6
      cases h6

/-- The recovery of key material, with all ways to fail. -/
inductive KeyRun (M : Mgr) (msg : Message) (dev : DeviceInfo) (ekm : EncKM) (kex : Option KeyExchange) : List Ev → Res Exn (Session × PlainKM) → Prop
  | mismatch {x} (hk : kex = some x) (h : x.identityKey ≠ dev.identityKey) : KeyRun M msg dev ekm kex [] (.raised .publicDataInconsistency)
  | start (h : ∀ x, kex = some x → x.identityKey = dev.identityKey) : KeyRun M msg dev ekm kex [] .crashed
  | loadFailed {e} (h : ∀ x, kex = some x → x.identityKey = dev.identityKey) :
      KeyRun M msg dev ekm kex [⟨.loadSession msg.ns dev.bareJid dev.deviceId, .error e⟩] (.raised e)
  | noSession (hk : kex = none) :
      KeyRun M msg dev ekm kex [⟨.loadSession msg.ns dev.bareJid dev.deviceId, .ok none⟩] (.raised .noSession)
  | loaded {o} (h : ∀ x, kex = some x → x.identityKey = dev.identityKey) (hk : kex = none → o ≠ none) :
      KeyRun M msg dev ekm kex [⟨.loadSession msg.ns dev.bareJid dev.deviceId, .ok o⟩] .crashed
  | useFailed {s0 e} (h : ∀ x, kex = some x → x.identityKey = dev.identityKey ∧ Same M s0 x) :
      KeyRun M msg dev ekm kex [⟨.loadSession msg.ns dev.bareJid dev.deviceId, .ok (some s0)⟩, ⟨.decryptKM msg.ns s0 ekm, .error e⟩] (.raised e)
  | used {s0 s km} (h : ∀ x, kex = some x → x.identityKey = dev.identityKey ∧ Same M s0 x) :
      KeyRun M msg dev ekm kex [⟨.loadSession msg.ns dev.bareJid dev.deviceId, .ok (some s0)⟩, ⟨.decryptKM msg.ns s0 ekm, .ok (km, s)⟩]
        (.ok (s, km))
  | buildFailed {o x e} (hk : kex = some x) (h : x.identityKey = dev.identityKey) (hs : ∀ s0, o = some s0 → ¬ Same M s0 x) :
      KeyRun M msg dev ekm kex [⟨.loadSession msg.ns dev.bareJid dev.deviceId, .ok o⟩,
        ⟨.buildPassive msg.ns dev.bareJid dev.deviceId x ekm, .error e⟩] (.raised e)
  | built {o x s km} (hk : kex = some x) (h : x.identityKey = dev.identityKey) (hs : ∀ s0, o = some s0 → ¬ Same M s0 x) :
      KeyRun M msg dev ekm kex [⟨.loadSession msg.ns dev.bareJid dev.deviceId, .ok o⟩,
        ⟨.buildPassive msg.ns dev.bareJid dev.deviceId x ekm, .ok (s, km)⟩] (.ok (s, km))

theorem exec_keyMaterial {dev : DeviceInfo} {ekm : EncKM} {kex : Option KeyExchange} {t : List Ev} {r : Res Exn (Session × PlainKM)}
    (h : Exec (keyMaterial M msg dev ekm kex) t r) : KeyRun M msg dev ekm kex t r := by
  cases kex with
  | none =>
    unfold keyMaterial decryptKeyMaterial at h
    replace h := exec_call_bind.1 h; rcases h with ⟨rfl, rfl⟩ | ⟨e, rfl, rfl⟩ | ⟨o, t', rfl, h⟩
    · exact .start (by simp)
    · exact .loadFailed (by simp)
    · cases o with
      | none =>
        replace h := exec_throw.1 h; obtain ⟨rfl, rfl⟩ := h
        exact .noSession rfl
      | some s0 =>
        replace h := exec_call_bind.1 h; rcases h with ⟨rfl, rfl⟩ | ⟨e, rfl, rfl⟩ | ⟨⟨km, s⟩, t', rfl, h⟩
        · exact .loaded (by simp) (by simp)
        · exact .useFailed (by simp)
        · replace h := exec_pure.1 h; obtain ⟨rfl, rfl⟩ := h
          exact .used (by simp)
  | some x =>
    unfold keyMaterial handleKeyExchange at h
    simp only at h
    split at h
    · rename_i hx
      replace h := exec_throw.1 h; obtain ⟨rfl, rfl⟩ := h
      exact .mismatch rfl hx
    · rename_i hx
      have hx : x.identityKey = dev.identityKey := Classical.not_not.1 hx
      have hx' : ∀ y, some x = some y → y.identityKey = dev.identityKey := by rintro y ⟨⟩; exact hx
      replace h := exec_call_bind.1 h; rcases h with ⟨rfl, rfl⟩ | ⟨e, rfl, rfl⟩ | ⟨o, t', rfl, h⟩
      · exact .start hx'
      · exact .loadFailed hx'
      · have build : (∀ s0, o = some s0 → ¬ Same M s0 x) → Exec (call (.buildPassive msg.ns dev.bareJid dev.deviceId x ekm)) t' r →
            KeyRun M msg dev ekm (some x) (⟨.loadSession msg.ns dev.bareJid dev.deviceId, .ok o⟩ :: t') r := by
          intro hs h
          replace h := exec_call.1 h; rcases h with ⟨rfl, rfl⟩ | ⟨e, rfl, rfl⟩ | ⟨⟨s, km⟩, rfl, rfl⟩
          · exact .loaded hx' (by simp)
          · exact .buildFailed rfl hx hs
          · exact .built rfl hx hs
        cases o with
        | none => exact build (by simp) h
        | some s0 =>
          by_cases hs : Same M s0 x
          · have hf : (some s0).filter (fun s => decide (s.initiation = .passive) && M.sameSession s.keyExchange x) = some s0 := by
              simp [Option.filter, hs.1, hs.2]
            simp only [hf] at h
            replace h := exec_call_bind.1 h; rcases h with ⟨rfl, rfl⟩ | ⟨e, rfl, rfl⟩ | ⟨⟨km, s⟩, t'', rfl, h⟩
            · exact .loaded hx' (by simp)
            · exact .useFailed (by rintro y ⟨⟩; exact ⟨hx, hs⟩)
            · replace h := exec_pure.1 h; obtain ⟨rfl, rfl⟩ := h
              exact .used (by rintro y ⟨⟩; exact ⟨hx, hs⟩)
          · have hf : (some s0).filter (fun s => decide (s.initiation = .passive) && M.sameSession s.keyExchange x) = none := by
              unfold Same at hs
              simp [Option.filter]
              simpa using hs
            simp only [hf] at h
            exact build (by rintro s ⟨⟩; exact hs) h

/-- The recovery of the content. -/
inductive OpenRun (msg : Message) (km : PlainKM) : List Ev → Res Exn (Option Bytes) → Prop
  | empty (h : msg.content.empty = true) : OpenRun msg km [] (.ok none)
  | start (h : msg.content.empty = false) : OpenRun msg km [] .crashed
  | failed {e} (h : msg.content.empty = false) : OpenRun msg km [⟨.decryptPlaintext msg.ns msg.content km, .error e⟩] (.raised e)
  | opened {p} (h : msg.content.empty = false) : OpenRun msg km [⟨.decryptPlaintext msg.ns msg.content km, .ok p⟩] (.ok (some p))

theorem exec_plaintextOf {km : PlainKM} {t : List Ev} {r : Res Exn (Option Bytes)} (h : Exec (plaintextOf msg km) t r) : OpenRun msg km t r := by
  unfold plaintextOf at h
  split at h
  · rename_i hc
    replace h := exec_pure.1 h; obtain ⟨rfl, rfl⟩ := h
    exact .empty hc
  · rename_i hc
    have hc : msg.content.empty = false := by simpa using hc
    replace h := exec_call_bind.1 h; rcases h with ⟨rfl, rfl⟩ | ⟨e, rfl, rfl⟩ | ⟨p, t', rfl, h⟩
    · exact .start hc
    · exact .failed hc
    · replace h := exec_pure.1 h; obtain ⟨rfl, rfl⟩ := h
      exact .opened hc

/-- The executions of `decrypt`. -/
inductive DecRun (M : Mgr) (msg : Message) : List Ev → Res Exn (Option Bytes × DeviceInfo × PlainKM) → Prop
  | start : DecRun M msg [] .crashed
  | noBackends {e} : DecRun M msg [⟨.getBackends, .error e⟩] (.raised e)
  | unknown {bs} (h : msg.ns ∉ bs) : DecRun M msg [⟨.getBackends, .ok bs⟩] (.raised .unknownNamespace)
  | notForUs {bs} (h : msg.ns ∈ bs) (hk : keyForUs M msg = none) : DecRun M msg [⟨.getBackends, .ok bs⟩] (.raised .messageNotForUs)
  | lookup {bs k t1 r} (h : msg.ns ∈ bs) (hk : keyForUs M msg = some k) (h1 : ∀ e ∈ t1, Op.looks e.1 = true) (hr : ∀ a, r ≠ .ok a) :
      DecRun M msg (⟨.getBackends, .ok bs⟩ :: t1) r
  | evalFailed {bs k t1 dev e} (h : msg.ns ∈ bs) (hk : keyForUs M msg = some k) (h1 : ∀ e ∈ t1, Op.looks e.1 = true)
      (hd : KnownSender M msg t1 dev) : DecRun M msg (⟨.getBackends, .ok bs⟩ :: (t1 ++ [⟨.evalTrust dev, .error e⟩])) (.raised e)
  | distrusted {bs k t1 dev} (h : msg.ns ∈ bs) (hk : keyForUs M msg = some k) (h1 : ∀ e ∈ t1, Op.looks e.1 = true)
      (hd : KnownSender M msg t1 dev) :
      DecRun M msg (⟨.getBackends, .ok bs⟩ :: (t1 ++ [⟨.evalTrust dev, .ok .distrusted⟩])) (.raised .senderDistrusted)
  | keys {bs ekm kex t1 dev l t2 r r'} (h : msg.ns ∈ bs) (hk : keyForUs M msg = some (ekm, kex)) (h1 : ∀ e ∈ t1, Op.looks e.1 = true)
      (hd : KnownSender M msg t1 dev) (hl : l ≠ .distrusted) (h2 : KeyRun M msg dev ekm kex t2 r')
      (hr : (∃ e, r' = .raised e ∧ r = .raised e) ∨ (r' = .crashed ∧ r = .crashed)) :
      DecRun M msg (⟨.getBackends, .ok bs⟩ :: (t1 ++ ⟨.evalTrust dev, .ok l⟩ :: t2)) r
  | content {bs ekm kex t1 dev l t2 s km t3 r r'} (h : msg.ns ∈ bs) (hk : keyForUs M msg = some (ekm, kex)) (h1 : ∀ e ∈ t1, Op.looks e.1 = true)
      (hd : KnownSender M msg t1 dev) (hl : l ≠ .distrusted) (h2 : KeyRun M msg dev ekm kex t2 (.ok (s, km))) (h3 : OpenRun msg km t3 r')
      (hr : (∃ e, r' = .raised e ∧ r = .raised e) ∨ (r' = .crashed ∧ r = .crashed)) :
      DecRun M msg (⟨.getBackends, .ok bs⟩ :: (t1 ++ ⟨.evalTrust dev, .ok l⟩ :: (t2 ++ t3))) r
  | post {bs ekm kex t1 dev l t2 s km t3 p t4 r r'} (h : msg.ns ∈ bs) (hk : keyForUs M msg = some (ekm, kex)) (h1 : ∀ e ∈ t1, Op.looks e.1 = true)
      (hd : KnownSender M msg t1 dev) (hl : l ≠ .distrusted) (h2 : KeyRun M msg dev ekm kex t2 (.ok (s, km))) (h3 : OpenRun msg km t3 (.ok p))
      (h4 : Exec (postDecrypt M msg.ns kex s) t4 r')
      (hr : (r' = .ok () ∧ r = .ok (p, dev, km)) ∨ (∃ e, r' = .raised e ∧ r = .raised e) ∨ (r' = .crashed ∧ r = .crashed)) :
      DecRun M msg (⟨.getBackends, .ok bs⟩ :: (t1 ++ ⟨.evalTrust dev, .ok l⟩ :: (t2 ++ t3 ++ t4))) r

theorem exec_decrypt {t : List Ev} {r} (h : Exec (decrypt M msg) t r) : DecRun M msg t r := by
  unfold decrypt at h
  replace h := exec_call_bind.1 h; rcases h with ⟨rfl, rfl⟩ | ⟨e, rfl, rfl⟩ | ⟨bs, t', rfl, h⟩
  · exact .start
  · exact .noBackends
  split at h
  · rename_i hn
    replace h := exec_throw.1 h; obtain ⟨rfl, rfl⟩ := h
    exact .unknown hn
  rename_i hn
  have hn : msg.ns ∈ bs := Classical.not_not.1 hn
  split at h
  · rename_i hk
    replace h := exec_throw.1 h; obtain ⟨rfl, rfl⟩ := h
    exact .notForUs hn hk
  rename_i ekm kex hk
  replace h := exec_seq.1 h; rcases h with ⟨t1, dev, t2, rfl, hf, h⟩ | ⟨e, hf, rfl⟩ | ⟨hf, rfl⟩
  rotate_left
  · exact .lookup hn hk (ops_findSender.exec hf) (by simp)
  · exact .lookup hn hk (ops_findSender.exec hf) (by simp)
  have h1 := ops_findSender.exec hf
  have hd := exec_findSender hf
  have hcont : ∀ {t r}, Exec (decryptContent M msg dev ekm kex) t r →
      (t = [] ∧ r = .crashed) ∨ (∃ e, t = [⟨.evalTrust dev, .error e⟩] ∧ r = .raised e) ∨
      (t = [⟨.evalTrust dev, .ok .distrusted⟩] ∧ r = .raised .senderDistrusted) ∨
      ∃ l t', t = ⟨.evalTrust dev, .ok l⟩ :: t' ∧ l ≠ .distrusted ∧ Exec (keyMaterial M msg dev ekm kex >>= fun x =>
        plaintextOf msg x.2 >>= fun p => pure (p, x.1, x.2)) t' r := by
    intro t r h
    unfold decryptContent at h
    replace h := exec_call_bind.1 h; rcases h with ⟨rfl, rfl⟩ | ⟨e, rfl, rfl⟩ | ⟨l, t', rfl, h⟩
    · exact .inl ⟨rfl, rfl⟩
    · exact .inr (.inl ⟨e, rfl, rfl⟩)
    · split at h
      · rename_i hl
        replace h := exec_throw.1 h; obtain ⟨rfl, rfl⟩ := h
        subst hl
        exact .inr (.inr (.inl ⟨rfl, rfl⟩))
      · rename_i hl
        exact .inr (.inr (.inr ⟨l, t', rfl, hl, h⟩))
  replace h := exec_seq.1 h; rcases h with ⟨t3, ⟨p, s, km⟩, t4, rfl, hc, h⟩ | ⟨e, hc, rfl⟩ | ⟨hc, rfl⟩
  · replace hc := hcont hc; rcases hc with ⟨_, hc⟩ | ⟨_, _, hc⟩ | ⟨_, hc⟩ | ⟨l, t5, rfl, hl, hc⟩
    · cases hc
    · cases hc
    · cases hc
    replace hc := exec_seq_ok.1 hc; obtain ⟨t6, ⟨s', km'⟩, t7, rfl, hkm, hc⟩ := hc
    replace hc := exec_seq_ok.1 hc; obtain ⟨t8, p', t9, rfl, hp, hc⟩ := hc
    replace hc := exec_pure.1 hc; obtain ⟨rfl, hc⟩ := hc
    cases hc
    have key : ∀ {t r'}, Exec (postDecrypt M msg.ns kex s') t r' →
        ((r' = .ok () ∧ r = .ok (p, dev, km')) ∨ (∃ e, r' = .raised e ∧ r = .raised e) ∨ (r' = .crashed ∧ r = .crashed)) →
        DecRun M msg (⟨.getBackends, .ok bs⟩ :: (t1 ++ ⟨.evalTrust dev, .ok l⟩ :: (t6 ++ (t8 ++ []) ++ t))) r := by
      intro t r' h4 hr
      rw [List.append_nil]
      exact .post hn hk h1 hd hl (exec_keyMaterial hkm) (exec_plaintextOf hp) h4 hr
    replace h := exec_seq.1 h; rcases h with ⟨t10, _, t11, rfl, hpost, h⟩ | ⟨e, hpost, rfl⟩ | ⟨hpost, rfl⟩
    · replace h := exec_pure.1 h; obtain ⟨rfl, rfl⟩ := h
      simpa using key hpost (.inl ⟨rfl, rfl⟩)
    · simpa using key hpost (.inr (.inl ⟨e, rfl, rfl⟩))
    · simpa using key hpost (.inr (.inr ⟨rfl, rfl⟩))
  · replace hc := hcont hc; rcases hc with ⟨_, hc⟩ | ⟨_, rfl, hc⟩ | ⟨rfl, hc⟩ | ⟨l, t5, rfl, hl, hc⟩
    · cases hc
    · cases hc; exact .evalFailed hn hk h1 hd
    · cases hc; exact .distrusted hn hk h1 hd
    replace hc := exec_seq.1 hc; rcases hc with ⟨t6, ⟨s', km'⟩, t7, rfl, hkm, hc⟩ | ⟨e, hkm, hc⟩ | ⟨_, hc⟩
    · replace hc := exec_seq.1 hc; rcases hc with ⟨t8, p', t9, rfl, hp, hc⟩ | ⟨e, hp, hc⟩ | ⟨_, hc⟩
      · replace hc := exec_pure.1 hc; obtain ⟨_, hc⟩ := hc; cases hc
      · cases hc; exact .content hn hk h1 hd hl (exec_keyMaterial hkm) (exec_plaintextOf hp) (.inl ⟨_, rfl, rfl⟩)
      · cases hc
    · cases hc; exact .keys hn hk h1 hd hl (exec_keyMaterial hkm) (.inl ⟨_, rfl, rfl⟩)
    · cases hc
  · replace hc := hcont hc; rcases hc with ⟨rfl, hc⟩ | ⟨_, _, hc⟩ | ⟨_, hc⟩ | ⟨l, t5, rfl, hl, hc⟩
    · exact .lookup hn hk (by simpa using h1) (by simp)
    · cases hc
    · cases hc
    replace hc := exec_seq.1 hc; rcases hc with ⟨t6, ⟨s', km'⟩, t7, rfl, hkm, hc⟩ | ⟨e, _, hc⟩ | ⟨hkm, _⟩
    · replace hc := exec_seq.1 hc; rcases hc with ⟨t8, p', t9, rfl, hp, hc⟩ | ⟨e, hp, hc⟩ | ⟨hp, _⟩
      · replace hc := exec_pure.1 hc; obtain ⟨_, hc⟩ := hc; cases hc
      · cases hc
      · exact .content hn hk h1 hd hl (exec_keyMaterial hkm) (exec_plaintextOf hp) (.inr ⟨rfl, rfl⟩)
    · cases hc
    · exact .keys hn hk h1 hd hl (exec_keyMaterial hkm) (.inr ⟨rfl, rfl⟩)

/-! ### After the content was recovered -/

/-- Refilling the pre keys. -/
inductive Refilled (M : Mgr) (ns : Ns) : List Ev → Prop
  | enough {n} (h : M.threshold < n) : Refilled M ns [⟨.numVisible ns, .ok n⟩]
  | refill {n} (h : n ≤ M.threshold) : Refilled M ns [⟨.numVisible ns, .ok n⟩, ⟨.generatePreKeys ns (100 - n), .ok ()⟩]

/-- Publishing the changed bundle. -/
inductive Republished (M : Mgr) (ns : Ns) : Bool → List Ev → Prop
  | unchanged : Republished M ns false []
  | changed {t b} (h : Refilled M ns t) :
      Republished M ns true (t ++ [⟨.getBundle ns M.ownJid M.ownDev, .ok b⟩, ⟨.uploadBundle b, .ok ()⟩])

/-- The pre key of a key exchange is given up. -/
inductive GivenUp (M : Mgr) (ns : Ns) (s : Session) : List Ev → Prop
  | hide {ch t} (h : Republished M ns ch t) : GivenUp M ns s (⟨.getSync, .ok true⟩ :: ⟨.hidePreKey ns s, .ok ch⟩ :: t)
  | delete {ch t} (h : Republished M ns ch t) : GivenUp M ns s (⟨.getSync, .ok false⟩ :: ⟨.deletePreKey ns s, .ok ch⟩ :: t)

/-- An empty message is queued or sent. -/
inductive Replied (M : Mgr) (ns : Ns) (s : Session) : List Ev → Prop
  | queue {o o' l l'} (h1 : s.bareJid ∈ l) (h2 : s.deviceId ∈ l')
      (h3 : ∀ x, o = some (.ofStrs x) → ∀ j, j ∈ l ↔ j = s.bareJid ∨ j ∈ x) (h3' : o = none → ∀ j ∈ l, j = s.bareJid)
      (h4 : ∀ x, o' = some (.list x) → ∀ d, d ∈ l' ↔ d = s.deviceId ∨ d ∈ x.map JVal.asInt) (h4' : o' = none → ∀ d ∈ l', d = s.deviceId) :
      Replied M ns s [⟨.getSync, .ok true⟩, ⟨.load (.queue s.ns), .ok o⟩, ⟨.store (.queue s.ns) (.ofStrs l), .ok ()⟩,
        ⟨.load (.queueJid s.ns s.bareJid), .ok o'⟩, ⟨.store (.queueJid s.ns s.bareJid) (.ofInts l'), .ok ()⟩]
  | send {c km k s'} :
      Replied M ns s [⟨.getSync, .ok false⟩, ⟨.encryptEmpty ns, .ok (c, km)⟩, ⟨.encryptKM ns s km, .ok (k, s')⟩,
        ⟨.sendMessage ⟨ns, M.ownJid, M.ownDev, c, [(k, kexFor s')]⟩ s'.bareJid, .ok ()⟩, ⟨.storeSession ns s', .ok ()⟩]

theorem exec_refillPreKeys_ok {ns : Ns} {t : List Ev} (h : Exec (refillPreKeys M ns) t (.ok ())) : Refilled M ns t := by
  unfold refillPreKeys at h
  replace h := exec_call_bind_ok.1 h; obtain ⟨n, t', rfl, h⟩ := h
  replace h := exec_when.1 h; rcases h with ⟨hn, h⟩ | ⟨hn, rfl, _⟩
  · replace h := exec_call_ok.1 h; subst h
    exact .refill hn
  · exact .enough (Int.not_le.1 hn)

theorem exec_consumePreKey_ok {ns : Ns} {s : Session} {t : List Ev} (h : Exec (consumePreKey M ns s) t (.ok ())) : GivenUp M ns s t := by
  unfold consumePreKey at h
  replace h := exec_call_bind_ok.1 h; obtain ⟨sync, t', rfl, h⟩ := h
  replace h := exec_seq_ok.1 h; obtain ⟨t1, ch, t2, rfl, h1, h⟩ := h
  have hr : Republished M ns ch t2 := by
    replace h := exec_when.1 h; rcases h with ⟨hn, h⟩ | ⟨hn, rfl, _⟩
    · replace h := exec_seq_ok.1 h; obtain ⟨t3, _, t4, rfl, h2, h⟩ := h
      replace h := exec_call_bind_ok.1 h; obtain ⟨b, t5, rfl, h⟩ := h
      replace h := exec_call_ok.1 h; subst h
      rw [hn]
      exact .changed (exec_refillPreKeys_ok h2)
    · have : ch = false := by simpa using hn
      rw [this]
      exact .unchanged
  unfold discardPreKey at h1
  cases sync with
  | true =>
    simp only [if_true] at h1
    replace h1 := exec_call_ok.1 h1; subst h1
    exact .hide hr
  | false =>
    simp only [Bool.false_eq_true, if_false] at h1
    replace h1 := exec_call_ok.1 h1; subst h1
    exact .delete hr

theorem exec_sendEmptyMessage_ok {ns : Ns} {s : Session} {t : List Ev} (h : Exec (sendEmptyMessage M ns s) t (.ok ())) :
    ∃ c km k s', t = [⟨.encryptEmpty ns, .ok (c, km)⟩, ⟨.encryptKM ns s km, .ok (k, s')⟩,
        ⟨.sendMessage ⟨ns, M.ownJid, M.ownDev, c, [(k, kexFor s')]⟩ s'.bareJid, .ok ()⟩, ⟨.storeSession ns s', .ok ()⟩] := by
  unfold sendEmptyMessage at h
  replace h := exec_call_bind_ok.1 h; obtain ⟨⟨c, km⟩, t', rfl, h⟩ := h
  replace h := exec_call_bind_ok.1 h; obtain ⟨⟨k, s'⟩, t', rfl, h⟩ := h
  replace h := exec_call_bind_ok.1 h; obtain ⟨_, t', rfl, h⟩ := h
  replace h := exec_call_ok.1 h; subst h
  exact ⟨c, km, k, s', rfl⟩

theorem exec_queueEmpty_ok {s : Session} {t : List Ev} (h : Exec (queueEmpty M s) t (.ok ())) :
    Replied M ns s (⟨.getSync, .ok true⟩ :: t) := by
  unfold queueEmpty at h
  replace h := exec_seq_ok.1 h; obtain ⟨t1, a, t2, rfl, h1, h⟩ := h
  replace h := exec_call_bind_ok.1 h; obtain ⟨_, t3, rfl, h⟩ := h
  replace h := exec_seq_ok.1 h; obtain ⟨t4, b, t5, rfl, h2, h⟩ := h
  replace h := exec_call_ok.1 h; subst h
  obtain ⟨o, rfl, h3, h4⟩ := exec_loadStrs_ok h1
  obtain ⟨o', rfl, h5, h6⟩ := exec_loadInts_ok h2
  refine .queue ?_ ?_ ?_ ?_ ?_ ?_
  · simp [mem_setAdd]
  · simp [mem_setAdd]
  · intro x hx j
    obtain ⟨l, h7, rfl⟩ := h3 _ hx
    have : x = l := by
      have := congrArg chkStrs h7
      simpa using this
    subst this
    simp [mem_setAdd, Maybe.maybe, or_comm]
  · intro hn j hj
    rw [h4 hn] at hj
    simpa [mem_setAdd, Maybe.maybe] using hj
  · intro x hx j
    obtain ⟨l, h7, rfl⟩ := h5 _ hx
    cases h7
    simp only [SetOrder.mem_iter, mem_setAdd, Maybe.maybe, mem_dedup]
    exact or_comm
  · intro hn j hj
    rw [h6 hn] at hj
    simpa [mem_setAdd, Maybe.maybe] using hj

theorem replyDue_iff {kex : Option KeyExchange} {s : Session} :
    (kex ≠ none ∨ s.receivingChainLength.getD 0 > STALENESS_MAGIC_NUMBER) ↔ ReplyDue kex s := by
  unfold ReplyDue
  refine or_congr (by cases kex <;> simp) ?_
  cases s.receivingChainLength <;> simp [STALENESS_MAGIC_NUMBER]

theorem exec_autoReply_ok {ns : Ns} {kex : Option KeyExchange} {s : Session} {t : List Ev} (h : Exec (autoReply M ns kex s) t (.ok ())) :
    (ReplyDue kex s ∧ Replied M ns s t) ∨ (¬ ReplyDue kex s ∧ t = []) := by
  unfold autoReply at h
  replace h := exec_when.1 h; rcases h with ⟨hd, h⟩ | ⟨hd, rfl, _⟩
  · refine .inl ⟨replyDue_iff.1 hd, ?_⟩
    replace h := exec_call_bind_ok.1 h; obtain ⟨sync, t', rfl, h⟩ := h
    cases sync with
    | true =>
      simp only [if_true] at h
      exact exec_queueEmpty_ok h
    | false =>
      simp only [Bool.false_eq_true, if_false] at h
      obtain ⟨c, km, k, s', rfl⟩ := exec_sendEmptyMessage_ok h
      exact .send
  · exact .inr ⟨fun h => hd (replyDue_iff.2 h), rfl⟩

/-- The steps after recovering the content, if all of them succeed. -/
theorem exec_postDecrypt_ok {ns : Ns} {kex : Option KeyExchange} {s : Session} {t : List Ev} (h : Exec (postDecrypt M ns kex s) t (.ok ())) :
    ∃ pre rep, t = ⟨.storeSession ns s, .ok ()⟩ :: (pre ++ rep) ∧ ((kex.isSome = true ∧ GivenUp M ns s pre) ∨ (kex = none ∧ pre = [])) ∧
      ((ReplyDue kex s ∧ Replied M ns s rep) ∨ (¬ ReplyDue kex s ∧ rep = [])) := by
  unfold postDecrypt at h
  replace h := exec_call_bind_ok.1 h; obtain ⟨_, t', rfl, h⟩ := h
  replace h := exec_seq_ok.1 h; obtain ⟨t1, _, t2, rfl, h1, h⟩ := h
  refine ⟨t1, t2, rfl, ?_, exec_autoReply_ok h⟩
  replace h1 := exec_when.1 h1; rcases h1 with ⟨hk, h1⟩ | ⟨hk, rfl, _⟩
  · exact .inl ⟨by cases kex <;> simp_all, exec_consumePreKey_ok h1⟩
  · exact .inr ⟨by simpa using hk, rfl⟩

/-- The steps after recovering the content: nothing, or an attempt to store the session first. -/
theorem exec_postDecrypt {ns : Ns} {kex : Option KeyExchange} {s : Session} {t : List Ev} {r} (h : Exec (postDecrypt M ns kex s) t r) :
    (t = [] ∧ r = .crashed) ∨ (∃ e, t = [⟨.storeSession ns s, .error e⟩] ∧ r = .raised e) ∨
    ∃ t', t = ⟨.storeSession ns s, .ok ()⟩ :: t' ∧
      Exec (Prog.when (kex ≠ none) (consumePreKey M ns s) >>= fun _ => autoReply M ns kex s) t' r := by
  unfold postDecrypt at h
  replace h := exec_call_bind.1 h; rcases h with ⟨rfl, rfl⟩ | ⟨e, rfl, rfl⟩ | ⟨_, t', rfl, h⟩
  · exact .inl ⟨rfl, rfl⟩
  · exact .inr (.inl ⟨e, rfl, rfl⟩)
  · exact .inr (.inr ⟨t', rfl, h⟩)

/-- Interactions after the content was recovered. -/
def late (kex : Bool) : Op → Bool
  | .storeSession .. | .getSync | .encryptEmpty .. | .encryptKM .. | .sendMessage .. | .load _ => true
  | .store (.queue _) _ | .store (.queueJid ..) _ => true
  | .hidePreKey .. | .deletePreKey .. | .numVisible .. | .generatePreKeys .. | .getBundle .. | .uploadBundle .. => kex
  | _ => false

theorem ops_postDecrypt {ns : Ns} {kex : Option KeyExchange} {s : Session} :
    AllOps (fun o => late kex.isSome o = true) (postDecrypt M ns kex s) := by
  cases kex with
  | none =>
    unfold postDecrypt autoReply queueEmpty sendEmptyMessage
    have : AllOps (fun o => late (Option.isSome (none : Option KeyExchange)) o = true)
        (Prog.when ((none : Option KeyExchange) ≠ none) (consumePreKey M ns s)) := by
      simp only [Prog.when, ne_eq, not_true_eq_false, if_false]; trivial
    lib_ops []
  | some x =>
    unfold postDecrypt consumePreKey discardPreKey refillPreKeys autoReply queueEmpty sendEmptyMessage
    lib_ops []

end SM
end Verif
