import Verif.Props.StockAsk
import Verif.Props.Concurrent
/-
Pre keys and bundles when calls overlap.
-/
namespace Verif
open SM Spec

namespace Spec

/-- Trust decisions that leave pre keys alone. -/
def LeavesKeys (M : Mgr) : Prop := ∀ ds i, AllOps (fun o => Stock.stocks o = false) (M.decide ds i)

/-- Managers and calls considered: refill thresholds are at least `thr`, trust decisions leave pre keys alone, managers are not created and the backend is not
purged at the same time. -/
structure Refills (thr : Int) (ns : Ns) (k : Running) : Prop where
  low : thr ≤ k.M.threshold
  high : k.M.threshold ≤ 99
  decisions : LeavesKeys k.M
  created : ∀ bs l f, k.c ≠ .create bs l f
  purged : k.c ≠ .purgeBackend ns

/-- The calls that have not ended. -/
def unfinished (calls : List Running) : Nat := calls.countP fun k => match k.res with
  | .crashed => true
  | _ => false

end Spec

/-- C104 in full: if the stock of the backend is in order before, it is in order after overlapping calls are done. -/
def C104_Claim : Prop := ∀ (thr : Int) (ns : Ns) (calls : List Running) (h t : List Ev), (∀ st, Counted h st → thr < (st ns : Int) ∧ st ns ≤ 100) →
  (∀ k ∈ calls, Refills thr ns k ∧ k.res ≠ .crashed) → Shuffle (calls.map (·.trace)) t → NoneFailed t → ∀ st, Counted (h ++ t) st → thr < (st ns : Int) ∧ st ns ≤ 100

namespace StockPar

/-- Where a call is: nothing to do, about to count, about to generate pre keys. -/
inductive Stage | idle | count | generate (n : Int)
deriving DecidableEq

def Stage.owed : Stage → Nat
  | .idle => 0
  | _ => 1

def step (thr : Int) (ns : Ns) : Stage → Ev → Stage
  | .idle, ⟨.hidePreKey ns' _, .ok b⟩ => if ns' = ns ∧ b = true then .count else .idle
  | .idle, ⟨.deletePreKey ns' _, .ok b⟩ => if ns' = ns ∧ b = true then .count else .idle
  | .count, ⟨.numVisible _, .ok n⟩ => if n ≤ thr then .generate n else .idle
  | _, _ => .idle

/-- What a call may do. -/
def may (ns : Ns) : Stage → Op → Prop
  | .idle, o => o ≠ .purge ns
  | .count, o => o = .numVisible ns
  | .generate n, o => o = .generatePreKeys ns (100 - n)

/-- The view of a single call. -/
def View (thr : Int) (ns : Ns) : Sem LibSig Exn Stage where
  ok _ e := PreKeyOp e.1 = true → ∀ x, e.2 ≠ .error x
  next := step thr ns

variable {thr : Int} {ns : Ns}

/-- The end of a call. -/
def Ends {α : Type} (r : Res Exn α) (l : Stage) : Prop := r ≠ .crashed → l = .idle

def calm (ns : Ns) : Op → Bool
  | .hidePreKey .. | .deletePreKey .. => false
  | .purge ns' => decide (ns' ≠ ns)
  | _ => true

theorem step_idle {e : Ev} (h : calm ns e.1 = true) : step thr ns .idle e = .idle := by
  unfold step
  split <;> first | (cases h; done) | rfl | contradiction

theorem may_idle {o : Op} (h : calm ns o = true) : may ns .idle o := by
  rintro rfl
  simp [calm] at h

theorem calm_of {o : Op} (h : Stock.stocks o = false) : calm ns o = true := by
  cases o <;> first | rfl | cases h

theorem calm_info {jid : Jid} {o : Op} (h : Foot.Info jid o) : calm ns o = true := by cases h <;> rfl

theorem calm_refresh {M : Mgr} {ns' : Ns} {jid : Jid} {o : Op} (h : Foot.Refresh M ns' jid o) : calm ns o = true := by
  cases h with
  | download => rfl
  | update h => cases h <;> rfl

theorem guar_calm {α : Type} {p : P α} (h : AllOps (fun o => calm ns o = true) p) : guar (View thr ns) (may ns) p (fun _ l => l = .idle) .idle := by
  induction p with
  | ret | raise => rfl
  | op o k ih =>
    refine ⟨may_idle h.1, rfl, fun r _ => ?_⟩
    show guar (View thr ns) (may ns) (k r) _ (step thr ns .idle ⟨o, r⟩)
    rw [step_idle h.1]
    exact ih r (h.2 r)

theorem guar_bind_calm {α β : Type} {p : P α} {f : α → P β} (h : AllOps (fun o => calm ns o = true) p) (hf : ∀ a, guar (View thr ns) (may ns) (f a) Ends .idle) :
    guar (View thr ns) (may ns) (p >>= f) Ends .idle := by
  refine guar_bind.2 (guar_mono (guar_calm h) fun r l hl => ?_)
  subst hl
  cases r with
  | ok a => exact hf a
  | raised e => exact fun _ => rfl
  | crashed => exact fun h => absurd rfl h

theorem guar_consume {M : Mgr} {ns' : Ns} {s : Session} (hl : thr ≤ M.threshold) : guar (View thr ns) (may ns) (consumePreKey M ns' s) Ends .idle := by
  unfold consumePreKey
  refine guar_bind_calm (AllOps.perform rfl) fun sync => ?_
  have refill : guar (View thr ns) (may ns) (do refillPreKeys M ns'; let b ← call (.getBundle ns' M.ownJid M.ownDev); call (.uploadBundle b)) Ends
      (if ns' = ns then .count else .idle) := by
    have last : guar (View thr ns) (may ns) (do let b ← call (.getBundle ns' M.ownJid M.ownDev); call (.uploadBundle b)) Ends .idle :=
      guar_mono (guar_calm (AllOps.bind (AllOps.perform rfl) fun b => AllOps.perform rfl)) fun _ _ h _ => h
    by_cases hn : ns' = ns
    · subst hn
      rw [if_pos rfl]
      unfold refillPreKeys
      rw [guar_bind, guar_bind]
      refine ⟨rfl, fun h => absurd rfl h, fun n hok => ?_⟩
      cases n with
      | error x => exact absurd rfl (hok rfl x)
      | ok n =>
        show guar (View thr ns') (may ns') (Prog.when (n ≤ M.threshold) (call (.generatePreKeys ns' (100 - n)))) _ (if n ≤ thr then .generate n else .idle)
        by_cases ht : n ≤ thr
        · rw [if_pos ht, Prog.when, if_pos (Int.le_trans ht hl)]
          refine ⟨rfl, fun h => absurd rfl h, fun v hok => ?_⟩
          cases v with
          | error x => exact absurd rfl (hok rfl x)
          | ok v => exact last
        · rw [if_neg ht]
          refine guar_mono (guar_calm (AllOps.when fun _ => AllOps.perform rfl)) fun r l h => ?_
          subst h
          cases r with
          | ok _ => exact last
          | raised _ => exact fun _ => rfl
          | crashed => exact fun h => absurd rfl h
    · rw [if_neg hn]
      unfold refillPreKeys
      refine guar_bind_calm (AllOps.bind (AllOps.perform rfl) fun n => AllOps.when fun _ => AllOps.perform rfl) fun _ => last
  have after : ∀ b : Bool, guar (View thr ns) (may ns) (Prog.when (b = true) (do refillPreKeys M ns'; let b ← call (.getBundle ns' M.ownJid M.ownDev); call (.uploadBundle b))) Ends
      (if ns' = ns ∧ b = true then .count else .idle) := by
    intro b
    cases b with
    | true => simpa [Prog.when] using refill
    | false => exact fun _ => by simp
  unfold discardPreKey
  cases sync
  all_goals
    refine ⟨nofun, fun h => absurd rfl h, fun b hok => ?_⟩
    cases b with
    | error x => exact absurd rfl (hok rfl x)
    | ok b => exact after b

theorem guar_decrypt {M : Mgr} {msg : Message} (hl : thr ≤ M.threshold) : guar (View thr ns) (may ns) (Call.run M (.decrypt msg)) Ends .idle := by
  have h1 : AllOps (fun o => calm ns o = true) (findSender M msg) := by
    unfold findSender
    lib_ops []
    all_goals first
      | exact (ops_getDeviceInformation M _).mono fun _ h => calm_info h
      | exact (ops_refreshDeviceList M _ _).mono fun _ h => calm_refresh h
  have h2 : ∀ dev ekm kex, AllOps (fun o => calm ns o = true) (decryptContent M msg dev ekm kex) := by
    intro dev ekm kex
    unfold decryptContent keyMaterial plaintextOf decryptKeyMaterial handleKeyExchange
    lib_ops []
  have h3 : ∀ kex s, AllOps (fun o => calm ns o = true) (autoReply M msg.ns kex s) := by
    intro kex s
    unfold autoReply queueEmpty
    lib_ops []
    all_goals exact (ops_sendEmptyMessage M _ _).mono fun _ h => by cases h <;> rfl
  have drop : ∀ {α : Type} {p : P α}, guar (View thr ns) (may ns) p Ends .idle → guar (View thr ns) (may ns) (do let _ ← p; pure ()) Ends .idle := by
    intro α p h
    rw [guar_bind]
    refine guar_mono h fun r l hr => ?_
    cases r with
    | ok a => exact fun _ => hr nofun
    | raised e => exact fun _ => hr nofun
    | crashed => exact fun h => absurd rfl h
  have skip : ∀ {e : Exn} {α : Type}, guar (View thr ns) (may ns) (throwE e : P α) Ends .idle := fun _ => rfl
  simp only [Call.run]
  refine drop ?_
  unfold decrypt
  refine guar_bind_calm (AllOps.perform rfl) fun bs => ?_
  split
  · exact skip
  · split
    · exact skip
    · refine guar_bind_calm h1 fun dev => guar_bind_calm (h2 _ _ _) fun x => ?_
      unfold postDecrypt
      rw [guar_bind]
      have hp : ∀ kex, guar (View thr ns) (may ns) (do call (.storeSession msg.ns x.2.1); Prog.when (kex ≠ none) (consumePreKey M msg.ns x.2.1); autoReply M msg.ns kex x.2.1) Ends .idle := by
        intro kex
        refine guar_bind_calm (AllOps.perform rfl) fun _ => ?_
        rw [guar_bind]
        have hc : guar (View thr ns) (may ns) (Prog.when (kex ≠ none) (consumePreKey M msg.ns x.2.1)) Ends .idle := by
          unfold Prog.when
          split
          · exact guar_consume hl
          · exact fun _ => rfl
        refine guar_mono hc fun r l hr => ?_
        cases r with
        | ok a =>
          have := hr nofun
          subst this
          exact guar_mono (guar_calm (h3 _ _)) fun _ _ h _ => h
        | raised e => exact fun _ => hr nofun
        | crashed => exact fun h => absurd rfl h
      refine guar_mono (hp _) fun r l hr => ?_
      cases r with
      | ok a => exact fun _ => hr nofun
      | raised e => exact fun _ => hr nofun
      | crashed => exact fun h => absurd rfl h

theorem calm_others {M : Mgr} {c : Call} (hd : LeavesKeys M) (hc : ∀ msg, c ≠ .decrypt msg) (hcr : ∀ bs l f, c ≠ .create bs l f) (hpu : c ≠ .purgeBackend ns) :
    AllOps (fun o => calm ns o = true) (c.run M) := by
  have drop : ∀ {α : Type} {p : P α} {φ : Op → Prop}, AllOps φ p → AllOps φ (do let _ ← p; pure ()) := fun h => AllOps.bind h fun _ => AllOps.ret _
  cases c <;> simp only [Call.run]
  case decrypt msg => exact absurd rfl (hc msg)
  case encrypt jids pt prio i =>
    refine drop ?_
    unfold encrypt
    have h1 : ∀ order, AllOps (fun o => calm ns o = true) (recipientDevices M order (setUnion jids [M.ownJid])) := by
      intro order
      unfold recipientDevices getDeviceInformation' deviceInformation identityKeyOf repairNamespaces
      lib_ops []
      exact (ops_fetchIdentityKey ..).mono fun _ h => calm_info h
    have h2 : ∀ ds, AllOps (fun o => calm ns o = true) (decideTrust M ds i) := by
      intro ds
      unfold decideTrust askTrust devicesWithTrust reloadTrust
      lib_ops []
      exact (hd _ _).mono fun o h => calm_of h
    have h3 : ∀ cache ds, AllOps (fun o => calm ns o = true) (encryptTrusted M (setUnion jids [M.ownJid]) cache pt ds) := by
      intro cache ds
      unfold encryptTrusted devicesWithTrust encryptBackend encryptDevice encryptForDevice bundleFor
      lib_ops []
    refine AllOps.bind (AllOps.perform rfl) fun _ => AllOps.bind (allOps_liftE _) fun order => AllOps.bind (h1 order) fun x => AllOps.bind (h2 _) fun ds => h3 _ _
  case replaceSessions j d => exact drop ((ops_replaceSessions M j d).mono fun _ h => by cases h with | info h => exact calm_info h | _ => rfl)
  case afterHistorySync => exact (ops_afterHistorySync M).mono fun _ h => by cases h with | sendEmpty _ h => cases h <;> rfl | _ => rfl
  case getIdentityKeyPair => exact drop (ops_ikp.mono fun _ h => by cases h <;> rfl)
  case create bs label fuel => exact absurd rfl (hcr bs label fuel)
  case purgeBackend ns' =>
    have hne : ns' ≠ ns := fun h => hpu (by rw [h])
    exact (ops_purgeBackend M ns').mono fun _ h => by
      cases h with
      | purge => exact decide_eq_true hne
      | info h => exact calm_info h
      | _ => rfl
  case purgeBareJid jid => exact (ops_purgeBareJid M jid).mono fun _ h => by cases h <;> rfl
  case ensureDataConsistency => exact (ops_ensureDataConsistency M).mono fun _ h => by cases h with | refresh _ h => exact calm_refresh h | _ => rfl
  case rotation p f r => exact (ops_manageRotation M p f r).mono fun _ h => by cases h <;> rfl
  case updateDeviceList ns jid dl => exact (ops_updateDeviceList M ns jid dl).mono fun _ h => by cases h <;> rfl
  case refreshDeviceList ns jid => exact (ops_refreshDeviceList M ns jid).mono fun _ h => calm_refresh h
  case refreshDeviceLists jid =>
    unfold refreshDeviceLists
    exact AllOps.bind (AllOps.perform rfl) fun bs => AllOps.forEach fun ns _ => (ops_refreshDeviceList M ns jid).mono fun _ h => calm_refresh h
  case setTrust => exact AllOps.perform rfl
  case getSendingChainLength x =>
    unfold getSendingChainLength
    lib_ops []
  case setOwnLabel l => exact (ops_setOwnLabel M l).mono fun _ h => by cases h <;> rfl
  case getDeviceInformation jid => exact drop ((ops_getDeviceInformation M jid).mono fun _ h => calm_info h)
  case getOwnDeviceInformation => exact drop ((ops_getOwnDeviceInformation M).mono fun _ h => calm_info h)
  case beforeHistorySync => exact AllOps.perform rfl

theorem guar_call {k : Running} (h : Refills thr ns k) : guar (View thr ns) (may ns) (k.c.run k.M) Ends .idle := by
  by_cases hc : ∃ msg, k.c = .decrypt msg
  · obtain ⟨msg, hc⟩ := hc
    rw [hc]
    exact guar_decrypt h.low
  · exact guar_mono (guar_calm (calm_others h.decisions (fun msg hm => hc ⟨msg, hm⟩) h.created h.purged)) fun _ _ h _ => h

/-- Interactions of a call, from a stage on. -/
def Steps (thr : Int) (ns : Ns) : Stage → List Ev → Prop
  | _, [] => True
  | l, e :: u => may ns l e.1 ∧ Steps thr ns (step thr ns l e) u

theorem guar_steps {α : Type} {p : P α} {u : List Ev} {r : Res Exn α} {Q : Res Exn α → Stage → Prop} (he : Exec p u r) (hn : NoneFailed u) :
    ∀ {l}, guar (View thr ns) (may ns) p Q l → Steps thr ns l u ∧ Q r (u.foldl (step thr ns) l) := by
  induction he with
  | ret => exact fun h => ⟨trivial, h⟩
  | raise => exact fun h => ⟨trivial, h⟩
  | crash => exact fun h => ⟨trivial, h.2.1⟩
  | op r _ ih =>
    intro l h
    have h1 := ih (fun e he => hn e (List.mem_cons_of_mem _ he)) (h.2.2 r (hn _ (by simp)))
    exact ⟨⟨h.1, h1.1⟩, h1.2⟩

/-- The forward reading of `Counted`. -/
inductive Goes : (Ns → Nat) → List Ev → (Ns → Nat) → Prop
  | nil {s} : Goes s [] s
  | cons {s e s1 t s2} : Counts s e s1 → Goes s1 t s2 → Goes s (e :: t) s2

theorem Goes.snoc {s t s1 e s2} (h : Goes s t s1) (hc : Counts s1 e s2) : Goes s (t ++ [e]) s2 := by
  induction h with
  | nil => exact .cons hc .nil
  | cons h1 _ ih => exact .cons h1 (ih hc)

theorem goes_of {h t : List Ev} {st : Ns → Nat} (hc : Counted (h ++ t) st) : ∃ s, Counted h s ∧ Goes s t st := by
  have key : ∀ l st, Counted l st → ∀ h t, l = h ++ t → ∃ s, Counted h s ∧ Goes s t st := by
    intro l st hl
    induction hl with
    | nil =>
      intro h t e
      obtain ⟨rfl, rfl⟩ := List.append_eq_nil_iff.1 e.symm
      exact ⟨_, .nil, .nil⟩
    | @snoc l e s s' hl hc ih =>
      intro h t ht
      rcases List.eq_nil_or_concat t with rfl | ⟨t, x, rfl⟩
      · rw [List.append_nil] at ht
        subst ht
        exact ⟨_, .snoc hl hc, .nil⟩
      · rw [List.concat_eq_append, ← List.append_assoc] at ht
        obtain ⟨h1, h2⟩ := List.append_inj' ht rfl
        cases h2
        obtain ⟨s0, h3, h4⟩ := ih h t h1
        rw [List.concat_eq_append]
        exact ⟨s0, h3, h4.snoc hc⟩
  exact key _ _ hc _ _ rfl

/-- One interaction of one call. -/
theorem step_ok {l : Stage} {e : Ev} {s s' : Ns → Nat} {rest : Nat} (hg : ∀ n, l = .generate n → n ≤ 99) (hm : may ns l e.1) (hc : Counts s e s') (hn : PreKeyOp e.1 = true → ∀ x, e.2 ≠ .error x)
    (h : thr < (s ns : Int) + (l.owed + rest : Nat)) : thr < (s' ns : Int) + ((step thr ns l e).owed + rest : Nat) := by
  obtain ⟨o, r⟩ := e
  cases l with
  | idle =>
    simp only [Stage.owed, Nat.zero_add] at h
    by_cases hx : Stock.stocks o = false
    · rw [Stock.counts_free hx hc]
      omega
    cases r with
    | error x =>
      cases o <;> first | exact absurd rfl hx | exact absurd rfl (hn rfl x) | skip
      rename_i ns'
      have : ns ≠ ns' := fun h => hm (by rw [h])
      have hs := hc.2 ns this
      rw [hs]
      omega
    | ok v =>
      have drop : ∀ ns', s' ns' ≤ s ns' → (∀ m, m ≠ ns' → s' m = s m) → (∀ b : Bool, (s' ns' + 1 = s ns' → b = true) → s ns' ≤ s' ns' + 1 →
          thr < (s' ns : Int) + ((if ns' = ns ∧ b = true then Stage.count else Stage.idle).owed + rest : Nat)) := by
        intro ns' h1 h2 b h3 h4
        by_cases hn : ns' = ns
        · subst hn
          cases b with
          | true => simp only [and_self, if_true, Stage.owed]; omega
          | false =>
            have h5 : s' ns' + 1 ≠ s ns' := fun hq => nomatch h3 hq
            simp only [Bool.false_eq_true, and_false, if_false, Stage.owed]
            omega
        · rw [h2 ns (Ne.symm hn)]
          omega
      cases o with
      | generatePreKeys ns' n =>
        have : s ns ≤ s' ns := by
          by_cases hq : ns = ns'
          · subst hq; rw [hc.1]; omega
          · rw [hc.2 ns hq]; exact Nat.le_refl _
        omega
      | hidePreKey ns' x =>
        obtain ⟨h1, h2⟩ := hc
        cases v with
        | true => rw [if_pos rfl] at h1; exact drop ns' (by omega) h2 true (fun _ => rfl) (by omega)
        | false => rw [if_neg nofun] at h1; exact drop ns' (by omega) h2 false (fun h => by omega) (by omega)
      | deletePreKey ns' x =>
        obtain ⟨h1, h2⟩ := hc
        refine drop ns' (by omega) h2 v (fun hq => ?_) (by omega)
        rcases h1 with h1 | h1
        · omega
        · exact h1.1
      | purge ns' =>
        have : ns ≠ ns' := fun h => hm (by rw [h])
        rw [hc.2 ns this]
        omega
      | _ => exact absurd rfl hx
  | count =>
    cases hm
    cases r with
    | error x => exact absurd rfl (hn rfl x)
    | ok n =>
      obtain ⟨h1, rfl⟩ := hc
      by_cases ht : n ≤ thr
      · have : step thr ns .count ⟨.numVisible ns, .ok n⟩ = .generate n := if_pos ht
        rw [this]
        exact h
      · have : step thr ns .count ⟨.numVisible ns, .ok n⟩ = .idle := if_neg ht
        rw [this]
        have h2 : ¬ (s' ns : Int) ≤ thr := h1 ▸ ht
        simp only [Stage.owed]
        omega
  | generate n =>
    cases hm
    cases r with
    | error x => exact absurd rfl (hn rfl x)
    | ok v =>
      obtain ⟨h1, -⟩ := hc
      have h2 := hg n rfl
      have h3 : step thr ns (.generate n) ⟨.generatePreKeys ns (100 - n), .ok v⟩ = .idle := rfl
      rw [h3]
      simp only [Stage.owed] at h ⊢
      omega

theorem step_generate {l : Stage} {e : Ev} {n : Int} (h : step thr ns l e = .generate n) : n ≤ thr := by
  unfold step at h
  split at h
  · split at h <;> cases h
  · split at h <;> cases h
  · split at h
    · cases h; assumption
    · cases h
  · cases h

/-- Any number of calls: pre keys that are missing are still to be generated. -/
theorem keeps {ts : List (List Ev)} {t : List Ev} (h99 : thr ≤ 99) (hs : Shuffle ts t) : ∀ (ks : List (Stage × List Ev)), ks.map (·.2) = ts →
    (∀ k ∈ ks, Steps thr ns k.1 k.2 ∧ ∀ n, k.1 = .generate n → n ≤ 99) → NoneFailed t → ∀ {s s'}, Goes s t s' →
    thr < (s ns : Int) + ((ks.map (·.1.owed)).sum : Nat) →
    thr < (s' ns : Int) + ((ks.map fun k => (k.2.foldl (step thr ns) k.1).owed).sum : Nat) := by
  induction hs with
  | nil h =>
    intro ks hk _ _ s s' hg hx
    cases hg
    have : (ks.map fun k => (k.2.foldl (step thr ns) k.1).owed) = ks.map (·.1.owed) := by
      refine List.map_congr_left fun k hm => ?_
      rw [h k.2 (by rw [← hk]; exact List.mem_map_of_mem hm)]
      rfl
    rw [this]
    exact hx
  | @cons pre post e u t hs ih =>
    intro ks hk hst hn s s' hg hx
    obtain ⟨k1, k2, rfl, rfl, hk2⟩ := List.map_eq_append_iff.1 hk
    obtain ⟨⟨l, u'⟩, k3, rfl, hu, rfl⟩ := List.map_eq_cons_iff.1 hk2
    simp only at hu
    subst hu
    cases hg with
    | cons hc hg =>
      have hl := hst (l, e :: u) (by simp)
      have h1 := ih (k1 ++ (step thr ns l e, u) :: k3) (by simp) (fun k hm => ?_) (fun e he => hn e (List.mem_cons_of_mem _ he)) hg (?_)
      · simpa using h1
      · simp only [List.mem_append, List.mem_cons] at hm
        rcases hm with h | rfl | h
        · exact hst k (by simp [h])
        · exact ⟨hl.1.2, fun n hq => Int.le_trans (step_generate hq) h99⟩
        · exact hst k (by simp [h])
      · simp only [List.map_append, List.map_cons, List.sum_append, List.sum_cons] at hx
        have h2 := step_ok (thr := thr) (rest := (k1.map (·.1.owed)).sum + (k3.map (·.1.owed)).sum) hl.2 hl.1.1 hc (hn e (by simp)) (by
          simp only
          omega)
        simp only at h2
        simp only [List.map_append, List.map_cons, List.sum_append, List.sum_cons]
        omega

end StockPar

/-- C104, the part that holds: overlapping calls may use up pre keys faster than they replace them, but at any time no more than one pre key is missing for each
call that has not ended, and none are missing once the calls have ended.  Not proved, because it is not true, is the upper bound of 100. -/
theorem C104_partial (thr : Int) (ns : Ns) (calls : List Running) (h t : List Ev) (hh : ∀ st, Counted h st → thr < (st ns : Int)) (hc : ∀ k ∈ calls, Refills thr ns k)
    (hs : Shuffle (calls.map (·.trace)) t) (hn : NoneFailed t) (st : Ns → Nat) (hst : Counted (h ++ t) st) :
    thr < (st ns : Int) + (unfinished calls : Int) := by
  obtain ⟨s0, h1, h2⟩ := StockPar.goes_of hst
  have h3 := hh s0 h1
  cases calls with
  | nil =>
    have : t = [] := by
      cases t with
      | nil => rfl
      | cons e t => obtain ⟨u, hu, -⟩ := (hs.mem_iff e).1 (by simp); cases hu
    subst this
    cases h2
    simpa [unfinished] using h3
  | cons k0 ks0 =>
    have h99 : thr ≤ 99 := Int.le_trans (hc k0 (by simp)).low (hc k0 (by simp)).high
    generalize k0 :: ks0 = calls at hc hs ⊢
    have hg : ∀ k ∈ calls, StockPar.Steps thr ns .idle k.trace ∧ StockPar.Ends k.res (k.trace.foldl (StockPar.step thr ns) .idle) := fun k hk =>
      StockPar.guar_steps k.exec (fun e he => hn e ((hs.mem_iff e).2 ⟨k.trace, List.mem_map_of_mem hk, he⟩)) (StockPar.guar_call (hc k hk))
    have h4 := StockPar.keeps (ns := ns) h99 hs (calls.map fun k => (.idle, k.trace)) (by simp) (fun x hx => ?_) hn h2 ?_
    · refine Int.lt_of_lt_of_le h4 (Int.add_le_add_left (Int.ofNat_le.2 ?_) _)
      rw [List.map_map]
      clear h4 hs hc
      induction calls with
      | nil => exact Nat.le_refl _
      | cons k ks ih =>
        have h5 := ih fun k hk => hg k (List.mem_cons_of_mem _ hk)
        have h6 := (hg k (by simp)).2
        simp only [List.map_cons, List.sum_cons, Function.comp, unfinished, List.countP_cons] at h5 ⊢
        cases hr : k.res with
        | crashed =>
          have h7 : ∀ l : StockPar.Stage, l.owed ≤ 1 := fun l => by cases l <;> simp [StockPar.Stage.owed]
          have h8 := h7 (k.trace.foldl (StockPar.step thr ns) .idle)
          simp only [if_true]
          omega
        | ok a =>
          have h8 : (k.trace.foldl (StockPar.step thr ns) .idle).owed = 0 := by rw [h6 (by rw [hr]; nofun)]; rfl
          rw [h8]
          omega
        | raised a =>
          have h8 : (k.trace.foldl (StockPar.step thr ns) .idle).owed = 0 := by rw [h6 (by rw [hr]; nofun)]; rfl
          rw [h8]
          omega
    · obtain ⟨k, hk, rfl⟩ := List.mem_map.1 hx
      exact ⟨(hg k hk).1, nofun⟩
    · have : ((calls.map fun k => ((.idle : StockPar.Stage), k.trace)).map (·.1.owed)).sum = 0 := by
        rw [List.map_map]
        clear hg hs hc
        induction calls with
        | nil => rfl
        | cons k ks ih => simp only [List.map_cons, List.sum_cons, ih]; rfl
      rw [this]
      simpa using h3

/-- C104, once the calls have ended. -/
theorem C104_done (thr : Int) (ns : Ns) (calls : List Running) (h t : List Ev) (hh : ∀ st, Counted h st → thr < (st ns : Int)) (hc : ∀ k ∈ calls, Refills thr ns k ∧ k.res ≠ .crashed)
    (hs : Shuffle (calls.map (·.trace)) t) (hn : NoneFailed t) (st : Ns → Nat) (hst : Counted (h ++ t) st) : thr < (st ns : Int) := by
  have h1 := C104_partial thr ns calls h t hh (fun k hk => (hc k hk).1) hs hn st hst
  have h2 : unfinished calls = 0 := by
    refine List.countP_eq_zero.2 fun k hk => ?_
    have := (hc k hk).2
    cases hr : k.res with
    | crashed => exact absurd hr this
    | _ => exact nofun
  rw [h2] at h1
  simpa using h1

/-- C104, after calls one by one, in the sense of C43. -/
theorem C104_life {own : Jid} {x : XEdDSA} {thr : Int} {s0 s : Use} (h0 : New s0) (hlog : s0.world.log = []) (h : Steady own x thr s0 s) (hm : s.mgrs ≠ [])
    (hf : NoneFailed s.world.log) {ns : Ns} (hns : ns ∈ s.world.backends) (calls : List Running) (t : List Ev) (hc : ∀ k ∈ calls, Refills thr ns k ∧ k.res ≠ .crashed)
    (hs : Shuffle (calls.map (·.trace)) t) (hn : NoneFailed t) (st : Ns → Nat) (hst : Counted (s.world.log ++ t) st) : thr < (st ns : Int) :=
  C104_done thr ns calls s.world.log t (fun _ hst => (C43 h0 hlog h hm hf hst hns).1) hc hs hn st hst

namespace StockPar

def kexA : Message := ⟨"n", "a", 7, ⟨false, 1⟩, [(⟨"me", 1, 7⟩, some ⟨[7], 2⟩)]⟩
def kexB : Message := ⟨"n", "a", 7, ⟨false, 1⟩, [(⟨"me", 1, 7⟩, some ⟨[7], 3⟩)]⟩
def turns : List Nat := ((List.range 40).map fun _ => [0, 1]).flatten
def both := sched (Lib.env Stock.counting) Lib.next turns [(Call.decrypt kexA).run Mgr.ex, (Call.decrypt kexB).run Mgr.ex] Stock.received.world

/-- The same, interrupted after the pre keys were given up. -/
def halfway := sched (Lib.env Stock.counting) Lib.next (turns.take 28) [(Call.decrypt kexA).run Mgr.ex, (Call.decrypt kexB).run Mgr.ex] Stock.received.world


theorem refills_ex {c : Call} {t r} (he : Exec (c.run Mgr.ex) t r) (h1 : ∀ bs l f, c ≠ .create bs l f) (h2 : c ≠ .purgeBackend "n") : Refills 99 "n" ⟨Mgr.ex, c, t, r, he⟩ :=
  ⟨show (99 : Int) ≤ Mgr.ex.threshold by decide, show Mgr.ex.threshold ≤ 99 by decide, fun _ _ => AllOps.ret _, h1, h2⟩

theorem start (st : Ns → Nat) (h : Counted Stock.received.world.log st) : (99 : Int) < (st "n" : Int) ∧ st "n" ≤ 100 := by
  obtain ⟨h1, h2, h3, h4, -⟩ := C43_example
  have := C43 fresh_new rfl h1 h2 h3 h (ns := "n") (by rw [h4]; simp)
  exact ⟨this.1, this.2.2⟩

end StockPar

/-- The claim in full does not hold: two key exchanges are received at the same time; both calls count the pre keys after both have given up one, both generate two. -/
theorem C104_refuted : ¬ C104_Claim := by
  intro h
  have hx := sched_ok Lib (Lib.env Stock.counting) (Lib.env_ok Stock.counting Stock.counting_ok) StockPar.turns
    [(Call.decrypt StockPar.kexA).run Mgr.ex, (Call.decrypt StockPar.kexB).run Mgr.ex] Stock.received.world
  have c1 : StockPar.both.2.1[0]?.any (Prog.isOk fun _ => true) = true := by decide +kernel
  have c2 : StockPar.both.2.1[1]?.any (Prog.isOk fun _ => true) = true := by decide +kernel
  have c3 : (Stock.tally (fun _ => 0) (Stock.received.world.log ++ StockPar.both.2.2.1)).map (fun s => s "n") = some 102 := by decide +kernel
  have c4 : Stock.NoneFailedB StockPar.both.2.2.1 = true := by decide +kernel
  change SchedOk Lib _ _ StockPar.both at hx
  generalize StockPar.both = x at hx c1 c2 c3 c4
  obtain ⟨ts, y, t, w'⟩ := x
  obtain ⟨t1, t2, rfl⟩ := list2 (l := ts) hx.len
  obtain ⟨_, e1, -⟩ := hx.isOk 0 rfl rfl _ c1
  obtain ⟨_, e2, -⟩ := hx.isOk 1 rfl rfl _ c2
  obtain ⟨st, h1, h2⟩ := Option.map_eq_some_iff.1 c3
  have := h 99 "n" [⟨Mgr.ex, .decrypt StockPar.kexA, t1, _, e1⟩, ⟨Mgr.ex, .decrypt StockPar.kexB, t2, _, e2⟩] Stock.received.world.log t StockPar.start
    (fun k hk => ?_) hx.shuffle (Stock.noneFailed c4) st (Stock.tallied h1)
  · omega
  · simp only [List.mem_cons, List.not_mem_nil, or_false] at hk
    rcases hk with rfl | rfl
    · exact ⟨StockPar.refills_ex e1 nofun nofun, nofun⟩
    · exact ⟨StockPar.refills_ex e2 nofun nofun, nofun⟩

/-- The bound for calls that have not ended is met: two pre keys are missing. -/
theorem C104_example : ∃ (calls : List Running) (t : List Ev) (st : Ns → Nat), calls.length = 2 ∧ (∀ k ∈ calls, Refills 99 "n" k) ∧ Shuffle (calls.map (·.trace)) t ∧
    NoneFailed t ∧ Counted (Stock.received.world.log ++ t) st ∧ unfinished calls = 2 ∧ st "n" = 98 := by
  have hx := sched_ok Lib (Lib.env Stock.counting) (Lib.env_ok Stock.counting Stock.counting_ok) (StockPar.turns.take 28)
    [(Call.decrypt StockPar.kexA).run Mgr.ex, (Call.decrypt StockPar.kexB).run Mgr.ex] Stock.received.world
  have c1 : StockPar.halfway.2.1[0]?.any Prog.isOp = true := by decide +kernel
  have c2 : StockPar.halfway.2.1[1]?.any Prog.isOp = true := by decide +kernel
  have c3 : (Stock.tally (fun _ => 0) (Stock.received.world.log ++ StockPar.halfway.2.2.1)).map (fun s => s "n") = some 98 := by decide +kernel
  have c4 : Stock.NoneFailedB StockPar.halfway.2.2.1 = true := by decide +kernel
  change SchedOk Lib _ _ StockPar.halfway at hx
  generalize StockPar.halfway = x at hx c1 c2 c3 c4
  obtain ⟨ts, y, t, w'⟩ := x
  obtain ⟨t1, t2, rfl⟩ := list2 (l := ts) hx.len
  have e1 := hx.cut 0 rfl rfl c1
  have e2 := hx.cut 1 rfl rfl c2
  obtain ⟨st, h1, h2⟩ := Option.map_eq_some_iff.1 c3
  refine ⟨[⟨Mgr.ex, .decrypt StockPar.kexA, t1, _, e1⟩, ⟨Mgr.ex, .decrypt StockPar.kexB, t2, _, e2⟩], t, st, rfl, fun k hk => ?_, hx.shuffle, Stock.noneFailed c4, Stock.tallied h1, rfl, h2⟩
  simp only [List.mem_cons, List.not_mem_nil, or_false] at hk
  rcases hk with rfl | rfl
  · exact StockPar.refills_ex e1 nofun nofun
  · exact StockPar.refills_ex e2 nofun nofun

end Verif
