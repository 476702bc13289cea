import Verif.Props.Stock
import Verif.Props.Sync
/-
Requests for pre keys, and an example for their number.
-/
namespace Verif
open SM Spec Foot

/-! ### Requests -/

namespace Stock
section
variable {M : Mgr} {α : Type}

/-- Requests are for at least one pre key. -/
def Request (o : Op) : Prop := ∀ ns n, o = .generatePreKeys ns n → 1 ≤ n

theorem ask_refill (h99 : M.threshold ≤ 99) (ns : Ns) : AllOps Request (refillPreKeys M ns) := by
  unfold refillPreKeys
  refine .bind (.perform nofun) fun (n : Int) => .when fun hn => .perform fun ns' n' h => ?_
  cases h
  have hn : n ≤ M.threshold := hn
  omega

theorem ask_info (jid : Jid) : AllOps Request (getDeviceInformation' M jid) := (free_info jid).mono fun o h ns n e => by subst e; cases h

theorem ask_own : AllOps Request (getOwnDeviceInformation M) := by
  unfold getOwnDeviceInformation getDeviceInformation
  lib_ops [ask_info]

theorem ask_update (ns : Ns) (jid : Jid) (dl : DevList) : AllOps Request (updateDeviceList M ns jid dl) := by
  unfold updateDeviceList ensureOwnListed addNewDevice updateKnownDevice updateListed updateUnlisted
  lib_ops []
  all_goals (rename_i h; cases h)

theorem ask_refresh (ns : Ns) (jid : Jid) : AllOps Request (refreshDeviceList M ns jid) := .bind (.perform nofun) fun _ => ask_update _ _ _

theorem ask_purge (ns : Ns) : AllOps Request (purgeBackend M ns) := by
  unfold purgeBackend
  lib_ops [ask_own]
  all_goals (rename_i h; cases h)

theorem ask_create (M : Mgr) (bs : List Ns) (label : Option String) (fuel : Nat) : AllOps Request (create M bs label fuel) := by
  rw [create_eq]
  split
  · trivial
  · split
    · trivial
    · rename_i hth
      have h99 := (Decidable.not_not.1 hth).2
      have hdraw : ∀ taken fuel, AllOps Request (drawDeviceId taken fuel) := by
        intro taken fuel
        induction fuel with
        | zero => trivial
        | succ n ih => unfold drawDeviceId; lib_ops []; all_goals (rename_i h; cases h)
      have hikp : AllOps Request IdentityKeyPair.get := ops_ikp.mono fun o ho ns n e => by subst e; cases ho
      have hfill : ∀ d ns, AllOps Request (refillPreKeys { M with ownDev := d } ns) := fun d ns => ask_refill h99 ns
      unfold createRest firstRun handleChangedBackends storeOwnDevice takenDeviceIds Sto.storeBytes onNothing
      lib_ops [hdraw, hikp, hfill, ask_own, ask_refresh, ask_purge]
      all_goals (rename_i h; cases h)
      omega

theorem ask_run (h99 : M.threshold ≤ 99) {c : Call} (hx : ∀ bs l f, c ≠ .create bs l f)
    (hdec : (∃ j pt pr i, c = .encrypt j pt pr i) → ∀ ds i, AllOps Request (M.decide ds i)) : AllOps Request (c.run M) := by
  have hfill := fun ns => ask_refill (M := M) h99 ns
  have hretry : ∀ ns fuel, AllOps Request (retryUpload M ns fuel) := by
    intro ns fuel
    induction fuel with
    | zero => trivial
    | succ n ih => unfold retryUpload; lib_ops []; all_goals (rename_i h; cases h)
  have hsend : ∀ ns s, AllOps Request (sendEmptyMessage M ns s) := by
    intro ns s
    unfold sendEmptyMessage
    lib_ops []
    all_goals (rename_i h; cases h)
  cases c with
  | getIdentityKeyPair => exact .bind (ops_ikp.mono fun o ho ns n e => by subst e; cases ho) fun _ => trivial
  | create bs l f => exact (hx bs l f rfl).elim
  | purgeBackend ns => exact ask_purge ns
  | purgeBareJid jid =>
    unfold Call.run SM.purgeBareJid SM.collectIdentityKeys SM.deleteDevice
    lib_ops []
    all_goals (rename_i h; cases h)
  | ensureDataConsistency =>
    unfold Call.run SM.ensureDataConsistency; lib_ops [ask_refresh]
    all_goals (rename_i h; cases h)
  | rotation p f r =>
    show AllOps Request (manageRotation M p f r)
    induction r with
    | zero => trivial
    | succ n ih =>
      unfold manageRotation rotationRound
      have ih := ih nofun (fun ⟨_, _, _, _, h⟩ => by cases h)
      lib_ops [hretry]
      all_goals (rename_i h; cases h)
  | updateDeviceList ns jid dl => exact ask_update ns jid dl
  | refreshDeviceList ns jid => exact ask_refresh ns jid
  | refreshDeviceLists jid =>
    unfold Call.run SM.refreshDeviceLists; lib_ops [ask_refresh]
    all_goals (rename_i h; cases h)
  | setTrust jid ik level => exact .perform nofun
  | replaceSessions jid d =>
    unfold Call.run SM.replaceSessions SM.replaceSession SM.getDeviceInformation; lib_ops [ask_info]
    all_goals (rename_i h; cases h)
  | getSendingChainLength x =>
    unfold Call.run SM.getSendingChainLength; lib_ops []
    all_goals (rename_i h; cases h)
  | setOwnLabel l =>
    unfold Call.run SM.setOwnLabel; lib_ops []
    all_goals (rename_i h; cases h)
  | getDeviceInformation jid => exact .bind (.bind (ask_info jid) fun _ => trivial) fun _ => trivial
  | getOwnDeviceInformation => exact .bind ask_own fun _ => trivial
  | beforeHistorySync => exact .perform nofun
  | afterHistorySync =>
    unfold Call.run SM.afterHistorySync SM.sendQueuedBackend SM.sendQueuedJid SM.sendQueued; lib_ops [hsend]
    all_goals (rename_i h; cases h)
  | encrypt jids pt prio i =>
    have hd := hdec ⟨_, _, _, _, rfl⟩
    unfold Call.run SM.encrypt SM.decideTrust SM.askTrust SM.devicesWithTrust SM.reloadTrust SM.recipientDevices SM.encryptTrusted SM.encryptBackend
      SM.encryptDevice SM.encryptForDevice SM.bundleFor SM.devicesWithTrust
    lib_ops [hd, ask_info]
    all_goals (rename_i h; cases h)
  | decrypt msg =>
    unfold Call.run SM.decrypt SM.findSender SM.decryptContent SM.keyMaterial SM.plaintextOf SM.decryptKeyMaterial SM.handleKeyExchange
      SM.postDecrypt SM.autoReply SM.queueEmpty consumePreKey discardPreKey SM.getDeviceInformation
    lib_ops [hfill, ask_info, ask_refresh, hsend]
    all_goals (rename_i h; cases h)

theorem ask_decision (h99 : M.threshold ≤ 99) {p : P α} (h : Decision M p) : AllOps Request p := by
  induction h with
  | ret a => trivial
  | raise e => trivial
  | ext o k ho hp hn _ ih => exact ⟨fun ns n h => (by subst h; cases hp), ih⟩
  | info jid g f _ _ ihh ihf => exact .tryElse (.bind (ask_info jid) fun _ => trivial) ihh ihf
  | api c g f hc _ _ ihh ihf =>
    exact .tryElse (ask_run h99 (fun bs l f h => by subst h; cases hc) fun ⟨_, _, _, _, h⟩ => by subst h; cases hc) ihh ihf

theorem ask_log {p : P α} {t : List Ev} {r : Res Exn α} {w w' : World} (h : AllOps Request p) (he : Exec p t r) (hr : Lib.Runs w t w') {ns : Ns} {n : Int}
    {x : Except Exn Unit} (hm : (⟨.generatePreKeys ns n, x⟩ : Ev) ∈ w'.log) : (⟨.generatePreKeys ns n, x⟩ : Ev) ∈ w.log ∨ 1 ≤ n := by
  obtain ⟨s, h1, h2⟩ := Lib.log_trace hr
  rw [h1] at hm
  rcases List.mem_append.1 hm with hm | hm
  · exact .inl hm
  · exact .inr (h.exec he _ (h2 _ hm) ns n rfl)

end
end Stock

/-- C43: whenever pre keys are generated, a positive number of them is requested; in any life of an account, including deaths of processes and
failures of anything. -/
theorem C43_requested {own : Jid} {x : XEdDSA} {s0 s : Use} {cs : List (Mgr × Call)} (h0 : New s0) (h : Life own x s0 cs s) (ho : ∀ c ∈ cs, HandsOff c.1)
    {ns : Ns} {n : Int} {r : Except Exn Unit} (hm : (⟨.generatePreKeys ns n, r⟩ : Ev) ∈ s.world.log) :
    (⟨.generatePreKeys ns n, r⟩ : Ev) ∈ s0.world.log ∨ 1 ≤ n := by
  have key : ∀ s0, (∀ M ∈ s0.mgrs, M.threshold ≤ 99) → Life own x s0 cs s → (∀ c ∈ cs, HandsOff c.1) →
      (⟨.generatePreKeys ns n, r⟩ : Ev) ∈ s0.world.log ∨ 1 ≤ n := by
    clear h ho h0
    intro s0 hs0 h ho
    induction h with
    | nil => exact .inl hm
    | @cons s s1 s2 c cs hst _ ih =>
      have hs1 : (∀ M ∈ s1.mgrs, M.threshold ≤ 99) ∧ ((⟨.generatePreKeys ns n, r⟩ : Ev) ∈ s1.world.log → (⟨.generatePreKeys ns n, r⟩ : Ev) ∈ s.world.log ∨ 1 ≤ n) := by
        cases hst with
        | ikp M he hr =>
          have h : AllOps Stock.Request (Call.getIdentityKeyPair.run M) := .bind (ops_ikp.mono fun o ho ns n e => by subst e; cases ho) fun _ => trivial
          exact ⟨hs0, Stock.ask_log h he hr⟩
        | @create _ _ r M bs label fuel hj hx he hr =>
          refine ⟨fun M' hM' => ?_, Stock.ask_log (Stock.ask_create M bs label fuel) he hr⟩
          rcases List.mem_append.1 hM' with hM' | hM'
          · exact hs0 M' hM'
          · cases r with
            | ok d =>
              cases List.mem_singleton.1 hM'
              rw [create_eq] at he
              split at he
              · cases he
              · split at he
                · cases he
                · rename_i h; exact (Decidable.not_not.1 h).2
            | raised e => cases hM'
            | crashed => cases hM'
        | call M c hM hc he hr =>
          have h99 := hs0 M hM
          exact ⟨hs0, Stock.ask_log (Stock.ask_run h99 hc fun _ ds i => Stock.ask_decision h99 (ho (M, c) (by simp) M.ownDev ds i)) he hr⟩
      rcases ih hm hs1.1 (fun c hc => ho c (List.mem_cons_of_mem _ hc)) with h | h
      · exact hs1.2 h
      · exact .inr h
  exact key s0 (fun M hM => by rw [h0.mgrs] at hM; cases hM) h ho

/-! ### Example -/

namespace Stock

def set1 (s : Ns → Nat) (ns : Ns) (n : Nat) : Ns → Nat := fun m => if m = ns then n else s m

/-- Counting. -/
def tally1 (s : Ns → Nat) (e : Ev) : Option (Ns → Nat) :=
  match e with
  | ⟨.numVisible ns, .ok n⟩ => if n = (s ns : Int) then some s else none
  | ⟨.generatePreKeys ns n, .ok _⟩ => some (set1 s ns (s ns + n.toNat))
  | ⟨.hidePreKey ns _, .ok b⟩ => if b = true then (if s ns = 0 then none else some (set1 s ns (s ns - 1))) else some s
  | ⟨.deletePreKey ns _, .ok b⟩ => if b = true then (if s ns = 0 then none else some (set1 s ns (s ns - 1))) else some s
  | ⟨.purge ns, .ok _⟩ => some (set1 s ns 0)
  | ⟨.generatePreKeys .., .error _⟩ | ⟨.hidePreKey .., .error _⟩ | ⟨.deletePreKey .., .error _⟩ | ⟨.numVisible .., .error _⟩ | ⟨.purge _, .error _⟩ => none
  | _ => some s

def tally (s : Ns → Nat) : List Ev → Option (Ns → Nat)
  | [] => some s
  | e :: l => (tally1 s e).bind fun s' => tally s' l

theorem set1_self (s : Ns → Nat) (ns : Ns) (n : Nat) : set1 s ns n ns = n := by simp [set1]
theorem set1_ne (s : Ns → Nat) {ns m : Ns} (n : Nat) (h : m ≠ ns) : set1 s ns n m = s m := by simp [set1, h]

theorem tally1_counts {s s' : Ns → Nat} {e : Ev} (h : tally1 s e = some s') : Counts s e s' := by
  obtain ⟨o, r⟩ := e
  cases o <;> cases r <;> simp only [tally1, Option.some.injEq, reduceCtorEq] at h <;> unfold Counts <;> (try subst h) <;> (try rfl)
  all_goals dsimp only
  all_goals first
    | exact ⟨set1_self _ _ _, fun m hm => set1_ne _ _ hm⟩
    | (split at h
       · split at h
         · cases h
         · cases h
           refine ⟨?_, fun m hm => set1_ne _ _ hm⟩
           rw [set1_self]
           simp [*]
           try omega
       · cases h; exact ⟨by simp [*], fun _ _ => rfl⟩)
    | (split at h
       · cases h; exact ⟨by assumption, rfl⟩
       · cases h)

theorem tally_counted {l l' : List Ev} {s s' : Ns → Nat} (h : Counted l s) (ht : tally s l' = some s') : Counted (l ++ l') s' := by
  induction l' generalizing l s with
  | nil => cases ht; rw [List.append_nil]; exact h
  | cons e l' ih =>
    rw [tally, Option.bind_eq_some_iff] at ht
    obtain ⟨s1, h1, h2⟩ := ht
    have := ih (h.snoc (tally1_counts h1)) h2
    rwa [List.append_assoc] at this

/-- A world in which backends count. -/
def counting : World → (o : Op) → Except Exn o.Ret
  | w, .numVisible ns => .ok (match tally (fun _ => 0) w.log with | some s => (s ns : Int) | none => 0)
  | w, o => chatty w o

theorem counting_ok (w : World) (o : Op) (e : Exn) (h : counting w o = .error e) : e.isInternal = false := by
  cases o <;> simp only [counting] at h <;> first
    | exact chatty_ok w _ e h
    | (cases h; done)

def world : Friendly := ⟨counting, counting_ok⟩

theorem tallied {l : List Ev} {s : Ns → Nat} (h : tally (fun _ => 0) l = some s) : Counted l s := tally_counted .nil h

theorem use_steady {thr : Int} {s : Use} (h : Steady "me" Mgr.ex.x thr Use.fresh s) (hm : Mgr.ex ∈ s.mgrs) (c : Call) (hc : ∀ bs l f, c ≠ .create bs l f)
    (hr : (world.run (c.run Mgr.ex) s.world).2.1 ≠ .crashed) : Steady "me" Mgr.ex.x thr Use.fresh (world.use Mgr.ex c s) :=
  .call Mgr.ex c h hm hc hr (world.exec _ _) (world.runs _ _)

/-- A device becomes known, a first message of it arrives. -/
def met : Use := world.use Mgr.ex (.updateDeviceList "n" "a" [(7, some "x")]) Use.started
def received : Use := world.use Mgr.ex (.decrypt (firstMessage "n" 7)) met

def NoneFailedB (l : List Ev) : Bool := l.all fun e => match e with
  | ⟨o, .error _⟩ => !PreKeyOp o
  | _ => true

theorem noneFailed {l : List Ev} (h : NoneFailedB l = true) : NoneFailed l := by
  rintro ⟨o, r⟩ he hp x hx
  have := List.all_eq_true.1 h _ he
  dsimp only at hx hp
  subst hx
  simp [hp] at this

end Stock

/-- The hypotheses of C43 are met: a pre key is used up, which leaves the least number allowed by the refill threshold, and is replaced. -/
theorem C43_example : Steady "me" Mgr.ex.x 99 Use.fresh Stock.received ∧ Stock.received.mgrs ≠ [] ∧ NoneFailed Stock.received.world.log ∧
    Stock.received.world.backends = ["n", "o"] ∧ (∃ st, Counted Stock.received.world.log st ∧ st "n" = 100) ∧
    (⟨.generatePreKeys "n" 1, .ok ()⟩ : Ev) ∈ Stock.received.world.log ∧
    (∃ s, (⟨.deletePreKey "n" s, .ok true⟩ : Ev) ∈ Stock.received.world.log ∨ (⟨.hidePreKey "n" s, .ok true⟩ : Ev) ∈ Stock.received.world.log) := by
  have h0 : Steady "me" Mgr.ex.x 99 Use.fresh Use.started := by
    have h := genuineRun_exec (create Mgr.ex ["n", "o"] (some "pc") 5) World.fresh
    have h' : Exec (create Mgr.ex ["n", "o"] (some "pc") 5) firstCreate.1 (.ok 1) := firstCreate_result ▸ h
    exact .create (s := Use.fresh) Mgr.ex ["n", "o"] (some "pc") 5 .start rfl rfl (by decide) (fun _ _ _ => .ret ()) h' (genuineRun_runs _ _)
  refine ⟨Stock.use_steady (Stock.use_steady h0 (by simp [Use.started]) _ (fun _ _ _ h => by cases h) (by decide +kernel)) (by simp [Stock.met, Friendly.use, Use.started]) _ (fun _ _ _ h => by cases h)
    (by decide +kernel), (fun h => by cases h), Stock.noneFailed (by decide +kernel), by decide +kernel, ?_, ?_, ?_⟩
  · have : (Stock.tally (fun _ => 0) Stock.received.world.log).map (fun s => s "n") = some 100 := by decide +kernel
    obtain ⟨st, h1, h2⟩ := Option.map_eq_some_iff.1 this
    exact ⟨st, Stock.tallied h1, h2⟩
  · have : Stock.received.world.log.any (fun e => match e with | ⟨.generatePreKeys ns n, .ok ()⟩ => decide (ns = "n" ∧ n = 1) | _ => false) = true := by decide +kernel
    obtain ⟨⟨o, r⟩, he, h⟩ := any_mem this
    split at h
    · rename_i heq
      cases heq
      obtain ⟨rfl, rfl⟩ := of_decide_eq_true h
      exact he
    · cases h
  · have : Stock.received.world.log.any (fun e => match e with | ⟨.hidePreKey ns _, .ok b⟩ => decide (ns = "n" ∧ b = true) | _ => false) = true := by decide +kernel
    obtain ⟨⟨o, r⟩, he, h⟩ := any_mem this
    split at h
    · rename_i heq
      cases heq
      obtain ⟨rfl, rfl⟩ := of_decide_eq_true h
      exact ⟨_, .inr he⟩
    · cases h

end Verif
