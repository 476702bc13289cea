import Verif.Proofs.Footprint
import Verif.Model.App
/-
Invariants of calls: from what each call can do to what it preserves.
-/
namespace Verif

/-- `p` preserves `I`, also when it raises or the process dies. -/
def Pres {S : Sig} {E W α : Type} (N : Sem S E W) (I : W → Prop) (p : Prog S E α) : Prop :=
  ∀ w, I w → wp N p (fun _ => I) w

namespace Pres
variable {S : Sig} {E W α β : Type} {N : Sem S E W} {I : W → Prop}

theorem bind {p : Prog S E α} {f : α → Prog S E β} (hp : Pres N I p) (hf : ∀ a, Pres N I (f a)) :
    Pres N I (p >>= f) := by
  intro w hw
  rw [wp_bind]
  refine wp_mono (hp w hw) fun r w' h => ?_
  cases r with
  | ok a => exact hf a w' h
  | raised e => exact h
  | crashed => exact h

theorem pure (a : α) : Pres N I (Pure.pure a : Prog S E α) := fun _ hw => hw

theorem tryCatch {p : Prog S E α} {h : E → Prog S E α} (hp : Pres N I p) (hh : ∀ e, Pres N I (h e)) :
    Pres N I (p.tryCatch h) := by
  intro w hw
  rw [wp_tryCatch]
  refine wp_mono (hp w hw) fun r w' h => ?_
  cases r with
  | ok a => exact h
  | raised e => exact hh e w' h
  | crashed => exact h

theorem forEach {xs : List α} {f : α → Prog S E Unit} (h : ∀ x ∈ xs, Pres N I (f x)) :
    Pres N I (Prog.forEach xs f) := by
  induction xs with
  | nil => exact fun _ hw => hw
  | cons x xs ih => exact bind (h x (by simp)) fun _ => ih fun y hy => h y (by simp [hy])

theorem ofOps {φ : S.Op → Prop} {p : Prog S E α} (h : AllOps φ p)
    (hI : ∀ o, φ o → ∀ w r, N.ok w ⟨o, r⟩ → I w → I (N.next w ⟨o, r⟩)) : Pres N I p :=
  fun w hw => h.invariant (fun w o r ho hok hw => hI o ho w r hok hw) w hw

/-- An execution of a program that preserves `I`. -/
theorem run {p : Prog S E α} (h : Pres N I p) {w w' t r} (he : Exec p t r) (hr : N.Runs w t w') (hw : I w) : I w' :=
  wp_sound (h w hw) he hr

theorem iff_runs {p : Prog S E α} : Pres N I p ↔ ∀ t r w w', Exec p t r → N.Runs w t w' → I w → I w' :=
  ⟨fun h _ _ _ _ he hr hw => h.run he hr hw, fun h w hw => wp_iff.2 fun t r w' he hr => h t r w w' he hr hw⟩

end Pres

open Foot

/-- The interactions of a call, apart from those of `IdentityKeyPair.get` and of the application's trust decision. -/
def CallOps (M : Mgr) : Call → Op → Prop
  | .getIdentityKeyPair => fun _ => False
  | .create .. => Create M
  | .purgeBackend ns => PurgeBackend M ns
  | .purgeBareJid jid => PurgeJid jid
  | .ensureDataConsistency => fun o => o = .getBackends ∨ Ensure M o
  | .rotation .. => Rotation M
  | .updateDeviceList ns jid _ => Update M ns jid
  | .refreshDeviceList ns jid => Refresh M ns jid
  | .refreshDeviceLists jid => fun o => o = .getBackends ∨ ∃ ns, Refresh M ns jid o
  | .setTrust jid ik level => fun o => o = .store (.trust jid ik) (.str level)
  | .replaceSessions jid _ => Replace jid
  | .getSendingChainLength _ => fun o => o = .getBackends ∨ ∃ ns j d, o = .loadSession ns j d
  | .setOwnLabel _ => OwnLabel M
  | .getDeviceInformation jid => Info jid
  | .getOwnDeviceInformation => Info M.ownJid
  | .beforeHistorySync => fun o => o = .setSync true
  | .afterHistorySync => AfterSync
  | .encrypt .. => Encrypt
  | .decrypt msg => Decrypt M msg

/-- What is preserved by every single interaction of a call, by `IdentityKeyPair.get` and by the trust decision, is preserved
by the call. -/
theorem Call.pres {W : Type} {N : Sem LibSig Exn W} {I : W → Prop} (M : Mgr) (c : Call)
    (hget : Pres N I IdentityKeyPair.get)
    (hd : c.inDecision = false → ∀ ds i, Pres N I (M.decide ds i))
    (h : ∀ o, CallOps M c o → ∀ w r, N.ok w ⟨o, r⟩ → I w → I (N.next w ⟨o, r⟩)) : Pres N I (c.run M) := by
  have key : ∀ {α : Type} {p : P α}, AllOps (CallOps M c) p → Pres N I p := fun hp => Pres.ofOps hp h
  cases c with
  | getIdentityKeyPair => exact hget.bind fun _ => Pres.pure _
  | create bs label fuel =>
    refine Pres.bind ?_ fun _ => Pres.pure _
    have h1 := fun label ik fuel => key (SM.ops_firstRun M label ik fuel)
    have h2 := fun d => key (SM.ops_handleChangedBackends M d)
    have hraise : ∀ {α : Type} (e : Exn), Pres N I (throwE e : P α) := fun e w hw => hw
    unfold SM.create
    split
    · exact hraise _
    split
    · exact hraise _
    refine (key (.perform (.setBackends bs))).bind fun _ => hget.bind fun ikp =>
      (key (.perform .setSync)).bind fun _ => Pres.bind ?_ fun d => (h2 d).bind fun _ => Pres.pure _
    unfold onNothing
    refine Pres.tryCatch ?_ fun e => ?_
    · exact key (.bind (allOps_loadInt (.load _)) fun _ => allOps_fromJust _)
    · split
      · exact h1 _ _ _
      · exact hraise _
  | purgeBackend ns => exact key (SM.ops_purgeBackend M ns)
  | purgeBareJid jid => exact key (SM.ops_purgeBareJid M jid)
  | ensureDataConsistency =>
    exact key ((SM.ops_ensureDataConsistency M).mono fun _ h => .inr h)
  | rotation p f r => exact key (SM.ops_manageRotation M p f r)
  | updateDeviceList ns jid dl => exact key (SM.ops_updateDeviceList M ns jid dl)
  | refreshDeviceList ns jid => exact key (SM.ops_refreshDeviceList M ns jid)
  | refreshDeviceLists jid =>
    exact key (.bind (.perform (.inl rfl)) fun bs => .forEach fun ns _ =>
      (SM.ops_refreshDeviceList M ns jid).mono fun _ h => .inr ⟨ns, h⟩)
  | setTrust jid ik level => exact key (.perform rfl)
  | replaceSessions jid d => exact key (.bind (SM.ops_replaceSessions M jid d) fun _ => trivial)
  | getSendingChainLength dev =>
    exact key (.bind (.bind (.perform (.inl rfl)) fun bs => .mapAll fun ns _ =>
      .bind (.perform (.inr ⟨_, _, _, rfl⟩)) fun _ => trivial) fun _ => trivial)
  | setOwnLabel l => exact key (SM.ops_setOwnLabel M l)
  | getDeviceInformation jid => exact key (.bind (SM.ops_getDeviceInformation M jid) fun _ => trivial)
  | getOwnDeviceInformation => exact key (.bind (SM.ops_getOwnDeviceInformation M) fun _ => trivial)
  | beforeHistorySync => exact key (.perform rfl)
  | afterHistorySync => exact key (SM.ops_afterHistorySync M)
  | encrypt jids pt prio i =>
    refine Pres.bind ?_ fun _ => Pres.pure _
    have e1 := fun order jids => key (SM.ops_recipientDevices M order jids)
    have e2 := fun jids cache pt devs => key (SM.ops_encryptTrusted M jids cache pt devs)
    unfold SM.encrypt
    refine (key (.perform .getBackends)).bind fun av => (key (allOps_liftE _)).bind fun order =>
      (e1 order _).bind fun x => Pres.bind ?_ fun devs => e2 _ _ _ _
    have e3 : ∀ lvl devs, AllOps Encrypt (SM.devicesWithTrust lvl devs) := fun lvl devs =>
      .filterAll fun _ _ => .bind (.perform (.evalTrust _)) fun _ => trivial
    unfold SM.decideTrust
    refine (key (e3 _ _)).bind fun und => Pres.bind ?_ fun devs =>
      key (.bind (e3 _ _) fun still => by split <;> trivial)
    unfold SM.askTrust
    split
    · refine (hd rfl _ _).bind fun _ => key (.bind (.mapAll fun dev _ => ?_) fun ds => trivial)
      unfold SM.reloadTrust
      exact .bind (allOps_loadStr (.info "" (.load _))) fun _ => trivial
    · exact Pres.pure _
  | decrypt msg => exact key (.bind (SM.ops_decrypt M msg) fun _ => trivial)

/-- The places written by calls other than `IdentityKeyPair.get`, with the form of the values. -/
inductive Writes : Op → Prop where
  | active (j : Jid) (d : DevId) (a : Dict Ns Bool) : Writes (.store (.devActive j d) (.ofBools a))
  | label (j : Jid) (d : DevId) (l : Option String) : Writes (.store (.devLabel j d) (.ofOptStr l))
  | namespaces (j : Jid) (d : DevId) (l : List Ns) : Writes (.store (.devNamespaces j d) (.ofStrs l))
  | list (j : Jid) (l : List DevId) : Writes (.store (.devList j) (.ofInts l))
  | identityKey (j : Jid) (d : DevId) (b : Bytes) : Writes (.store (.devIdentityKey j d) (.str (Base64.encode b)))
  | trust (j : Jid) (ik : Bytes) (s : String) : Writes (.store (.trust j ik) (.str s))
  | ownDeviceId (d : DevId) : Writes (.store .ownDeviceId (.int d))
  | queue (ns : Ns) (l : List Jid) : Writes (.store (.queue ns) (.ofStrs l))
  | queueJid (ns : Ns) (j : Jid) (l : List DevId) : Writes (.store (.queueJid ns j) (.ofInts l))
  | delActive (j : Jid) (d : DevId) : Writes (.delete (.devActive j d))
  | delLabel (j : Jid) (d : DevId) : Writes (.delete (.devLabel j d))
  | delNamespaces (j : Jid) (d : DevId) : Writes (.delete (.devNamespaces j d))
  | delIdentityKey (j : Jid) (d : DevId) : Writes (.delete (.devIdentityKey j d))
  | delList (j : Jid) : Writes (.delete (.devList j))
  | delTrust (j : Jid) (ik : Bytes) : Writes (.delete (.trust j ik))
  | delQueue (ns : Ns) : Writes (.delete (.queue ns))
  | delQueueJid (ns : Ns) (j : Jid) : Writes (.delete (.queueJid ns j))
  | other (o : Op) : (∀ k v, o ≠ .store k v) → (∀ k, o ≠ .delete k) → Writes o

section writes
variable {M : Mgr} {ns : Ns} {jid : Jid} {o : Op}

macro "writes_tac" : tactic => `(tactic| first | (constructor; done) | (apply Writes.other <;> (intros; simp; done)))

theorem update_writes (h : Update M ns jid o) : Writes o := by cases h <;> writes_tac
theorem refresh_writes (h : Refresh M ns jid o) : Writes o := by cases h <;> first | exact update_writes ‹_› | writes_tac
theorem info_writes (h : Info jid o) : Writes o := by cases h <;> writes_tac
theorem purgeBackend_writes (h : PurgeBackend M ns o) : Writes o := by cases h <;> first | exact info_writes ‹_› | writes_tac
theorem purgeJid_writes (h : PurgeJid jid o) : Writes o := by cases h <;> writes_tac
theorem rotation_writes (h : Rotation M o) : Writes o := by cases h <;> writes_tac
theorem ensure_writes (h : Ensure M o) : Writes o := by cases h <;> first | exact refresh_writes ‹_› | writes_tac
theorem ownLabel_writes (h : OwnLabel M o) : Writes o := by cases h <;> writes_tac
theorem replace_writes (h : Replace jid o) : Writes o := by cases h <;> first | exact info_writes ‹_› | writes_tac
theorem sendEmpty_writes (h : SendEmpty ns o) : Writes o := by cases h <;> writes_tac
theorem afterSync_writes (h : AfterSync o) : Writes o := by cases h <;> first | exact sendEmpty_writes ‹_› | writes_tac
theorem encrypt_writes (h : Encrypt o) : Writes o := by cases h <;> first | exact info_writes ‹_› | writes_tac
theorem decrypt_writes {msg : Message} (h : Decrypt M msg o) : Writes o := by
  cases h <;> first | exact info_writes ‹_› | exact refresh_writes ‹_› | exact sendEmpty_writes ‹_› | writes_tac
theorem create_writes (h : Create M o) : Writes o := by
  cases h <;> first | exact info_writes ‹_› | exact refresh_writes ‹_› | exact purgeBackend_writes ‹_› | writes_tac

theorem callOps_writes {c : Call} (h : CallOps M c o) : Writes o := by
  cases c with
  | getIdentityKeyPair => exact h.elim
  | create bs label fuel => exact create_writes h
  | purgeBackend ns => exact purgeBackend_writes h
  | purgeBareJid jid => exact purgeJid_writes h
  | ensureDataConsistency =>
    rcases h with rfl | h
    · writes_tac
    · exact ensure_writes h
  | rotation p f r => exact rotation_writes h
  | updateDeviceList ns jid dl => exact update_writes h
  | refreshDeviceList ns jid => exact refresh_writes h
  | refreshDeviceLists jid =>
    rcases h with rfl | ⟨ns, h⟩
    · writes_tac
    · exact refresh_writes h
  | setTrust jid ik level => cases h; exact .trust _ _ _
  | replaceSessions jid d => exact replace_writes h
  | getSendingChainLength dev =>
    rcases h with rfl | ⟨_, _, _, rfl⟩ <;> writes_tac
  | setOwnLabel l => exact ownLabel_writes h
  | getDeviceInformation jid => exact info_writes h
  | getOwnDeviceInformation => exact info_writes h
  | beforeHistorySync => cases h; writes_tac
  | afterHistorySync => exact afterSync_writes h
  | encrypt jids pt prio i => exact encrypt_writes h
  | decrypt msg => exact decrypt_writes h

end writes

end Verif
