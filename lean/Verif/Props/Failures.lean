import Verif.Proofs.PromptSM
import Verif.Props.Server
/-
C110: failures of what the library calls are passed on at once, or tolerated.
-/
namespace Verif
namespace Spec

/-- The failures a call has to get over: bundles that cannot be downloaded (session_manager.py:749-755, 1430-1441, 1912); in `encrypt`, a session
that cannot be built (1912); in `replace_sessions`, an `OMEMOException` while a session is replaced (1261-1266); in the background task, a bundle
that cannot be uploaded (686-693). -/
def Tolerated : Call → Op → Exn → Prop
  | _, .downloadBundle .., e => e = .bundleDownloadFailed ∨ e = .bundleNotFound
  | .encrypt .., .buildActive .., e => e = .keyExchangeFailed
  | .replaceSessions .., .encryptEmpty _, e | .replaceSessions .., .buildActive .., e | .replaceSessions .., .sendMessage .., e
  | .replaceSessions .., .storeSession .., e => e.isOmemo = true
  | .rotation .., .uploadBundle _, e => e = .bundleUploadFailed
  | _, _, _ => False

/-- Failures nothing is said about, because the exception does not fit the interaction: no backend and no method of the application is documented
to fail like that. -/
def Odd : Call → Op → Exn → Prop
  | .encrypt .., .downloadBundle .., e => e = .keyExchangeFailed
  | .encrypt .., .buildActive .., e => e = .bundleDownloadFailed ∨ e = .bundleNotFound
  | .encrypt .., .encryptKM .., e => e = .bundleDownloadFailed ∨ e = .bundleNotFound ∨ e = .keyExchangeFailed
  | .replaceSessions .., .downloadBundle .., e => e.isOmemo = true ∧ e ≠ .bundleDownloadFailed ∧ e ≠ .bundleNotFound
  | .rotation .., .getBundle .., e => e = .bundleUploadFailed
  | _, .load _, e => e = .nothingException
  | _, _, _ => False

/-- How a call with interactions `t` and result `r` treats failures: one that is neither tolerated nor odd is the last thing that happens, and its
exception is raised; a tolerated one is not raised, and neither does the call raise such an exception by itself. -/
structure Forwards (c : Call) (t : List Ev) (r : Res Exn Unit) : Prop where
  passed : ∀ u o e v, t = u ++ ⟨o, .error e⟩ :: v → ¬ Tolerated c o e → ¬ Odd c o e → v = [] ∧ r = .raised e
  kept : ∀ e, r = .raised e → (∃ o, Tolerated c o e) → ∃ u o, t = u ++ [⟨o, .error e⟩] ∧ ¬ Tolerated c o e

/-- The trust decision callback treats failures in the same way. -/
def CallbackForwards (M : Mgr) (c : Call) : Prop := ∀ ds i t r, Exec (M.decide ds i) t r → Forwards c t r

end Spec
open Spec SM

namespace Failures

theorem of_passes {c : Call} {t : List Ev} {r : Res Exn Unit}
    (h : Passes (S := LibSig) (Tolerated c) (fun o e => Tolerated c o e ∨ Odd c o e) (fun e => ¬ ∃ o, Tolerated c o e) t r) : Forwards c t r :=
  ⟨fun u o e v ht h1 h2 => h.passed u o e v ht fun h => h.elim h1 h2, fun e hr he => (h.raised e hr).resolve_left fun hn => hn he⟩

theorem to_passes {c : Call} {t : List Ev} {r : Res Exn Unit} (h : Forwards c t r) :
    Passes (S := LibSig) (Tolerated c) (fun o e => Tolerated c o e ∨ Odd c o e) (fun e => ¬ ∃ o, Tolerated c o e) t r :=
  ⟨fun u o e v ht hn => h.passed u o e v ht (fun h => hn (.inl h)) fun h => hn (.inr h), fun e hr => by
    by_cases he : ∃ o, Tolerated c o e
    · exact .inr (h.kept e hr he)
    · exact .inl he⟩

/-- The exceptions that the calls raise themselves are not of a tolerated kind. -/
theorem own {c : Call} {e : Exn} (h1 : e ≠ .bundleDownloadFailed) (h2 : e ≠ .bundleNotFound) (h3 : e ≠ .keyExchangeFailed) (h4 : e ≠ .bundleUploadFailed)
    (h5 : e.isOmemo = false ∨ ∀ j d, c ≠ .replaceSessions j d) : ¬ ∃ o, Tolerated c o e := by
  rintro ⟨o, h⟩
  unfold Tolerated at h
  split at h <;> first | exact h | exact h3 h | exact h4 h | exact h.elim h1 h2 | skip
  all_goals
    rcases h5 with h5 | h5
    · rw [h5] at h; cases h
    · exact h5 _ _ rfl

theorem tol (c : Call) : Tol (Tolerated c) (fun o e => Tolerated c o e ∨ Odd c o e) fun e => ¬ ∃ o, Tolerated c o e where
  nothing := own nofun nofun nofun nofun (.inl rfl)
  type := own nofun nofun nofun nofun (.inl rfl)
  value := own nofun nofun nofun nofun (.inl rfl)
  quiet o e h := by unfold Tolerated at h; split at h <;> first | rfl | exact h.elim
  need ns j d e h := by cases c <;> exact h
  missing ns j d e h := .inl (by cases c <;> exact h)
  nothing' k := .inr (by cases c <;> rfl)

theorem callback {M : Mgr} {c : Call} (hd : CallbackForwards M c) (ds : List DeviceInfo) (i : Option String) :
    Prompt (S := LibSig) (Tolerated c) (fun o e => Tolerated c o e ∨ Odd c o e) (fun e => ¬ ∃ o, Tolerated c o e) (M.decide ds i) :=
  .of_exec (fun _ _ h => .inl h) fun t r he => to_passes (hd ds i t r he)

/-- The calls that tolerate failing downloads only. -/
theorem only {c : Call} (h1 : ∀ a b d e, c ≠ .encrypt a b d e) (h2 : ∀ j d, c ≠ .replaceSessions j d) (h3 : ∀ p f r, c ≠ .rotation p f r) :
    OnlyDownloads (Tolerated c) := by
  intro o e h
  unfold Tolerated at h
  split at h <;> first | rfl | exact h.elim | exact absurd rfl (h1 _ _ _ _) | exact absurd rfl (h2 _ _) | exact absurd rfl (h3 _ _ _)

theorem prompt (M : Mgr) (c : Call) (hd : (∃ a b d e, c = .encrypt a b d e) → CallbackForwards M c) :
    Prompt (S := LibSig) (Tolerated c) (fun o e => Tolerated c o e ∨ Odd c o e) (fun e => ¬ ∃ o, Tolerated c o e) (c.run M) := by
  have hb := tol c
  have key : ¬ ∃ o, Tolerated c o .keyError := own nofun nofun nofun nofun (.inl rfl)
  have run : ¬ ∃ o, Tolerated c o .runtimeError := own nofun nofun nofun nofun (.inl rfl)
  have fuel : ¬ ∃ o, Tolerated c o .outOfFuel := own nofun nofun nofun nofun (.inl rfl)
  cases c with
  | getIdentityKeyPair => exact .bind (prompt_identityKeyPair hb) fun _ => .pure _
  | create bs l f =>
    exact .bind (prompt_create hb (only nofun nofun nofun) key run fuel (own nofun nofun nofun nofun (.inr nofun)) ..) fun _ => .pure _
  | purgeBackend ns => exact prompt_purgeBackend hb (only nofun nofun nofun) run ns
  | purgeBareJid j => exact prompt_purgeBareJid hb (only nofun nofun nofun) j
  | ensureDataConsistency => exact prompt_ensureDataConsistency hb (only nofun nofun nofun) key (own nofun nofun nofun nofun (.inr nofun))
  | rotation p f r =>
    refine prompt_manageRotation (fun o e h => ?_) (fun b e h => h) (fun b => .inl rfl) (fun ns j d => .inr rfl) fuel p f r
    unfold Tolerated at h
    split at h <;> first | exact .inr rfl | exact .inl ⟨_, rfl⟩ | exact h.elim | (rename_i h0; cases h0)
  | updateDeviceList ns j dl => exact prompt_updateDeviceList hb (only nofun nofun nofun) key (own nofun nofun nofun nofun (.inr nofun)) ns j dl
  | refreshDeviceList ns j => exact prompt_refreshDeviceList hb (only nofun nofun nofun) key (own nofun nofun nofun nofun (.inr nofun)) ns j
  | refreshDeviceLists j =>
    exact .bind (.perform fun _ h => hb.no h rfl) fun _ => .forEach fun ns _ =>
      prompt_refreshDeviceList hb (only nofun nofun nofun) key (own nofun nofun nofun nofun (.inr nofun)) ns j
  | setTrust j ik l => exact .perform fun _ h => hb.no h rfl
  | replaceSessions j d =>
    refine .bind (prompt_replaceSessions hb run (fun o e h => ?_) (fun o e h he => ?_) j d) fun _ => .pure _
    · cases o <;> first | exact h.elim | exact h | (rcases h with rfl | rfl <;> rfl)
    · cases o <;> first | (exfalso; revert h; exact Bool.noConfusion) | skip
      case downloadBundle =>
        by_cases h1 : e = .bundleDownloadFailed ∨ e = .bundleNotFound
        · exact .inl h1
        · exact .inr ⟨he, fun h => h1 (.inl h), fun h => h1 (.inr h)⟩
      all_goals exact .inl he
  | getSendingChainLength dev =>
    exact .bind (prompt_getSendingChainLength (only (fun _ _ _ _ h => by cases h) (fun _ _ h => by cases h) fun _ _ _ h => by cases h) dev) fun _ => .pure _
  | setOwnLabel l => exact prompt_setOwnLabel (only (fun _ _ _ _ h => by cases h) (fun _ _ h => by cases h) fun _ _ _ h => by cases h) l
  | getDeviceInformation j => exact .bind (prompt_getDeviceInformation hb j) fun _ => .pure _
  | getOwnDeviceInformation => exact .bind (prompt_getOwnDeviceInformation hb run) fun _ => .pure _
  | beforeHistorySync => exact .perform fun _ h => hb.no h rfl
  | afterHistorySync => exact prompt_afterHistorySync hb (only nofun nofun nofun)
  | encrypt jids pt prio i =>
    refine .bind (prompt_encrypt hb (fun o e h => ?_) (fun o e h he => ?_) key (own nofun nofun nofun nofun (.inr nofun)) (own nofun nofun nofun nofun (.inr nofun))
      (fun js => own nofun nofun nofun nofun (.inr nofun)) (callback (hd ⟨_, _, _, _, rfl⟩)) jids prio i) fun _ => .pure _
    · cases o <;> first | exact h.elim | (rcases h with rfl | rfl <;> exact ⟨rfl, rfl⟩) | (cases h; exact ⟨rfl, rfl⟩)
    · have he' : e = .bundleDownloadFailed ∨ e = .bundleNotFound ∨ e = .keyExchangeFailed := by simpa [isNonCritical] using he
      cases o <;> first | (exfalso; revert h; exact Bool.noConfusion) | skip
      case downloadBundle => rcases he' with h | h | h
                             · exact .inl (.inl h)
                             · exact .inl (.inr h)
                             · exact .inr h
      case buildActive => rcases he' with h | h | h
                          · exact .inr (.inl h)
                          · exact .inr (.inr h)
                          · exact .inl h
      case encryptKM => exact .inr he'
  | decrypt msg =>
    have o : ∀ e : Exn, e ≠ .bundleDownloadFailed → e ≠ .bundleNotFound → e ≠ .keyExchangeFailed → e ≠ .bundleUploadFailed → ¬ ∃ o, Tolerated (.decrypt msg) o e :=
      fun e h1 h2 h3 h4 => own h1 h2 h3 h4 (.inr nofun)
    exact .bind (prompt_decrypt hb (only nofun nofun nofun) key (o _ nofun nofun nofun nofun) (o _ nofun nofun nofun nofun) (o _ nofun nofun nofun nofun)
      (o _ nofun nofun nofun nofun) (o _ nofun nofun nofun nofun) (o _ nofun nofun nofun nofun) msg) fun _ => .pure _

end Failures

/-- C110: a failure of anything a call does is passed on at once, without anything happening in between, except for the failures the call has to
get over, which it does not raise. -/
theorem C110_failures (M : Mgr) (c : Call) (hd : (∃ a b d e, c = .encrypt a b d e) → CallbackForwards M c) (t : List Ev) (r : Res Exn Unit)
    (he : Exec (c.run M) t r) : Forwards c t r :=
  Failures.of_passes ((Failures.prompt M c hd).exec he)

/-- Consequence: if nothing but tolerated failures happen, no call raises an exception of a tolerated kind. -/
theorem C110_tolerated (M : Mgr) (c : Call) (hd : (∃ a b d e, c = .encrypt a b d e) → CallbackForwards M c) (t : List Ev) (e : Exn)
    (he : Exec (c.run M) t (.raised e)) (ht : ∀ x ∈ t, ∀ y, x.2 = .error y → Tolerated c x.1 y) : ¬ ∃ o, Tolerated c o e := by
  intro h
  obtain ⟨u, o, rfl, hn⟩ := (C110_failures M c hd t _ he).kept e rfl h
  exact hn (ht ⟨o, .error e⟩ (by simp) e rfl)

/-- Consequence: an exception that is neither one of the library nor a built-in one it knows, such as `asyncio.CancelledError`, ends every call at
once, wherever it is raised. -/
theorem C110_foreign (M : Mgr) (c : Call) (hd : (∃ a b d e, c = .encrypt a b d e) → CallbackForwards M c) (u v : List Ev) (o : Op) (n : Nat)
    (r : Res Exn Unit) (he : Exec (c.run M) (u ++ ⟨o, .error (.app n)⟩ :: v) r) : v = [] ∧ r = .raised (.app n) := by
  refine (C110_failures M c hd _ r he).passed u o _ v rfl (fun h => ?_) fun h => ?_
  · unfold Tolerated at h
    split at h <;> first | exact h | (cases h; done) | (rcases h with h | h <;> cases h)
  · unfold Odd at h
    split at h <;> first | exact h | (cases h; done) | (rcases h with h | h <;> cases h; done) | (rcases h with h | h | h <;> cases h; done) | (obtain ⟨h, -⟩ := h; cases h)

theorem Mgr.ex_forwards (c : Call) : CallbackForwards Mgr.ex c := by
  intro ds i t r h
  cases h
  exact ⟨fun u _ _ _ hu => (by cases u <;> cases hu), nofun⟩

/-- Answers of a server that has lost the bundle of "n" and does not accept a bundle in its place. -/
def refusingAnswer (s : Server) : (o : Op) → Except Exn o.Ret
  | .uploadBundle _ => .error .bundleUploadFailed
  | o => serverAnswer s o

def exRefused := runProg (S := LibSig) (E := Exn) refusingAnswer (Servers Mgr.ex ["n", "o"] exLoc).next 100 (ensureDataConsistency Mgr.ex) Server.ex

/-- The failure in an interaction. -/
def Spec.failure : Ev → Option Exn
  | ⟨_, .error e⟩ => some e
  | _ => none

/-- The list downloaded in an interaction. -/
def Spec.listLoaded : Ev → Option Ns
  | ⟨.downloadList ns _, _⟩ => some ns
  | _ => none

/-- A bundle that is missing on the server is tolerated; the failing upload that follows is not, and "o" is not looked at any more. -/
theorem C110_example :
    (∃ t, Exec (Call.ensureDataConsistency.run Mgr.ex) t (.ok ()) ∧ t.filterMap failure = [.bundleNotFound]) ∧
    (∃ t, Exec (Call.ensureDataConsistency.run Mgr.ex) t (.raised .bundleUploadFailed) ∧ t.filterMap failure = [.bundleNotFound, .bundleUploadFailed] ∧
      t.filterMap listLoaded = ["n"]) := by
  constructor
  · have h : exEnsure.2.1 = .ok () := by decide +kernel
    exact ⟨exEnsure.1, h ▸ runProg_exec .., by decide +kernel⟩
  · have h : exRefused.2.1 = .raised .bundleUploadFailed := by decide +kernel
    exact ⟨exRefused.1, h ▸ runProg_exec .., by decide +kernel, by decide +kernel⟩

end Verif
