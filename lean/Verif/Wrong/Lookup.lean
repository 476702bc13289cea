import Verif.Props.Concurrent
import Verif.Wrong.Info
/-
Wrong programs in place of lookups of devices that run together with other calls, and the claim that rejects them (C20).  See Wrong/Encrypt.lean
for the method.
-/
namespace Verif
namespace Wrong
open SM Spec

/-- C20, what holds of it, for a program. -/
def C20 (info : Inf) : Prop :=
  ∀ (own : Jid) (w w' : World) (calls : List Running) (lookups : List (Mgr × Jid × List Ev × List DeviceInfo)),
    (∀ k ∈ lookups, Exec (info k.1 k.2.1) k.2.2.1 (.ok k.2.2.2)) → ∀ t : List Ev,
    Shuffle (calls.map (·.trace) ++ lookups.map (·.2.2.1)) t → Lib.Runs w t w' → WellFormed own w.disk →
    (∀ k ∈ calls, Legit own w.disk k.M ∧ (∀ jid, k.c ≠ .purgeBareJid jid) ∧ (w.disk .ownDeviceId ≠ none ∨ ∀ bs l f, k.c ≠ .create bs l f)) →
    (∀ j d ik, HasKey w.disk j d ik → HasKey w'.disk j d ik) ∧
    ∀ k ∈ lookups, ∀ x ∈ k.2.2.2, ∀ ik, HasKey w.disk k.2.1 x.deviceId ik → x.identityKey = ik

theorem C20_real : C20 getDeviceInformation := fun own w w' calls lookups hex t hs hr hw hcalls =>
  C20_stored_key_reported_partial own w w' calls lookups hex t hs hr hw hcalls

/-- The world of the examples, with an identity key that differs from the one in the bundle. -/
def World.keyed : World := { World.three with disk := World.three.disk.upd (.devIdentityKey "a" 7) (some (.str (Base64.encode [8]))) }

theorem keyed_wellFormed : WellFormed "me" World.keyed.disk := by
  obtain ⟨h1, h2, h3⟩ := World.three_wellFormed
  refine ⟨fun k v h => ?_, fun j d h => h2 j d h, h3⟩
  by_cases hk : k = .devIdentityKey "a" 7
  · subst hk
    cases h
    exact ⟨_, rfl⟩
  · exact h1 k v ((Disk.upd_of_ne hk).symm.trans h)

theorem shuffle_sole {α : Type} : ∀ t : List α, Shuffle [t] t
  | [] => .nil (by simp)
  | e :: t => .cons (pre := []) (post := []) (e := e) (shuffle_sole t)

def lookedUp (info : Inf) := trial genuine (info Mgr.ex "a") World.keyed

theorem C20_not {info : Inf} (h : (match (lookedUp info).2.1 with | .ok ds => ds.any (fun x => decide (x.deviceId = 7 ∧ x.identityKey ≠ [8])) | _ => false) = true) :
    ¬ C20 info := by
  intro hc
  have he := trial_exec genuine (info Mgr.ex "a") World.keyed
  have hr := trial_runs genuine_ok (info Mgr.ex "a") World.keyed
  unfold lookedUp at h
  generalize (trial genuine (info Mgr.ex "a") World.keyed).2.1 = r at h he
  generalize (trial genuine (info Mgr.ex "a") World.keyed).2.2 = w' at hr
  generalize (trial genuine (info Mgr.ex "a") World.keyed).1 = t at he hr
  match r, h, he with
  | .ok ds, h, he =>
    obtain ⟨x, hx, hp⟩ := List.any_eq_true.1 h
    have hp := of_decide_eq_true hp
    have hk : HasKey World.keyed.disk "a" x.deviceId [8] := by
      rw [hp.1]
      show World.three.disk.upd (.devIdentityKey "a" 7) (some (.str (Base64.encode [8]))) (.devIdentityKey "a" 7) = some (.str (Base64.encode [8]))
      exact Disk.upd_self
    exact hp.2 ((hc "me" World.keyed w' [] [(Mgr.ex, "a", t, ds)] (fun k hk => by cases List.mem_singleton.1 hk; exact he) t (shuffle_sole t) hr
      keyed_wellFormed (fun k hk => nomatch hk)).2 (Mgr.ex, "a", t, ds) (.head _) x hx [8] hk)

/-- The identity key is taken from the bundle at each lookup (sm:1414-1418 forgotten). -/
def refetching : Inf := fun M jid => do
  let devices ← getDeviceInformation M jid
  Prog.mapAll devices fun dev => do
    match ← fetchIdentityKey jid dev.deviceId dev.namespaces with
    | none => pure dev
    | some b => pure { dev with identityKey := b.identityKey }

/-- The same, but what is stored stays. -/
def reloading : Inf := fun M jid => do
  let devices ← getDeviceInformation M jid
  Prog.mapAll devices fun dev => do
    match ← fetchOnly jid dev.deviceId dev.namespaces with
    | none => pure dev
    | some b => pure { dev with identityKey := b.identityKey }

theorem C20_refetching : ¬ C20 refetching := C20_not (by decide +kernel)
theorem C20_reloading : ¬ C20 reloading := C20_not (by decide +kernel)

end Wrong
end Verif
