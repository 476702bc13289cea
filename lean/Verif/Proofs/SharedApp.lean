import Verif.Proofs.SharedFns
import Verif.Model.App
import Verif.Model.BTBV
/-
Trust decisions that go through the public API keep the guarantees; and what follows for any number of interleaved calls.
-/
namespace Verif
namespace Shared
open Spec

theorem safe_app {pin : Pin} {A : Filled} {M : Mgr} (hown : Own M A) {α : Type} {p : P α}
    (h : AppProg M (NoMiss pin) p) : Safe pin A p := by
  induction h with
  | ret a => exact .ret
  | raise e he => exact .raise he
  | ext o k ho _ ih =>
    intro l hl
    refine ⟨?_, ⟨fun _ h => h, trivial⟩, fun r hr => ?_⟩
    · cases o <;> first | trivial | (cases ho; done)
    · have hn : ∀ k, (Sh pin).next l ⟨o, r⟩ k → l k := by
        rintro k (hk | hk)
        · exact hk
        · cases o <;> first | (cases ho; done) | exact hk.elim
      refine guar_mono (ih r ?_ ((Sh pin).next l ⟨o, r⟩) fun k hk => .inl (hl k hk)) fun r' l' h' => ⟨fun k hk => h'.1 k (.inl hk), h'.2⟩
      rintro e rfl
      refine NoMiss.of ?_
      cases o <;> first | exact hr | (cases ho; done)
  | info jid h f _ _ ihh ihf => exact Safe.tryElse (safe_info jid) (fun e he => ihh e he) ihf
  | api c h f hc _ _ ihh ihf =>
    refine Safe.tryElse ?_ (fun e he => ihh e he) ihf
    cases c with
    | getIdentityKeyPair => exact Safe.bind safe_ikp fun _ => .ret
    | create bs label fuel => cases hc
    | purgeBackend ns => exact safe_purgeBackend ns
    | purgeBareJid jid => cases hc
    | ensureDataConsistency => exact safe_ensureDataConsistency hown
    | rotation p f r => exact safe_manageRotation p f r
    | updateDeviceList ns jid dl => exact safe_updateDeviceList hown ns jid dl
    | refreshDeviceList ns jid => exact safe_refreshDeviceList hown ns jid
    | refreshDeviceLists jid => exact safe_refreshDeviceLists hown jid
    | setTrust jid ik level => exact safe_setTrust jid ik level
    | replaceSessions jid d => exact Safe.bind (safe_replaceSessions jid d) fun _ => .ret
    | getSendingChainLength dev => exact Safe.bind (safe_getSendingChainLength dev) fun _ => .ret
    | setOwnLabel l => exact safe_setOwnLabel l
    | getDeviceInformation jid => exact Safe.bind (safe_info jid) fun _ => .ret
    | getOwnDeviceInformation => exact Safe.bind safe_getOwnDeviceInformation fun _ => .ret
    | beforeHistorySync => exact .call rfl
    | afterHistorySync => exact safe_afterHistorySync
    | encrypt jids pt prio i => cases hc
    | decrypt msg => exact Safe.bind (safe_decrypt hown msg) fun _ => .ret

/-- A program with its execution. -/
structure Running where
  α : Type
  prog : P α
  trace : List Ev
  res : Res Exn α
  exec : Exec prog trace res

/-- Interleaved programs that all keep the guarantees: the invariant holds at the end, and each program sees what it relies on. -/
theorem interleaved {pin : Pin} {w w' : World} {A : Filled} (ks : List Running) {t : List Ev}
    (hs : Shuffle (ks.map (·.trace)) t) (hr : Lib.Runs w t w') (hJ : Inv pin w) (hA : True_ A w)
    (hk : ∀ k ∈ ks, Safe pin A k.prog) :
    Inv pin w' ∧ ∀ k ∈ ks, ∀ Q X, SafeX pin A k.prog Q X → match k.res with
      | .ok a => ∃ l, Q a l
      | .raised e => X e
      | .crashed => True := by
  let ts : List (Task LibSig Exn Filled) := ks.map fun k => ⟨k.α, k.prog, k.trace, k.res, A, k.exec⟩
  have main := rely_guarantee (N := Lib) (M := Sh pin) (φ := Allowed pin) (J := Inv pin) (R := True_) step ts
    (fun x hx => by
      obtain ⟨k, hk', rfl⟩ := List.mem_map.1 hx
      exact guar_mono (hk k hk' A fun _ h => h) fun _ _ _ => trivial)
    (fun x hx => by
      obtain ⟨k, hk', rfl⟩ := List.mem_map.1 hx
      exact hA) hJ
    (by simpa [ts, List.map_map, Function.comp_def] using hs) hr
  refine ⟨main.1, fun k hk' Q X hQ => ?_⟩
  obtain ⟨l', hl, _⟩ := main.2 _ (List.mem_map.2 ⟨k, hk', rfl⟩)
  have := wp_sound (guar_wp (hQ A fun _ h => h)) k.exec hl
  cases hres : k.res with
  | ok a => rw [hres] at this; exact ⟨_, this.2⟩
  | raised e => rw [hres] at this; exact this.2
  | crashed => trivial

/-- One program alone. -/
theorem alone {pin : Pin} {w w' : World} {A : Filled} {α : Type} {p : P α} {t : List Ev} {r : Res Exn α} (he : Exec p t r)
    (hr : Lib.Runs w t w') (hJ : Inv pin w) (hA : True_ A w) {Q : α → Filled → Prop} {X : Exn → Prop} (hk : SafeX pin A p Q X) :
    Inv pin w' ∧ match r with
      | .ok a => ∃ l, Q a l ∧ True_ l w'
      | .raised e => X e
      | .crashed => True := by
  have main := rely_guarantee (N := Lib) (M := Sh pin) (φ := Allowed pin) (J := Inv pin) (R := True_) step
    [⟨α, p, t, r, A, he⟩]
    (fun x hx => by
      cases (List.mem_singleton.1 hx)
      exact guar_mono (hk A fun _ h => h) fun _ _ _ => trivial)
    (fun x hx => by
      cases (List.mem_singleton.1 hx)
      exact hA) hJ
    (t := t) (by
      show Shuffle [t] t
      clear he hr
      induction t with
      | nil => exact .nil (by simp)
      | cons e t ih => exact .cons (pre := []) ih) hr
  refine ⟨main.1, ?_⟩
  obtain ⟨l', hl, hl'⟩ := main.2 _ (List.mem_singleton.2 rfl)
  have := wp_sound (guar_wp (hk A fun _ h => h)) he hl
  cases r with
  | ok a => exact ⟨_, this.2, hl'⟩
  | raised e => exact this.2
  | crashed => trivial

end Shared

/-! ### BTBV goes through the public API -/

namespace BTBV

theorem app_makeTrustDecision {M : Mgr} {A : App} {X : Exn → Prop} (hX : X .valueError)
    (hn : ∀ ds i, AppProg (mgr M A) X (A.notify ds i)) (hp : ∀ ds i, AppProg (mgr M A) X (A.prompt ds i))
    (ds : List DeviceInfo) (i : Option String) : AppProg (mgr M A) X ((mgr M A).decide ds i) := by
  have h1 : ∀ l, AppProg (mgr M A) X (liftE (allBlind l) : P Bool) := by
    intro l
    induction l with
    | nil => exact .ret _
    | cons d l ih =>
      unfold allBlind
      split
      · exact .raise _ hX
      · split
        · exact ih
        · exact .ret _
  have h2 : ∀ jid, AppProg (mgr M A) X (SM.getDeviceInformation M jid) := fun jid => .getDeviceInformation (M := mgr M A) jid
  have h3 : ∀ j ik s, AppProg (mgr M A) X (SM.setTrust j ik s) := fun j ik s => .call (.setTrust j ik s) rfl
  show AppProg _ _ (makeTrustDecision M A ds i)
  unfold makeTrustDecision sortJids trustBlindly
  refine .bind (.fold fun b jid _ => ?_) fun x => ?_
  · exact .bind (h2 _) fun devs => .bind (h1 _) fun b => .ret _
  · exact .bind (.when (.bind (.forEach fun dev _ => h3 _ _ _) fun _ => hn _ _)) fun _ => .when (hp _ _)

end BTBV
end Verif
