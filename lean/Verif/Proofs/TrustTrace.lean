import Verif.Proofs.EncryptTrace
import Verif.Proofs.RaisesLib
/-
The trust decisions in `encrypt`, for arbitrary answers.
-/
namespace Verif

namespace SM
open Spec
variable {φ : Ev → Prop} {M : Mgr} {h : List Ev}

/-- The trust levels of these devices were evaluated. -/
def evals (ds : List DeviceInfo) (v : DeviceInfo → TrustLevel) : List Ev := ds.map fun dev => ⟨.evalTrust dev, .ok (v dev)⟩

theorem mem_evals {ds : List DeviceInfo} {v : DeviceInfo → TrustLevel} {e : Ev} :
    e ∈ evals ds v ↔ ∃ dev ∈ ds, e = ⟨.evalTrust dev, .ok (v dev)⟩ := by
  simp [evals, eq_comm]

theorem evals_congr {ds : List DeviceInfo} {v v' : DeviceInfo → TrustLevel} (h : ∀ d ∈ ds, v d = v' d) : evals ds v = evals ds v' := by
  unfold evals
  exact List.map_congr_left fun d hd => by rw [h d hd]

/-- `evaluate` is called for each device in turn. -/
theorem trace_devicesWithTrust (level : TrustLevel) (ds : List DeviceInfo) (hnd : ds.Nodup) :
    wp (Rec φ) (devicesWithTrust level ds) (ends
      (fun ys h' => ∃ v, h' = h ++ evals ds v ∧ ys = ds.filter fun d => decide (v d = level))
      (fun x h' => ∃ t, h' = h ++ t ∧ (∀ e ∈ t, ∃ dev ∈ ds, e.1 = .evalTrust dev) ∧
        ∀ y, x = some y → ∃ dev, (⟨.evalTrust dev, .error y⟩ : Ev) ∈ t)) h := by
  unfold devicesWithTrust
  induction ds generalizing h with
  | nil => exact ⟨fun _ => .trusted, by simp [evals], rfl⟩
  | cons d ds ih =>
    unfold Prog.filterAll
    rw [wp_bind_def, andThen_ends, ends_bind]
    refine Rec.call ⟨[], by simp, by simp, by simp⟩ (fun l _ => ?_) fun e _ => ⟨_, rfl, by simp, by rintro _ ⟨⟩; exact ⟨d, by simp⟩⟩
    show wp (Rec φ) (Prog.bind _ _) _ _
    rw [wp_bind_def, andThen_ends]
    obtain ⟨hd, hnd⟩ := List.nodup_cons.1 hnd
    refine ends_mono (ih (h := h ++ [⟨.evalTrust d, .ok l⟩]) hnd) ?_ ?_
    · rintro ys _ ⟨v, rfl, rfl⟩
      have hv : ∀ x ∈ ds, (if x = d then l else v x) = v x := by
        intro x hx
        rw [if_neg]
        rintro rfl
        exact hd hx
      refine ⟨fun x => if x = d then l else v x, ?_, ?_⟩
      · rw [List.append_assoc]
        congr 1
        show _ = _ :: evals ds _
        rw [evals_congr (v := fun x => if x = d then l else v x) (v' := v) hv]
        simp
      · have : ds.filter (fun x => decide ((if x = d then l else v x) = level)) = ds.filter fun x => decide (v x = level) :=
          List.filter_congr fun x hx => by rw [hv x hx]
        rw [List.filter_cons]
        simp only [if_pos rfl, this]
        by_cases hl : l = level <;> simp [hl]
    · rintro _ _ ⟨t, rfl, ht, hy⟩
      refine ⟨_, List.append_assoc .., ?_, ?_⟩
      · intro e he
        rcases List.mem_append.1 he with he | he
        · simp only [List.mem_singleton] at he
          subst he
          exact ⟨d, by simp, rfl⟩
        · obtain ⟨x, hx, h'⟩ := ht e he
          exact ⟨x, by simp [hx], h'⟩
      · intro y h
        obtain ⟨dev, hd⟩ := hy y h
        exact ⟨dev, by simp [hd]⟩

/-- A device with its trust level loaded again. -/
def Reloaded (M : Mgr) (h : List Ev) (x y : DeviceInfo) : Prop :=
  ∃ l, y = { x with trustLevelName := l } ∧ (Loaded h (.trust x.bareJid x.identityKey) (.str l) ∨
    ((⟨.load (.trust x.bareJid x.identityKey), .ok none⟩ : Ev) ∈ h ∧ l = M.undecided))

theorem Reloaded.mono {x y : DeviceInfo} {h h' : List Ev} (hr : Reloaded M h x y) (hh : ∀ e ∈ h, e ∈ h') : Reloaded M h' x y := by
  obtain ⟨l, h1, h2⟩ := hr
  refine ⟨l, h1, ?_⟩
  rcases h2 with h2 | ⟨h2, h3⟩
  · exact .inl (hh _ h2)
  · exact .inr ⟨hh _ h2, h3⟩

/-- Loading a trust level failed with this exception. -/
def TrustLoadFailed (t : List Ev) (y : Exn) : Prop :=
  ∃ j ik, (⟨.load (.trust j ik), .error y⟩ : Ev) ∈ t ∨ (y = .typeError ∧ ∃ v, (⟨.load (.trust j ik), .ok (some v)⟩ : Ev) ∈ t)

/-- Operations that only load trust levels -/
def Op.loadsTrust : Op → Bool
  | .load (.trust ..) => true
  | _ => false

theorem trace_reloadTrust (x : DeviceInfo) :
    wp (Rec φ) (reloadTrust M x) (ends (fun y h' => (∃ t, h' = h ++ t ∧ ∀ e ∈ t, Op.loadsTrust e.1 = true) ∧ Reloaded M h' x y)
      fun x h' => ∃ t, h' = h ++ t ∧ (∀ e ∈ t, Op.loadsTrust e.1 = true) ∧ ∀ y, x = some y → TrustLoadFailed t y) h := by
  unfold reloadTrust
  rw [ends_bind]
  unfold Sto.loadStr
  rw [ends_bind]
  refine Rec.call ⟨[], by simp, by simp, nofun⟩ (fun v _ => ?_) fun e _ => ?_
  · rw [wp_fmap]
    cases v with
    | none => exact ⟨⟨_, rfl, by simp [Op.loadsTrust]⟩, M.undecided, rfl, .inr ⟨by simp, rfl⟩⟩
    | some v =>
      simp only [fmapRes]
      have e1 : Except.map JVal.asStr (checkPrimitive .str v) = chkStr v := rfl
      rw [e1]
      cases hc : chkStr v with
      | ok b => exact ⟨⟨_, rfl, by simp [Op.loadsTrust]⟩, b, rfl, .inl (by simp [Loaded, str_of_check hc])⟩
      | error e =>
        refine ⟨_, rfl, by simp [Op.loadsTrust], ?_⟩
        rintro _ ⟨⟩
        refine ⟨x.bareJid, x.identityKey, .inr ⟨?_, v, by simp⟩⟩
        unfold chkStr checkPrimitive at hc
        split at hc <;> cases hc
        rfl
  · refine ⟨_, rfl, by simp [Op.loadsTrust], ?_⟩
    rintro _ ⟨⟩
    exact ⟨x.bareJid, x.identityKey, .inl (by simp)⟩

theorem trace_reloads (xs : List DeviceInfo) :
    wp (Rec φ) (Prog.mapAll xs (reloadTrust M)) (ends (fun ys h' => (∃ t, h' = h ++ t ∧ ∀ e ∈ t, Op.loadsTrust e.1 = true) ∧
      (∀ x ∈ xs, ∃ y ∈ ys, Reloaded M h' x y) ∧ (∀ y ∈ ys, ∃ x ∈ xs, Reloaded M h' x y) ∧ ys.map addr = xs.map addr)
      fun x h' => ∃ t, h' = h ++ t ∧ (∀ e ∈ t, Op.loadsTrust e.1 = true) ∧ ∀ y, x = some y → TrustLoadFailed t y) h := by
  induction xs generalizing h with
  | nil => exact ⟨⟨[], by simp, by simp⟩, by simp, by simp, rfl⟩
  | cons x xs ih =>
    unfold Prog.mapAll
    rw [wp_bind_def, andThen_ends]
    refine ends_mono (trace_reloadTrust (h := h) x) ?_ fun _ _ h => h
    rintro y _ ⟨⟨t, rfl, ht⟩, hy⟩
    rw [wp_bind_def, andThen_ends]
    refine ends_mono (ih (h := h ++ t)) ?_ ?_
    · rintro ys _ ⟨⟨t', rfl, ht'⟩, h1, h2, h3⟩
      have hy' := hy.mono (h' := h ++ t ++ t') fun e he => by simp only [List.mem_append] at he ⊢; grind
      refine ⟨⟨_, List.append_assoc .., ?_⟩, ?_, ?_, ?_⟩
      · intro e he
        rcases List.mem_append.1 he with he | he
        · exact ht e he
        · exact ht' e he
      · intro z hz
        rcases List.mem_cons.1 hz with rfl | hz
        · exact ⟨y, by simp, hy'⟩
        · obtain ⟨w, hw, h'⟩ := h1 z hz
          exact ⟨w, by simp [hw], h'⟩
      · intro z hz
        rcases List.mem_cons.1 hz with rfl | hz
        · exact ⟨x, by simp, hy'⟩
        · obtain ⟨w, hw, h'⟩ := h2 z hz
          exact ⟨w, by simp [hw], h'⟩
      · obtain ⟨l, rfl, _⟩ := hy
        simp [h3, addr]
    · rintro _ _ ⟨t', rfl, ht', hy'⟩
      refine ⟨_, List.append_assoc .., ?_, ?_⟩
      · intro e he
        rcases List.mem_append.1 he with he | he
        · exact ht e he
        · exact ht' e he
      · intro y hyx
        obtain ⟨j, ik, h1⟩ := hy' y hyx
        refine ⟨j, ik, ?_⟩
        rcases h1 with h1 | ⟨h1, v, h2⟩
        · exact .inl (by simp [h1])
        · exact .inr ⟨h1, v, by simp [h2]⟩

/-- The second step of the trust decisions: nothing, or a decision of the application and loading the levels again. -/
def Asked (M : Mgr) (devices und : List DeviceInfo) (i : Option String) (t : List Ev) (out : List DeviceInfo) (h : List Ev) : Prop :=
  (und = [] ∧ t = [] ∧ out = devices) ∨
  (und ≠ [] ∧ ∃ td tl, t = td ++ tl ∧ Exec (M.decide und i) td (.ok ()) ∧ (∀ e ∈ tl, Op.loadsTrust e.1 = true) ∧
    (∀ x ∈ devices, ∃ y ∈ out, Reloaded M h x y) ∧ ∀ y ∈ out, ∃ x ∈ devices, Reloaded M h x y)

/-- The second step ended early. -/
def AskFailed (M : Mgr) (und : List DeviceInfo) (i : Option String) (t : List Ev) (x : Option Exn) : Prop :=
  und ≠ [] ∧ ∃ td tl r, t = td ++ tl ∧ Exec (M.decide und i) td r ∧ (∀ e ∈ tl, Op.loadsTrust e.1 = true) ∧
    ∀ y, x = some y → r = .raised y ∨ TrustLoadFailed tl y

theorem trace_askTrust (devices und : List DeviceInfo) (i : Option String) (hnd : (devices.map addr).Nodup) :
    wp (Rec φ) (askTrust M devices und i) (ends
      (fun out h' => (∃ t, h' = h ++ t ∧ Asked M devices und i t out h') ∧ (out.map addr).Nodup ∧
        ∀ a, a ∈ out.map addr ↔ a ∈ devices.map addr)
      (fun x h' => ∃ t, h' = h ++ t ∧ AskFailed M und i t x)) h := by
  unfold askTrust
  split
  · rename_i hl
    have hne : und ≠ [] := by rintro rfl; simp at hl
    rw [ends_bind]
    refine wp_mono (Rec.exec (φ := φ) (p := M.decide und i) (h := h)) ?_
    rintro r _ ⟨td, rfl, he, _⟩
    cases r with
    | crashed => exact ⟨td, rfl, hne, td, [], _, by simp, he, by simp, nofun⟩
    | raised e => exact ⟨td, rfl, hne, td, [], _, by simp, he, by simp, by rintro _ ⟨⟩; exact .inl rfl⟩
    | ok a =>
      show wp _ _ _ _
      rw [ends_bind]
      refine ends_mono (trace_reloads (φ := φ) (M := M) (h := h ++ td) (M.O.iter devices)) ?_ ?_
      · rintro ys _ ⟨⟨tl, rfl, htl⟩, h1, h2, h3⟩
        have hyn : (ys.map addr).Nodup := by
          rw [h3]
          refine nodup_map_on (fun x hx y hy h => ?_) (by simpa using nodup_of_map hnd)
          exact inj_of_nodup_map hnd (by simpa using hx) (by simpa using hy) h
        have hd : dedup ys = ys := dedup_eq_self (nodup_of_map hyn)
        rw [hd]
        refine ⟨⟨_, List.append_assoc .., .inr ⟨hne, td, tl, rfl, he, htl, ?_, ?_⟩⟩, hyn, ?_⟩
        · intro x hx; exact h1 x (by simpa using hx)
        · intro y hy; obtain ⟨x, hx, h⟩ := h2 y hy; exact ⟨x, by simpa using hx, h⟩
        · intro a; rw [h3]; simp
      · rintro _ _ ⟨tl, rfl, htl, hy⟩
        exact ⟨_, List.append_assoc .., hne, td, tl, _, rfl, he, htl, fun y h => .inr (hy y h)⟩
  · rename_i hl
    have : und = [] := by cases und with | nil => rfl | cons => simp at hl
    exact ⟨⟨[], by simp, .inl ⟨this, rfl, rfl⟩⟩, hnd, fun a => Iff.rfl⟩

/-- The trust decisions: two rounds of evaluations with the second step in between. -/
structure Decided (M : Mgr) (devices : List DeviceInfo) (i : Option String) (t : List Ev) (out : List DeviceInfo) (h : List Ev)
    (v1 v2 : DeviceInfo → TrustLevel) (tm : List Ev) : Prop where
  trace : t = evals (M.O.iter devices) v1 ++ tm ++ evals (M.O.iter out) v2
  asked : Asked M devices ((M.O.iter devices).filter fun d => decide (v1 d = .undecided)) i tm out h
  nodup : (out.map addr).Nodup
  addrs : ∀ a, a ∈ out.map addr ↔ a ∈ devices.map addr

/-- The trust decisions ended early. -/
inductive DecideFailed (M : Mgr) (devices : List DeviceInfo) (i : Option String) : List Ev → Option Exn → Prop
  /-- in the first round -/
  | first {t x} (h : ∀ e ∈ t, ∃ dev ∈ devices, e.1 = .evalTrust dev)
    (hx : ∀ y, x = some y → ∃ dev, (⟨.evalTrust dev, .error y⟩ : Ev) ∈ t) : DecideFailed M devices i t x
  /-- while deciding or loading -/
  | ask {v1 t x} (h : AskFailed M ((M.O.iter devices).filter fun d => decide (v1 d = .undecided)) i t x) :
    DecideFailed M devices i (evals (M.O.iter devices) v1 ++ t) x
  /-- in the second round -/
  | second {v1 tm out h t x} (ha : Asked M devices ((M.O.iter devices).filter fun d => decide (v1 d = .undecided)) i tm out h)
    (hn : (out.map addr).Nodup) (hm : ∀ a, a ∈ out.map addr ↔ a ∈ devices.map addr)
    (ht : ∀ e ∈ t, ∃ dev ∈ out, e.1 = .evalTrust dev)
    (hx : ∀ y, x = some y → ∃ dev, (⟨.evalTrust dev, .error y⟩ : Ev) ∈ t) :
    DecideFailed M devices i (evals (M.O.iter devices) v1 ++ tm ++ t) x
  /-- some device is still undecided -/
  | still {v1 v2 tm out t h} (hd : Decided M devices i t out h v1 v2 tm) (hu : ∃ d ∈ out, v2 d = .undecided) :
    DecideFailed M devices i t (some .stillUndecided)

theorem trace_decideTrust (devices : List DeviceInfo) (i : Option String) (hnd : (devices.map addr).Nodup) :
    wp (Rec φ) (decideTrust M devices i) (ends
      (fun out h' => ∃ t v1 v2 tm h0, h' = h ++ t ∧ (∀ e ∈ h0, e ∈ h') ∧ Decided M devices i t out h0 v1 v2 tm ∧ ∀ d ∈ out, v2 d ≠ .undecided)
      (fun x h' => ∃ t, h' = h ++ t ∧ DecideFailed M devices i t x)) h := by
  unfold decideTrust
  rw [ends_bind]
  have hn1 : (M.O.iter devices).Nodup := by simpa using nodup_of_map hnd
  refine ends_mono (trace_devicesWithTrust .undecided _ hn1) ?_ ?_
  · rintro _ _ ⟨v1, rfl, rfl⟩
    rw [ends_bind]
    refine ends_mono (trace_askTrust devices _ i hnd) ?_ ?_
    · rintro out _ ⟨⟨tm, rfl, ha⟩, hn, hm⟩
      rw [ends_bind]
      have hn2 : (M.O.iter out).Nodup := by simpa using nodup_of_map hn
      refine ends_mono (trace_devicesWithTrust .undecided _ hn2) ?_ ?_
      · rintro _ _ ⟨v2, rfl, rfl⟩
        split
        · rename_i hl
          obtain ⟨d, hd⟩ := List.exists_mem_of_length_pos hl
          simp only [List.mem_filter, SetOrder.mem_iter, decide_eq_true_eq] at hd
          refine ⟨_, by rw [List.append_assoc, List.append_assoc], .still ⟨(List.append_assoc ..).symm, ha, hn, hm⟩ ⟨d, hd⟩⟩
        · rename_i hl
          refine ⟨_, v1, v2, tm, _, by rw [List.append_assoc, List.append_assoc], ?_, ⟨(List.append_assoc ..).symm, ha, hn, hm⟩, ?_⟩
          · intro e he
            simp only [List.mem_append] at he ⊢
            grind
          · intro d hd hv
            exact hl (List.length_pos_of_mem (a := d) (by simp [hd, hv]))
      · rintro x _ ⟨t, rfl, ht, hy⟩
        refine ⟨_, by rw [List.append_assoc, List.append_assoc], ?_⟩
        have := DecideFailed.second (x := x) ha hn hm (t := t) (fun e he => by
          obtain ⟨d, hd, h⟩ := ht e he
          exact ⟨d, by simpa using hd, h⟩) hy
        simpa using this
    · rintro x _ ⟨t, rfl, ht⟩
      exact ⟨_, List.append_assoc .., .ask ht⟩
  · rintro x _ ⟨t, rfl, ht, hy⟩
    refine ⟨t, rfl, .first (fun e he => ?_) hy⟩
    obtain ⟨d, hd, h⟩ := ht e he
    exact ⟨d, by simpa using hd, h⟩

end SM
end Verif
