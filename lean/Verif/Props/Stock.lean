import Verif.Props.Again
/-
The number of visible pre keys of loaded backends.
-/
namespace Verif
open SM Spec Foot

namespace Spec

/-- How an interaction changes the numbers `s` of visible pre keys, for backends that count correctly.  What failed may have happened in part. -/
def Counts (s : Ns → Nat) (e : Ev) (s' : Ns → Nat) : Prop :=
  match e with
  | ⟨.numVisible ns, .ok n⟩ => n = (s ns : Int) ∧ s' = s
  | ⟨.generatePreKeys ns n, .ok _⟩ => s' ns = s ns + n.toNat ∧ ∀ m, m ≠ ns → s' m = s m
  | ⟨.generatePreKeys ns n, .error _⟩ => s' ns ≤ s ns + n.toNat ∧ ∀ m, m ≠ ns → s' m = s m
  | ⟨.hidePreKey ns _, .ok b⟩ => s' ns + (if b = true then 1 else 0) = s ns ∧ ∀ m, m ≠ ns → s' m = s m
  | ⟨.hidePreKey ns _, .error _⟩ => s' ns ≤ s ns ∧ ∀ m, m ≠ ns → s' m = s m
  | ⟨.deletePreKey ns _, .ok b⟩ => (s' ns = s ns ∨ b = true ∧ s' ns + 1 = s ns) ∧ ∀ m, m ≠ ns → s' m = s m
  | ⟨.deletePreKey ns _, .error _⟩ => s' ns ≤ s ns ∧ ∀ m, m ≠ ns → s' m = s m
  | ⟨.purge ns, .ok _⟩ => s' ns = 0 ∧ ∀ m, m ≠ ns → s' m = s m
  | ⟨.purge ns, .error _⟩ => s' ns ≤ s ns ∧ ∀ m, m ≠ ns → s' m = s m
  | _ => s' = s

/-- The numbers of visible pre keys after the interactions, with none at first. -/
inductive Counted : List Ev → (Ns → Nat) → Prop where
  | nil : Counted [] fun _ => 0
  | snoc {l : List Ev} {e : Ev} {s s' : Ns → Nat} : Counted l s → Counts s e s' → Counted (l ++ [e]) s'

/-- Interactions that change or count the pre keys. -/
def PreKeyOp : Op → Bool
  | .numVisible _ | .generatePreKeys .. | .hidePreKey .. | .deletePreKey .. => true
  | _ => false

/-- None of the interactions that change or count the pre keys failed. -/
def NoneFailed (l : List Ev) : Prop := ∀ e ∈ l, PreKeyOp e.1 = true → ∀ x, e.2 ≠ .error x

/-- A trust decision that leaves backends alone, except through calls of the library. -/
inductive Decision (M : Mgr) : {α : Type} → P α → Prop where
  | ret {α : Type} (a : α) : Decision M (.ret a)
  | raise {α : Type} (e : Exn) : Decision M (.raise e : P α)
  | ext {α : Type} (o : Op) (k : Except Exn o.Ret → P α) : o.isExternal = true → PreKeyOp o = false → (∀ ns, o ≠ .purge ns) →
      (∀ r, Decision M (k r)) → Decision M (.op o k)
  | info {α : Type} (jid : Jid) (h : Exn → P α) (f : List DeviceInfo → P α) : (∀ e, Decision M (h e)) →
      (∀ a, Decision M (f a)) → Decision M (Prog.tryElse (SM.getDeviceInformation M jid) h f)
  | api {α : Type} (c : Call) (h : Exn → P α) (f : Unit → P α) : c.inDecision = true → (∀ e, Decision M (h e)) →
      (∀ a, Decision M (f a)) → Decision M (Prog.tryElse (c.run M) h f)

/-- The trust decisions leave backends alone, except through calls of the library, whatever the own device id is. -/
def HandsOff (M : Mgr) : Prop := ∀ dev ds i, Decision { M with ownDev := dev } (M.decide ds i)

/-- Calls in the life of an account, each of which returned or raised; creations of managers returned.  The refill thresholds are at least `thr`. -/
inductive Steady (own : Jid) (x : XEdDSA) (thr : Int) (s0 : Use) : Use → Prop where
  | start : Steady own x thr s0 s0
  | ikp {s : Use} {w' : World} {t : List Ev} {r : Res Exn Unit} (M : Mgr) : Steady own x thr s0 s →
      Exec (Call.getIdentityKeyPair.run M) t r → Lib.Runs s.world t w' → Steady own x thr s0 ⟨w', s.mgrs⟩
  | create {s : Use} {w' : World} {t : List Ev} {d : DevId} (M : Mgr) (bs : List Ns) (label : Option String) (fuel : Nat) : Steady own x thr s0 s →
      M.ownJid = own → M.x = x → thr ≤ M.threshold → HandsOff M →
      Exec (SM.create M bs label fuel) t (.ok d) → Lib.Runs s.world t w' → Steady own x thr s0 ⟨w', s.mgrs ++ [{ M with ownDev := d }]⟩
  | call {s : Use} {w' : World} {t : List Ev} {r : Res Exn Unit} (M : Mgr) (c : Call) : Steady own x thr s0 s →
      M ∈ s.mgrs → (∀ bs l f, c ≠ .create bs l f) → r ≠ .crashed →
      Exec (c.run M) t r → Lib.Runs s.world t w' → Steady own x thr s0 ⟨w', s.mgrs⟩

end Spec

namespace Stock

/-- Interactions that change the number of pre keys. -/
def stocks : Op → Bool
  | .generatePreKeys .. | .hidePreKey .. | .deletePreKey .. | .purge _ => true
  | _ => false

theorem counts_free {s s' : Ns → Nat} {o : Op} {r : Except Exn o.Ret} (h : stocks o = false) (hc : Counts s ⟨o, r⟩ s') : s' = s := by
  cases o <;> first | (cases h; done) | (cases r <;> first | exact hc | exact hc.2)

/-- `st` are possible numbers of pre keys, nothing failed. -/
def Stk (w : World) (st : Ns → Nat) : Prop := NoneFailed w.log ∧ Counted w.log st

theorem stk_push {w : World} {e : Ev} {st : Ns → Nat} (h : Stk (w.push e) st) :
    ∃ st0, Stk w st0 ∧ Counts st0 e st ∧ (PreKeyOp e.1 = true → ∀ x, e.2 ≠ .error x) := by
  obtain ⟨h1, h2⟩ := h
  have key : ∀ l', Counted l' st → l' = w.log ++ [e] → ∃ st0, Counted w.log st0 ∧ Counts st0 e st := by
    intro l' h hl
    cases h with
    | nil => cases hw : w.log <;> rw [hw] at hl <;> cases hl
    | snoc ha hb =>
      obtain ⟨h3, h4⟩ := List.append_inj' hl rfl
      cases h4
      subst h3
      exact ⟨_, ha, hb⟩
  obtain ⟨st0, h3, h4⟩ := key _ h2 rfl
  exact ⟨st0, ⟨fun e' he' => h1 e' (List.mem_append_left _ he'), h3⟩, h4, h1 e (List.mem_append_right _ (List.mem_singleton.2 rfl))⟩

/-- The log was extended by interactions that do not change the number of pre keys. -/
def Free (l l' : List Ev) : Prop := ∃ t, l' = l ++ t ∧ ∀ e ∈ t, stocks e.1 = false

theorem Free.refl (l : List Ev) : Free l l := ⟨[], (List.append_nil l).symm, fun _ h => nomatch h⟩
theorem Free.push {l : List Ev} {w : World} {e : Ev} (h : Free l w.log) (he : stocks e.1 = false) : Free l (w.push e).log := by
  obtain ⟨t, h1, h2⟩ := h
  refine ⟨t ++ [e], by simp [World.push, h1], fun e' he' => ?_⟩
  rcases List.mem_append.1 he' with h | h
  · exact h2 _ h
  · rw [List.mem_singleton.1 h]; exact he
theorem Free.trans {a b c : List Ev} (h : Free a b) (h' : Free b c) : Free a c := by
  obtain ⟨t, rfl, h2⟩ := h
  obtain ⟨t', rfl, h4⟩ := h'
  exact ⟨t ++ t', by simp, fun e he => (List.mem_append.1 he).elim (h2 e) (h4 e)⟩

theorem stk_reverse {w : World} (t : List Ev) (h : ∀ e ∈ t, stocks e.1 = false) {st : Ns → Nat}
    (hs : Stk { w with log := w.log ++ t.reverse } st) : Stk w st := by
  induction t with
  | nil => rw [List.reverse_nil, List.append_nil] at hs; exact hs
  | cons e t ih =>
    rw [List.reverse_cons, ← List.append_assoc] at hs
    obtain ⟨st0, h6, h7, _⟩ := stk_push (w := { w with log := w.log ++ t.reverse }) (e := e) hs
    obtain ⟨o, r⟩ := e
    cases counts_free (h ⟨o, r⟩ (by simp)) h7
    exact ih (fun e he => h e (by simp [he])) h6

theorem stk_free {w w' : World} {st : Ns → Nat} (h : Free w.log w'.log) (hs : Stk w' st) : Stk w st := by
  obtain ⟨t, h1, h2⟩ := h
  refine stk_reverse t.reverse (fun e he => h2 e (List.mem_reverse.1 he)) (st := st) ?_
  rw [List.reverse_reverse]
  unfold Stk at hs
  rw [h1] at hs
  exact hs

/-- At most 100 pre keys, more than `thr` for `S`. -/
def GoodOn (S : Ns → Prop) (thr : Int) (w : World) : Prop :=
  ∀ st, Stk w st → (∀ ns, st ns ≤ 100) ∧ ∀ ns, S ns → thr < (st ns : Int)

def Half (thr : Int) (own : Jid) (dev : DevId) (w : World) : Prop := GoodOn (Advertises w.disk own dev) thr w
def Good (thr : Int) (own : Jid) (dev : DevId) (w : World) : Prop := GoodOn (fun ns => ns ∈ w.backends ∨ Advertises w.disk own dev ns) thr w

theorem GoodOn.mono {S S' : Ns → Prop} {thr : Int} {w : World} (h : GoodOn S thr w) (hs : ∀ ns, S' ns → S ns) : GoodOn S' thr w := fun st hst =>
  ⟨(h st hst).1, fun ns hns => (h st hst).2 ns (hs ns hns)⟩

theorem GoodOn.free {S : Ns → Prop} {thr : Int} {w w' : World} (h : GoodOn S thr w) (hf : Free w.log w'.log) : GoodOn S thr w' := fun st hst =>
  h st (stk_free hf hst)

theorem GoodOn.push {S : Ns → Prop} {thr : Int} {w : World} {e : Ev} (h : GoodOn S thr w) (he : stocks e.1 = false) : GoodOn S thr (w.push e) :=
  h.free ((Free.refl _).push he)

theorem failed {S : Ns → Prop} {thr : Int} {w : World} {o : Op} {x : Exn} (h : PreKeyOp o = true) : GoodOn S thr (w.push ⟨o, .error x⟩) := fun st hst => by
  obtain ⟨_, _, _, h'⟩ := stk_push hst
  exact (h' h x rfl).elim

/-! ### Steps that leave the pre keys alone -/

/-- As before, with possibly less namespaces of the own device. -/
structure Still (own : Jid) (dev : DevId) (w w' : World) : Prop where
  backends : w'.backends = w.backends
  adv : ∀ ns, Advertises w'.disk own dev ns → Advertises w.disk own dev ns
  log : Free w.log w'.log

/-- As before, with possibly less or more loaded namespaces of the own device. -/
structure Mild (own : Jid) (dev : DevId) (w w' : World) : Prop where
  backends : w'.backends = w.backends
  adv : ∀ ns, Advertises w'.disk own dev ns → Advertises w.disk own dev ns ∨ ns ∈ w.backends
  log : Free w.log w'.log

section
variable {M : Mgr} {own : Jid} {dev : DevId} {thr : Int} {α β : Type}

theorem Still.refl (w : World) : Still own dev w w := ⟨rfl, fun _ h => h, .refl _⟩
theorem Still.trans {a b c : World} (h : Still own dev a b) (h' : Still own dev b c) : Still own dev a c :=
  ⟨h'.1.trans h.1, fun ns hn => h.2 ns (h'.2 ns hn), h.3.trans h'.3⟩
theorem Still.mild {w w' : World} (h : Still own dev w w') : Mild own dev w w' := ⟨h.1, fun ns hn => .inl (h.2 ns hn), h.3⟩
theorem Mild.refl (w : World) : Mild own dev w w := (Still.refl w).mild
theorem Mild.trans {a b c : World} (h : Mild own dev a b) (h' : Mild own dev b c) : Mild own dev a c :=
  ⟨h'.1.trans h.1, fun ns hn => (h'.2 ns hn).elim (h.2 ns) fun hb => .inr (h.1 ▸ hb), h.3.trans h'.3⟩

theorem Still.half {w w' : World} (h : Still own dev w w') (hw : Half thr own dev w) : Half thr own dev w' := (hw.free h.3).mono h.2
theorem Mild.good {w w' : World} (h : Mild own dev w w') (hw : Good thr own dev w) : Good thr own dev w' :=
  (hw.free h.3).mono fun ns hn => hn.elim (fun hb => .inl (h.1 ▸ hb)) fun ha => (h.2 ns ha).symm

/-- Interactions that leave pre keys, backends and the namespaces of the own device alone. -/
def Tame (own : Jid) (dev : DevId) : Op → Prop
  | .setBackends _ => False
  | .store k _ => k ≠ .devNamespaces own dev
  | o => stocks o = false

theorem still_next {o : Op} (h : Tame own dev o) (w : World) (r : Except Exn o.Ret) : Still own dev w (Lib.next w ⟨o, r⟩) := by
  cases o with
  | setBackends l => exact h.elim
  | store k v => cases r with
    | error e => exact .refl _
    | ok a =>
      refine ⟨rfl, fun ns hn => ?_, .refl _⟩
      obtain ⟨l, h1, h2⟩ := hn
      change w.disk.upd k (some v) (.devNamespaces own dev) = _ at h1
      rw [Disk.upd_of_ne (fun e => h e.symm)] at h1
      exact ⟨l, h1, h2⟩
  | delete k => cases r with
    | error e => exact .refl _
    | ok a =>
      refine ⟨rfl, fun ns hn => ?_, .refl _⟩
      obtain ⟨l, h1, h2⟩ := hn
      change w.disk.upd k none (.devNamespaces own dev) = _ at h1
      by_cases hk : Key.devNamespaces own dev = k
      · subst hk; rw [Disk.upd_self] at h1; cases h1
      · rw [Disk.upd_of_ne hk] at h1
        exact ⟨l, h1, h2⟩
  | setSync b => exact ⟨rfl, fun _ h => h, .refl _⟩
  | _ => cases r <;> first | exact .refl _ | exact ⟨rfl, fun _ h => h, (Free.refl _).push h⟩

theorem still_keep (w0 : World) : OpsKeep (Still own dev w0) (Tame own dev) := fun _ ho w r _ hw => hw.trans (still_next ho w r)

theorem still_ops {p : P α} (h : AllOps (Tame own dev) p) (w : World) : wp Lib p (fun _ w' => Still own dev w w') w :=
  (still_keep w).pres h w (.refl w)

theorem mild_op {o : Op} (h : Tame own dev o) (w0 : World) : Pres Lib (fun w' => Mild own dev w0 w') (call o) := fun w' h0 =>
  wp_mono (still_ops (own := own) (dev := dev) (.perform h) w') fun _ _ h' => h0.trans h'.mild

/-- Interactions that do not change the number of pre keys. -/
def NoStock (o : Op) : Prop := stocks o = false

theorem free_ops {p : P α} (h : AllOps NoStock p) (w : World) : wp Lib p (fun _ w' => Free w.log w'.log) w := by
  refine OpsKeep.pres (I := fun w' => Free w.log w'.log) (φ := NoStock) (fun o ho w' r _ hw => ?_) h w (.refl _)
  cases o <;> cases r <;> first | exact hw | exact hw.push ho

theorem looked_still {jid : Jid} {w w' : World} (h : LookedW jid w w') (hf : Free w.log w'.log) : Still own dev w w' := by
  refine ⟨h.backends, fun ns hn => ?_, hf⟩
  obtain ⟨l0, h0, hm⟩ := hn
  by_cases hj : jid = own
  · subst hj
    rcases h.disk.namespaces dev with h1 | ⟨l, a, l', h1, h2, h3, h4⟩
    · exact ⟨l0, h1.symm.trans h0, hm⟩
    · rw [h3] at h0
      simp only [Option.some.injEq] at h0
      obtain rfl := ofStrs_inj' h0
      exact ⟨l, h1, ((h4 ns).1 hm).1⟩
  · rw [h.disk.frame (.devNamespaces own dev) fun d => ⟨nofun, fun e => hj (by cases e; rfl)⟩] at h0
    exact ⟨l0, h0, hm⟩

theorem free_info (jid : Jid) : AllOps NoStock (getDeviceInformation' M jid) := by
  have h : ∀ j d l, AllOps NoStock (fetchIdentityKey j d l) := by
    intro j d l
    induction l with
    | nil => trivial
    | cons n l ih => unfold fetchIdentityKey; lib_ops []; all_goals rfl
  unfold getDeviceInformation' deviceInformation identityKeyOf repairNamespaces
  lib_ops [h]
  all_goals rfl

theorem still_info' (jid : Jid) (w : World) : wp Lib (getDeviceInformation' M jid) (fun _ w' => Still own dev w w') w :=
  wp_mono (wp_and (looked_info' jid w) (free_ops (free_info jid) w)) fun _ _ h => looked_still h.1 h.2

theorem still_own (w : World) : wp Lib (getOwnDeviceInformation M) (fun _ w' => Still own dev w w') w := by
  have hf : AllOps NoStock (getOwnDeviceInformation M) := by
    unfold getOwnDeviceInformation getDeviceInformation
    lib_ops [free_info]
  exact wp_mono (wp_and (looked_own w) (free_ops hf w)) fun _ _ h => looked_still h.1 h.2

theorem target_adv {ns : Ns} {jid : Jid} {dl : DevList} {m : Disk} {n : Ns} (h : Advertises (Upd.target M ns jid dl m) own dev n) :
    Advertises m own dev n ∨ n = ns := by
  obtain ⟨l, h1, h2⟩ := h
  unfold Upd.target at h1
  dsimp only at h1
  split at h1
  · simp only [Option.some.injEq] at h1
    obtain rfl := ofStrs_inj' h1
    exact .inr (List.mem_singleton.1 h2)
  · split at h1
    · unfold Upd.nsAfter at h1
      split at h1
      · split at h1
        · simp only [Option.some.injEq] at h1
          obtain rfl := ofStrs_inj' h1
          rw [SetOrder.mem_iter, mem_setAdd, mem_dedup] at h2
          rcases h2 with h2 | h2
          · unfold Upd.strs at h2
            split at h2
            · rename_i l' hl'
              exact .inl ⟨l', rd_strs hl', h2⟩
            · cases h2
          · exact .inr h2
        · exact .inl ⟨l, h1, h2⟩
      · exact .inl ⟨l, h1, h2⟩
    · exact .inl ⟨l, h1, h2⟩

theorem mild_update (ns : Ns) (jid : Jid) (dl : DevList) (w : World) :
    wp Lib (updateDeviceList M ns jid dl) (fun _ w' => Mild own dev w w') w := by
  by_cases hns : ns ∈ w.backends
  · have fin : ∀ w', Upd.Part M ns jid dl w w' → Mild own dev w w' := by
      rintro w' ⟨h1, h2, h3⟩
      refine ⟨h1.1, fun n hn => ?_, ?_⟩
      · rcases h3 (.devNamespaces own dev) with h | ⟨_, h⟩
        · unfold Advertises at hn; rw [h] at hn; exact .inl hn
        · unfold Advertises at hn; rw [h] at hn
          exact (target_adv hn).imp id fun h => by rw [h]; exact hns
      · rcases h2 with h | ⟨r, h⟩
        · rw [h]; exact .refl _
        · exact ⟨_, h, fun e he => by rw [List.mem_singleton.1 he]; rfl⟩
    refine wp_mono Upd.wp_updateDeviceList fun r w' h => ?_
    cases r with
    | ok a =>
      obtain ⟨_, _, h1, h2, h3⟩ := h
      refine ⟨h1.1, fun n hn => ?_, ?_⟩
      · rw [h3] at hn
        exact (target_adv hn).imp id fun h => by rw [h]; exact hns
      · refine ⟨_, h2, fun e he => ?_⟩
        unfold Upd.uploads at he
        split at he
        · rw [List.mem_singleton.1 he]; rfl
        · cases he
    | raised e => exact fin _ h.2
    | crashed => exact fin _ h.2
  · unfold updateDeviceList
    refine wp_mono (Q := ends (fun _ w' => Mild own dev w w') fun _ w' => Mild own dev w w') ?_ fun r _ h => by cases r <;> exact h
    rw [ends_bind]
    refine Lib.getBackends (.refl _) ?_
    rw [if_pos hns]
    exact .refl _

/-! ### Calls -/

/-- `p` keeps `I`, unless the process dies. -/
def Sure (I : World → Prop) (p : P α) : Prop := ∀ w, I w → wp Lib p (ends (fun _ => I) fun x w' => x ≠ none → I w') w

namespace Sure
variable {I : World → Prop}

theorem ret (a : α) : Sure I (.ret a : P α) := fun _ hw => hw
theorem pure (a : α) : Sure I (Pure.pure a : P α) := fun _ hw => hw
theorem raise (e : Exn) : Sure I (.raise e : P α) := fun _ hw _ => hw

theorem bind {p : P α} {f : α → P β} (hp : Sure I p) (hf : ∀ a, Sure I (f a)) : Sure I (p >>= f) := by
  intro w hw
  rw [ends_bind]
  exact ends_mono (hp w hw) (fun a w' h => hf a w' h) fun _ _ h => h

theorem bind' {p : P α} {f : α → P β} (hp : Sure I p) (hf : ∀ a, Sure I (f a)) : Sure I (p.bind f) := bind hp hf

theorem tryElse {p : P α} {g : Exn → P β} {f : α → P β} (hp : Sure I p) (hg : ∀ e, Sure I (g e)) (hf : ∀ a, Sure I (f a)) :
    Sure I (Prog.tryElse p g f) := by
  intro w hw
  rw [wp_tryElse]
  refine wp_mono (hp w hw) fun r w' h => ?_
  cases r with
  | ok a => exact hf a w' h
  | raised e => exact hg e w' (h nofun)
  | crashed => exact h

theorem when {c : Prop} [Decidable c] {p : P Unit} (h : c → Sure I p) : Sure I (Prog.when c p) := fun w hw =>
  ends_when (fun hc => h hc w hw) fun _ => hw

theorem forEach {xs : List β} {f : β → P Unit} (h : ∀ x ∈ xs, Sure I (f x)) : Sure I (Prog.forEach xs f) := by
  induction xs with
  | nil => exact ret ()
  | cons x xs ih => exact bind (h x (by simp)) fun _ => ih fun y hy => h y (by simp [hy])

theorem fold {γ : Type} {xs : List β} {b : γ} {f : γ → β → P γ} (h : ∀ b, ∀ x ∈ xs, Sure I (f b x)) : Sure I (Prog.fold xs b f) := by
  induction xs generalizing b with
  | nil => exact ret b
  | cons x xs ih => exact bind (h b x (by simp)) fun _ => ih fun b y hy => h b y (by simp [hy])

theorem mapAll {xs : List β} {f : β → P α} (h : ∀ x ∈ xs, Sure I (f x)) : Sure I (Prog.mapAll xs f) := by
  induction xs with
  | nil => exact ret _
  | cons x xs ih => exact bind (h x (by simp)) fun _ => bind (ih fun y hy => h y (by simp [hy])) fun _ => pure _

theorem filterAll {xs : List β} {f : β → P Bool} (h : ∀ x ∈ xs, Sure I (f x)) : Sure I (Prog.filterAll xs f) := by
  induction xs with
  | nil => exact ret _
  | cons x xs ih => exact bind (h x (by simp)) fun _ => bind (ih fun y hy => h y (by simp [hy])) fun _ => pure _

end Sure

theorem sure_mild {p : P α} (h : ∀ w, wp Lib p (fun _ w' => Mild own dev w w') w) : Sure (Good thr own dev) p := fun w hw =>
  wp_mono (h w) fun r w' h' => by cases r <;> first | exact h'.good hw | exact fun _ => h'.good hw

theorem sure_still {p : P α} (h : ∀ w, wp Lib p (fun _ w' => Still own dev w w') w) : Sure (Good thr own dev) p :=
  sure_mild (own := own) (dev := dev) fun w => wp_mono (h w) fun _ _ h => h.mild

theorem sure_ops {p : P α} (h : AllOps (Tame own dev) p) : Sure (Good thr own dev) p := sure_still (still_ops h)
theorem sure_op {o : Op} (h : Tame own dev o) : Sure (Good thr own dev) (call o) := sure_ops (.perform h)
theorem sure_load {k : Key} {f : JVal → Except Exn β} : Sure (Good thr own dev) (call (.load k) >>= fun v => Maybe.fmap f v) :=
  sure_ops (.bind (.perform rfl) fun _ => allOps_fmap _ _)
theorem sure_fromJust (o : Option α) : Sure (Good thr own dev) (Maybe.fromJust o : P α) := sure_ops (allOps_fromJust o)
theorem sure_next (o : Option α) : Sure (Good thr own dev) (nextOrRuntimeError o) := sure_ops (allOps_next o)
theorem sure_liftE (o : Except Exn α) : Sure (Good thr own dev) (Verif.liftE o) := sure_ops (allOps_liftE o)
theorem sure_info' (jid : Jid) : Sure (Good thr own dev) (getDeviceInformation' M jid) := sure_still (still_info' jid)
theorem sure_update (ns : Ns) (jid : Jid) (dl : DevList) : Sure (Good thr own dev) (updateDeviceList M ns jid dl) :=
  sure_mild (mild_update ns jid dl)

/-- Closes the steps of a program. -/
macro "sure_tac" "[" ts:term,* "]" : tactic => `(tactic| repeat' (first
  | assumption
  $[| with_reducible exact $ts ..]*
  | exact Sure.pure _ | exact Sure.ret _ | exact Sure.raise _
  | exact sure_next _ | exact sure_liftE _ | exact sure_fromJust _
  | exact sure_op rfl
  | exact sure_op (show _ ≠ _ from nofun)
  | exact sure_load
  | with_reducible exact sure_info' _
  | with_reducible exact sure_update _ _ _
  | with_reducible apply Sure.bind | with_reducible apply Sure.bind' | with_reducible apply Sure.tryElse
  | with_reducible apply Sure.when | with_reducible apply Sure.forEach | with_reducible apply Sure.fold
  | with_reducible apply Sure.mapAll | with_reducible apply Sure.filterAll
  | dsimp only
  | split
  | intro _))

theorem sure_info (jid : Jid) : Sure (Good thr own dev) (getDeviceInformation M jid) := by
  unfold getDeviceInformation; sure_tac []

theorem sure_own : Sure (Good thr own dev) (getOwnDeviceInformation M) := sure_still still_own

theorem sure_refresh (ns : Ns) (jid : Jid) : Sure (Good thr own dev) (refreshDeviceList M ns jid) := by
  unfold refreshDeviceList; sure_tac []

theorem sure_retry (ns : Ns) (fuel : Nat) : Sure (Good thr own dev) (retryUpload M ns fuel) := by
  induction fuel with
  | zero => exact .raise _
  | succ n ih => unfold retryUpload; sure_tac []

theorem sure_rotation (p : Int) (fuel rounds : Nat) : Sure (Good thr own dev) (manageRotation M p fuel rounds) := by
  induction rounds with
  | zero => exact .raise _
  | succ n ih => unfold manageRotation rotationRound; sure_tac [sure_retry]

theorem sure_send (ns : Ns) (s : Session) : Sure (Good thr own dev) (sendEmptyMessage M ns s) := by
  unfold sendEmptyMessage; sure_tac []

theorem sure_encrypt (hd : ∀ ds i, Sure (Good thr own dev) (M.decide ds i)) (jids : List Jid) (pt : Dict Ns Bytes)
    (prio : Option (List Ns)) (i : Option String) : Sure (Good thr own dev) (SM.encrypt M jids pt prio i) := by
  unfold SM.encrypt SM.decideTrust SM.askTrust SM.devicesWithTrust SM.reloadTrust SM.recipientDevices SM.encryptTrusted SM.encryptBackend
    SM.encryptDevice SM.encryptForDevice SM.bundleFor SM.devicesWithTrust
  sure_tac [hd]

/-! ### Refilling -/

theorem refill {S : Ns → Prop} (ht : thr ≤ M.threshold) (h99 : M.threshold ≤ 99) (ns : Ns) (w : World) (hw : GoodOn S thr w) :
    wp Lib (refillPreKeys M ns) (ends (fun _ w' => GoodOn (fun n => S n ∨ n = ns) thr w' ∧ w'.disk = w.disk ∧ w'.backends = w.backends)
      fun x w' => x ≠ none → ∀ S', GoodOn S' thr w') w := by
  unfold refillPreKeys
  rw [ends_bind]
  refine Lib.ext rfl (fun h => (h rfl).elim) (fun e _ _ S' => failed rfl) fun (n : Int) => ?_
  have key : ∀ st, Stk (w.push ⟨.numVisible ns, .ok n⟩) st → Stk w st ∧ n = (st ns : Int) := fun st hst => by
    obtain ⟨st0, h1, ⟨h2, h3⟩, _⟩ := stk_push hst
    subst h3
    exact ⟨h1, h2⟩
  refine ends_when (fun hn => ?_) fun hn => ⟨fun st hst => ?_, rfl, rfl⟩
  · refine Lib.ext rfl (fun h => (h rfl).elim) (fun e _ _ S' => failed rfl) fun _ => ⟨fun st hst => ?_, rfl, rfl⟩
    obtain ⟨st0, h1, ⟨h2, h3⟩, _⟩ := stk_push hst
    obtain ⟨h4, h5⟩ := key _ h1
    obtain ⟨h6, h7⟩ := hw st0 h4
    have hn : n ≤ M.threshold := hn
    have h5 : n = (st0 ns : Int) := h5
    have h2 : st ns = st0 ns + (100 - n).toNat := h2
    have h100 : st ns = 100 := by omega
    refine ⟨fun m => ?_, fun m hm => ?_⟩
    · by_cases hmn : m = ns
      · rw [hmn, h100]; exact Nat.le_refl _
      · rw [h3 m hmn]; exact h6 m
    · by_cases hmn : m = ns
      · rw [hmn, h100]; omega
      · rw [h3 m hmn]; exact h7 m (hm.resolve_right hmn)
  · obtain ⟨h4, h5⟩ := key _ hst
    obtain ⟨h6, h7⟩ := hw st h4
    refine ⟨h6, fun m hm => ?_⟩
    rcases hm with hm | rfl
    · exact h7 m hm
    · have hn : ¬ n ≤ M.threshold := hn
      have h5 : n = (st m : Int) := h5
      omega

/-- After using up a pre key. -/
theorem discard {S : Ns → Prop} {ns : Ns} {o : Op} {b : o.Ret} {w : World} {bb : Bool}
    (hc : ∀ s s', Counts s ⟨o, .ok b⟩ s' → s' ns ≤ s ns ∧ (bb = false → s' ns = s ns) ∧ ∀ m, m ≠ ns → s' m = s m) (hw : GoodOn S thr w) :
    GoodOn (fun n => S n ∧ (bb = true → n ≠ ns)) thr (w.push ⟨o, .ok b⟩) := fun st hst => by
  obtain ⟨st0, h1, h2, _⟩ := stk_push hst
  obtain ⟨h3, h4, h5⟩ := hc _ _ h2
  obtain ⟨h6, h7⟩ := hw st0 h1
  refine ⟨fun m => ?_, fun m hm => ?_⟩
  · by_cases hmn : m = ns
    · subst hmn; exact Nat.le_trans h3 (h6 m)
    · rw [h5 m hmn]; exact h6 m
  · by_cases hmn : m = ns
    · subst hmn
      cases hbb : bb with
      | true => exact (hm.2 hbb rfl).elim
      | false => rw [h4 hbb]; exact h7 m hm.1
    · rw [h5 m hmn]; exact h7 m hm.1

theorem sure_consume (ht : thr ≤ M.threshold) (h99 : M.threshold ≤ 99) (ns : Ns) (s : Session) : Sure (Good thr own dev) (consumePreKey M ns s) := by
  unfold consumePreKey
  refine Sure.bind (sure_op rfl) fun sync w hw => ?_
  rw [ends_bind]
  have hrest : ∀ (b : Bool) (w' : World), w'.disk = w.disk → w'.backends = w.backends →
      GoodOn (fun n => (n ∈ w.backends ∨ Advertises w.disk own dev n) ∧ (b = true → n ≠ ns)) thr w' →
      wp Lib (Prog.when (b = true) (do
        refillPreKeys M ns
        let bundle ← Verif.call (.getBundle ns M.ownJid M.ownDev)
        Verif.call (.uploadBundle bundle))) (ends (fun _ => Good thr own dev) fun x w' => x ≠ none → Good thr own dev w') w' := by
    intro b w' hd hb hg
    refine ends_when (fun h => ?_) fun h => ?_
    · rw [ends_bind]
      refine ends_mono (refill ht h99 ns w' hg) (fun _ w2 h2 => ?_) fun x w2 h2 hx => h2 hx _
      refine (Sure.bind (sure_op (o := .getBundle ns M.ownJid M.ownDev) rfl) fun bundle => sure_op (o := .uploadBundle bundle) rfl) w2 ?_
      refine h2.1.mono fun n hn => ?_
      rw [h2.2.1, h2.2.2, hd, hb] at hn
      by_cases hns : n = ns
      · exact .inr hns
      · exact .inl ⟨hn, fun _ => hns⟩
    · refine hg.mono fun n hn => ?_
      rw [hd, hb] at hn
      exact ⟨hn, fun h' => (h h').elim⟩
  unfold discardPreKey
  split
  · refine Lib.ext rfl (fun h => (h rfl).elim) (fun e _ _ => failed rfl) fun b => hrest b _ rfl rfl (discard (fun s s' hc => ?_) hw)
    obtain ⟨h1, h2⟩ := hc
    exact ⟨by omega, fun hb => by rw [hb] at h1; simpa using h1, h2⟩
  · refine Lib.ext rfl (fun h => (h rfl).elim) (fun e _ _ => failed rfl) fun b => hrest b _ rfl rfl (discard (fun s s' hc => ?_) hw)
    obtain ⟨h1, h2⟩ := hc
    refine ⟨by omega, fun hb => ?_, h2⟩
    rcases h1 with h1 | ⟨h1, _⟩
    · exact h1
    · rw [hb] at h1; cases h1

theorem sure_decrypt (ht : thr ≤ M.threshold) (h99 : M.threshold ≤ 99) (msg : Message) : Sure (Good thr own dev) (SM.decrypt M msg) := by
  have hc := fun ns s => sure_consume (own := own) (dev := dev) ht h99 ns s
  unfold SM.decrypt SM.findSender SM.decryptContent SM.keyMaterial SM.plaintextOf SM.decryptKeyMaterial SM.handleKeyExchange
    SM.postDecrypt SM.autoReply SM.queueEmpty
  sure_tac [hc, sure_info, sure_refresh, sure_send]

/-! ### Removing a backend -/

theorem sure_purge (hj : M.ownJid = own) (hd : M.ownDev = dev) (ns : Ns) : Sure (Good thr own dev) (SM.purgeBackend M ns) := by
  subst hj hd
  unfold SM.purgeBackend
  refine Sure.bind (sure_op rfl) fun dl => Sure.bind (.when fun _ => sure_op rfl) fun _ w hw => ?_
  rw [ends_bind]
  refine wp_mono (wp_and (still_own (own := M.ownJid) (dev := M.ownDev) w) (recorded_own (M := M) w)) fun r w1 h1 => ?_
  have hw1 := h1.1.mild.good hw
  cases r with
  | raised e => exact fun _ => hw1
  | crashed => exact fun h => (h rfl).elim
  | ok r =>
    obtain ⟨_, hid, hrec⟩ := h1
    obtain ⟨l, hl, hl'⟩ := hrec.namespaces
    rw [hid] at hl
    show wp Lib _ (ends _ _) w1
    dsimp only
    rw [ends_bind]
    refine Lib.store (fun x _ _ => hw1) ?_
    have hs2 := still_next (own := M.ownJid) (dev := M.ownDev) (o := .store (.devActive M.ownJid M.ownDev) (.ofBools (r.1.active.erase ns)))
      (show _ ≠ _ from nofun) w1 (.ok ())
    have hw2 := hs2.mild.good hw1
    rw [ends_bind]
    refine Lib.store (fun x _ _ => hw2) ?_
    have hadv : ∀ m : Disk, ∀ n, Advertises (m.upd (.devNamespaces M.ownJid M.ownDev)
        (some (.ofStrs (M.O.iter (setDiff r.1.namespaces [ns]))))) M.ownJid M.ownDev n → Advertises w1.disk M.ownJid M.ownDev n ∧ n ≠ ns := by
      rintro m n ⟨l2, h1, h2⟩
      rw [Disk.upd_self, Option.some.injEq] at h1
      obtain rfl := ofStrs_inj' h1
      rw [SetOrder.mem_iter, mem_setDiff] at h2
      exact ⟨⟨l, hl, (hl' n).2 h2.1⟩, fun h => h2.2 (List.mem_singleton.2 h)⟩
    have hw3 : GoodOn (fun n => n ∈ w1.backends ∨ Advertises w1.disk M.ownJid M.ownDev n) thr w1 := hw1
    rw [ends_bind]
    refine Lib.getBackends (fun h => (h rfl).elim) ?_
    rw [ends_bind]
    refine Lib.setBackends (fun h => (h rfl).elim) ?_
    rw [ends_bind]
    have hdel := fun w' => sure_op (thr := thr) (own := M.ownJid) (dev := M.ownDev) (o := .deleteBundle ns M.ownDev) rfl w'
    have hsub : ∀ w' : World, w'.backends = setDiff w1.backends [ns] → (∀ n, Advertises w'.disk M.ownJid M.ownDev n → Advertises w1.disk M.ownJid M.ownDev n ∧ n ≠ ns) →
        GoodOn (fun n => (n ∈ w1.backends ∨ Advertises w1.disk M.ownJid M.ownDev n) ∧ n ≠ ns) thr w' → Good thr M.ownJid M.ownDev w' := fun w' h1 h2 h3 =>
      h3.mono fun n hn => by
        rcases hn with hn | hn
        · rw [h1, mem_setDiff] at hn
          exact ⟨.inl hn.1, fun h => hn.2 (List.mem_singleton.2 h)⟩
        · exact ⟨.inr (h2 n hn).1, (h2 n hn).2⟩
    have hgone : ∀ (w' : World) (e : Ev), GoodOn (fun n => n ∈ w1.backends ∨ Advertises w1.disk M.ownJid M.ownDev n) thr w' →
        (∀ s s', Counts s e s' → s' ns ≤ s ns ∧ ∀ m, m ≠ ns → s' m = s m) →
        GoodOn (fun n => (n ∈ w1.backends ∨ Advertises w1.disk M.ownJid M.ownDev n) ∧ n ≠ ns) thr (w'.push e) := fun w' e hg hc st hst => by
      obtain ⟨st0, h1, h2, _⟩ := stk_push hst
      obtain ⟨h3, h4⟩ := hc _ _ h2
      obtain ⟨h6, h7⟩ := hg st0 h1
      refine ⟨fun m => ?_, fun m hm => by rw [h4 m hm.2]; exact h7 m hm.1⟩
      by_cases hmn : m = ns
      · subst hmn; exact Nat.le_trans h3 (h6 m)
      · rw [h4 m hmn]; exact h6 m
    refine ends_when (fun _ => ?_) fun _ => hdel _ (hsub _ rfl (hadv _) (GoodOn.mono hw3 fun _ h => h.1))
    refine Lib.ext rfl (fun h => (h rfl).elim) (fun e _ _ => ?_) fun _ => hdel _ ?_
    · exact hsub _ rfl (hadv _) (hgone _ _ hw3 fun s s' hc => hc)
    · exact hsub _ rfl (hadv _) (hgone _ _ hw3 fun s s' hc => ⟨by rw [hc.1]; exact Nat.zero_le _, hc.2⟩)

/-! ### All calls of a manager -/

theorem sure_run (hj : M.ownJid = own) (hd : M.ownDev = dev) (ht : thr ≤ M.threshold) (h99 : M.threshold ≤ 99) {c : Call}
    (hx : ∀ bs l f, c ≠ .create bs l f) (hdec : (∃ j pt pr i, c = .encrypt j pt pr i) → ∀ ds i, Sure (Good thr own dev) (M.decide ds i)) :
    Sure (Good thr own dev) (c.run M) := by
  cases c with
  | getIdentityKeyPair =>
    refine Sure.bind (sure_ops ?_) fun _ => .pure _
    exact ops_ikp.mono fun o ho => by cases ho <;> first | rfl | nofun
  | create bs l f => exact (hx bs l f rfl).elim
  | purgeBackend ns => exact sure_purge hj hd ns
  | purgeBareJid jid =>
    refine sure_ops ?_
    unfold Call.run SM.purgeBareJid SM.collectIdentityKeys SM.deleteDevice
    lib_ops []
    all_goals rfl
  | ensureDataConsistency => unfold Call.run SM.ensureDataConsistency; sure_tac [sure_refresh]
  | rotation p f r => exact sure_rotation p f r
  | updateDeviceList ns jid dl => exact sure_update ns jid dl
  | refreshDeviceList ns jid => exact sure_refresh ns jid
  | refreshDeviceLists jid => unfold Call.run SM.refreshDeviceLists; sure_tac [sure_refresh]
  | setTrust jid ik level => exact sure_op (show _ ≠ _ from nofun)
  | replaceSessions jid d => unfold Call.run SM.replaceSessions SM.replaceSession; sure_tac [sure_info]
  | getSendingChainLength x => unfold Call.run SM.getSendingChainLength; sure_tac []
  | setOwnLabel l => unfold Call.run SM.setOwnLabel; sure_tac []
  | getDeviceInformation jid => exact (sure_info jid).bind fun _ => .pure _
  | getOwnDeviceInformation => exact sure_own.bind fun _ => .pure _
  | beforeHistorySync => exact sure_op rfl
  | afterHistorySync =>
    unfold Call.run SM.afterHistorySync SM.sendQueuedBackend SM.sendQueuedJid SM.sendQueued; sure_tac [sure_send]
  | encrypt jids pt prio i => exact (sure_encrypt (hdec ⟨_, _, _, _, rfl⟩) jids pt prio i).bind fun _ => .pure _
  | decrypt msg => exact (sure_decrypt ht h99 msg).bind fun _ => .pure _

theorem sure_decision (hj : M.ownJid = own) (hd : M.ownDev = dev) (ht : thr ≤ M.threshold) (h99 : M.threshold ≤ 99) {p : P α} (h : Decision M p) :
    Sure (Good thr own dev) p := by
  induction h with
  | ret a => exact .ret a
  | raise e => exact .raise e
  | ext o k ho hp hn _ ih =>
    intro w hw
    have hs : stocks o = false := by
      cases o <;> first | rfl | exact (hn _ rfl).elim | cases hp
    have hm : ∀ r, Good thr own dev (Lib.next w ⟨o, r⟩) := fun r => (still_next (by cases o <;> first | exact hs | cases ho) w r).mild.good hw
    exact ⟨fun h => (h rfl).elim, fun r _ => ih r _ (hm r)⟩
  | info jid g f _ _ ihh ihf => exact Sure.tryElse (sure_info jid) ihh ihf
  | api c g f hc _ _ ihh ihf =>
    refine Sure.tryElse (sure_run hj hd ht h99 (fun bs l f h => by subst h; cases hc) fun ⟨_, _, _, _, h⟩ => by subst h; cases hc) ihh ihf

theorem sure_call (hj : M.ownJid = own) (hd : M.ownDev = dev) (ht : thr ≤ M.threshold) (h99 : M.threshold ≤ 99) (ho : HandsOff M) {c : Call}
    (hx : ∀ bs l f, c ≠ .create bs l f) : Sure (Good thr own dev) (c.run M) :=
  sure_run hj hd ht h99 hx fun _ ds i => sure_decision hj hd ht h99 (ho M.ownDev ds i)

/-! ### Creation -/

theorem good_handle (hj : M.ownJid = own) (ht : thr ≤ M.threshold) (h99 : M.threshold ≤ 99) (w : World) (hw : Half thr own M.ownDev w) :
    wp Lib (handleChangedBackends M) (ends (fun _ => Good thr own M.ownDev) fun _ _ => True) w := by
  subst hj
  unfold handleChangedBackends
  rw [ends_bind]
  refine wp_mono (wp_and (still_own (own := M.ownJid) (dev := M.ownDev) w) (recorded_own (M := M) w)) fun r w1 h1 => ?_
  have hw1 := h1.1.half hw
  cases r with
  | raised e => trivial
  | crashed => trivial
  | ok r =>
    obtain ⟨_, hid, hrec⟩ := h1
    obtain ⟨l, hl, hl'⟩ := hrec.namespaces
    rw [hid] at hl
    show wp Lib _ (ends _ _) w1
    dsimp only
    rw [ends_bind]
    refine Lib.getBackends trivial ?_
    have hact : GoodOn (fun n => n ∈ r.1.namespaces) thr w1 := hw1.mono fun n hn => ⟨l, hl, (hl' n).2 hn⟩
    refine ends_when (fun hne => ?_) fun heq => ?_
    · rw [ends_bind]
      refine Lib.store (fun _ _ => trivial) ?_
      rw [ends_bind]
      refine Lib.store (fun _ _ => trivial) ?_
      rw [ends_bind]
      refine Lib.getBackends trivial ?_
      rw [ends_bind]
      refine ends_forEach (fun done _ w' => w'.backends = w1.backends ∧ (∀ n, Advertises w'.disk M.ownJid M.ownDev n → n ∈ w1.backends) ∧
          GoodOn (fun n => n ∈ r.1.namespaces ∨ n ∈ done) thr w') ⟨rfl, ?_, ?_⟩ (fun done x rest w2 hx h2 => ?_) fun w2 h2 => ?_
      · rintro n ⟨l2, h2, h3⟩
        dsimp only at h2
        rw [Disk.upd_self, Option.some.injEq] at h2
        obtain rfl := ofStrs_inj' h2
        simpa using h3
      · exact GoodOn.mono (w := { w1 with disk := _ }) hact fun n hn => hn.resolve_right nofun
      · obtain ⟨hb, ha, hg⟩ := h2
        refine ends_when (fun hn => ?_) fun hn => ⟨hb, ha, hg.mono fun n h => ?_⟩
        · rw [ends_bind]
          refine ends_mono (refill ht h99 x w2 hg) (fun _ w3 h3 => ?_) fun _ _ _ => trivial
          obtain ⟨h3, h4, h5⟩ := h3
          have hm : ∀ w, wp Lib (do
              let bundle ← Verif.call (.getBundle x M.ownJid M.ownDev)
              Verif.call (.uploadBundle bundle)
              refreshDeviceList M x M.ownJid) (fun _ w' => Mild M.ownJid M.ownDev w w') w := by
            intro w
            refine (Pres.bind (I := fun w' => Mild M.ownJid M.ownDev w w') ?_ fun b => Pres.bind ?_ fun _ => Pres.bind ?_ fun dl => ?_) w (.refl w)
            · exact mild_op (o := .getBundle x M.ownJid M.ownDev) rfl w
            · exact mild_op (o := .uploadBundle b) rfl w
            · exact mild_op (o := .downloadList x M.ownJid) rfl w
            · exact fun w' h => wp_mono (mild_update (own := M.ownJid) (dev := M.ownDev) x M.ownJid dl w') fun _ _ h' => h.trans h'
          refine wp_mono (hm w3) fun r' w4 h6 => ?_
          cases r' with
          | raised e => trivial
          | crashed => trivial
          | ok _ =>
            refine ⟨h6.1.trans (h5.trans hb), fun n hn => ?_, (h3.free h6.3).mono fun n hn => ?_⟩
            · rcases h6.2 n hn with h | h
              · rw [h4] at h; exact ha n h
              · rw [h5, hb] at h; exact h
            · rcases hn with hn | hn
              · exact .inl (.inl hn)
              · rcases List.mem_append.1 hn with hn | hn
                · exact .inl (.inr hn)
                · exact .inr (List.mem_singleton.1 hn)
        · rcases h with h | h
          · exact .inl h
          · rcases List.mem_append.1 h with h | h
            · exact .inr h
            · rw [List.mem_singleton.1 h]
              exact .inl (Decidable.not_not.1 hn)
      · obtain ⟨hb, ha, hg⟩ := h2
        refine ends_mono ((Sure.forEach fun ns _ => sure_purge (thr := thr) (own := M.ownJid) (dev := M.ownDev) rfl rfl ns) w2 (hg.mono fun n hn => ?_))
          (fun _ _ h => h) fun _ _ _ => trivial
        rcases hn with hn | hn
        · rw [hb] at hn; exact .inr hn
        · exact .inr (ha n hn)
    · have := Decidable.not_not.1 heq
      simp only [setEq, Bool.and_eq_true, List.all_eq_true, decide_eq_true_eq, mem_dedup] at this
      refine hact.mono fun n hn => ?_
      rcases hn with hn | ⟨l2, h2, h3⟩
      · exact this.1 n hn
      · rw [hl, Option.some.injEq] at h2
        obtain rfl := ofStrs_inj' h2
        exact (hl' n).1 h3

theorem nodup_of_dedup_length {xs : List Ns} (h : (dedup xs).length = xs.length) : xs.Nodup := by
  induction xs with
  | nil => exact List.nodup_nil
  | cons x xs ih =>
    have h1 : ((dedup xs).filter fun y => decide (y ≠ x)).length = xs.length := by simpa [dedup] using h
    have h2 := List.length_filter_le (fun y => decide (y ≠ x)) (dedup xs)
    have h3 : ∀ l : List Ns, (dedup l).length ≤ l.length := fun l => by
      induction l with
      | nil => exact Nat.le_refl _
      | cons y l ih => exact Nat.succ_le_succ (Nat.le_trans (List.length_filter_le ..) ih)
    have h4 : (dedup xs).length = xs.length := Nat.le_antisymm (h3 xs) (h1 ▸ h2)
    refine List.nodup_cons.2 ⟨fun hx => ?_, ih h4⟩
    have h5 := List.length_filter_eq_length_iff.1 (h1.trans h4.symm) x (mem_dedup.2 hx)
    simp at h5

/-- `bs` are loaded, there are no pre keys. -/
def Empty (bs : List Ns) (w : World) : Prop := w.backends = bs ∧ ∀ st, Stk w st → ∀ ns, st ns = 0

/-- Interactions that leave pre keys and backends alone. -/
def Idle (o : Op) : Prop := stocks o = false ∧ ∀ l, o ≠ .setBackends l

theorem empty_ops {bs : List Ns} {p : P α} (h : AllOps Idle p) : Pres Lib (Empty bs) p := by
  refine OpsKeep.pres (φ := Idle) (fun o ho w r _ hw => ?_) h
  refine ⟨(OwnData.backends_next ho.2 w r).trans hw.1, fun st hst => hw.2 st ?_⟩
  refine stk_free ?_ hst
  cases o <;> cases r <;> first | exact .refl _ | exact (Free.refl _).push ho.1

theorem empty_step {bs : List Ns} {p : P α} {f : α → P β} {Q : β → World → Prop} {w : World} (h : AllOps Idle p) (hw : Empty bs w)
    (hf : ∀ a w', Empty bs w' → wp Lib (f a) (ends Q fun _ _ => True) w') : wp Lib (p >>= f) (ends Q fun _ _ => True) w := by
  rw [ends_bind]
  refine wp_mono (empty_ops h w hw) fun r w' h => ?_
  cases r with
  | raised e => trivial
  | crashed => trivial
  | ok a => exact hf a w' h

theorem half_first (hj : M.ownJid = own) (h99 : thr ≤ 99) {bs : List Ns} (hbs : bs.Nodup) (label : Option String) (ik : Bytes) (fuel : Nat) (w : World)
    (hw : Empty bs w) : wp Lib (firstRun M label ik fuel) (ends (fun d w' => Half thr own d w') fun _ _ => True) w := by
  subst hj
  have hdraw : ∀ taken fuel, AllOps Idle (drawDeviceId taken fuel) := by
    intro taken fuel
    induction fuel with
    | zero => trivial
    | succ n ih => unfold drawDeviceId; lib_ops []; all_goals exact ⟨rfl, nofun⟩
  have htaken : ∀ j bs, AllOps Idle (takenDeviceIds j bs) := by
    intro j bs; unfold takenDeviceIds; lib_ops []; all_goals exact ⟨rfl, nofun⟩
  unfold firstRun
  refine empty_step (.perform ⟨rfl, nofun⟩) hw fun bs1 w1 h1 => empty_step (htaken _ _) h1 fun tk w2 h2 => empty_step (hdraw _ _) h2 fun d w3 h3 => ?_
  dsimp only
  rw [ends_bind]
  refine Lib.getBackends trivial ?_
  rw [h3.1, ends_bind]
  unfold storeOwnDevice
  rw [ends_bind]
  refine Lib.store (fun _ _ => trivial) ?_
  have hstored : ∀ n, Advertises (w3.disk.upd (.devNamespaces M.ownJid d) (some (.ofStrs bs))) M.ownJid d n → n ∈ bs := by
    rintro n ⟨l, h4, h5⟩
    rw [Disk.upd_self, Option.some.injEq] at h4
    obtain rfl := ofStrs_inj' h4
    exact h5
  have hrest : AllOps (Tame M.ownJid d) (do
      Verif.call (.store (.devActive M.ownJid d) (.ofBools (bs.map fun ns => (ns, true))))
      Verif.call (.store (.devLabel M.ownJid d) (.ofOptStr label))
      Sto.storeBytes (.devIdentityKey M.ownJid d) ik
      Verif.call (.store (.devList M.ownJid) (.ofInts [d]))
      Verif.call (.store (.trust M.ownJid ik) (.str M.undecided))
      Verif.call (.store .ownDeviceId (.int d)) : P Unit) := by
    unfold Sto.storeBytes
    lib_ops []
    all_goals (rename_i h; cases h)
  refine wp_mono (still_ops hrest _) fun r w5 h5 => ?_
  cases r with
  | raised e => trivial
  | crashed => trivial
  | ok _ =>
    show wp Lib _ (ends _ _) w5
    have hb5 : w5.backends = bs := h5.1.trans h3.1
    have ha5 : ∀ n, Advertises w5.disk M.ownJid d n → n ∈ bs := fun n hn => hstored n (h5.2 n hn)
    have hz5 : ∀ st, Stk w5 st → ∀ ns, st ns = 0 := fun st hst => h3.2 st (stk_free (w := { w3 with disk := _ }) h5.3 hst)
    rw [ends_bind]
    refine Lib.getBackends trivial ?_
    rw [hb5, ends_bind]
    refine ends_forEach (fun done _ w' => w'.backends = bs ∧ w'.disk = w5.disk ∧ ∀ st, Stk w' st → ∀ n, st n = if n ∈ done then 100 else 0)
      ⟨hb5, rfl, fun st hst n => by rw [hz5 st hst n]; rfl⟩ (fun done y rest w6 hy h6 => ?_) fun w6 h6 => ?_
    · refine Lib.ext rfl trivial (fun _ _ => trivial) fun _ => ⟨h6.1, h6.2.1, fun st hst n => ?_⟩
      obtain ⟨st0, h7, ⟨h8, h9⟩, _⟩ := stk_push hst
      have hy' : y ∉ done := fun hm => by
        rw [hy] at hbs
        exact (List.nodup_append.1 hbs).2.2 y hm y (List.mem_cons_self ..) rfl
      by_cases hny : n = y
      · subst hny
        rw [h8, h6.2.2 st0 h7 n, if_neg hy', if_pos (by simp)]
        rfl
      · rw [h9 n hny, h6.2.2 st0 h7 n]
        simp [hny]
    · obtain ⟨hb6, hd6, hs6⟩ := h6
      have hm : ∀ p : P Unit, (∀ w0, Pres Lib (fun w' => Mild M.ownJid d w0 w') p) → ∀ (f : Unit → P DevId) (w : World), Mild M.ownJid d w6 w →
          (∀ w', Mild M.ownJid d w6 w' → wp Lib (f ()) (ends (fun d w' => Half thr M.ownJid d w') fun _ _ => True) w') →
          wp Lib (p >>= f) (ends (fun d w' => Half thr M.ownJid d w') fun _ _ => True) w := by
        intro p hp f w hw hf
        rw [ends_bind]
        refine wp_mono (hp w6 w hw) fun r w' h => ?_
        cases r with
        | raised e => trivial
        | crashed => trivial
        | ok a => exact hf w' h
      rw [ends_bind]
      refine Lib.getBackends trivial ?_
      refine hm _ (fun w0 => Pres.forEach fun ns _ => Pres.bind (mild_op (own := M.ownJid) (dev := d) (o := .getBundle ns M.ownJid d) rfl w0) fun b => mild_op (own := M.ownJid) (dev := d) (o := .uploadBundle b) rfl w0) _ _ (.refl _) fun w7 h7 => ?_
      rw [ends_bind]
      refine Lib.getBackends trivial ?_
      refine hm _ (fun w0 => Pres.forEach fun ns _ => Pres.bind (mild_op (own := M.ownJid) (dev := d) (o := .downloadList ns M.ownJid) rfl w0) fun dl => ?_) _ _ h7 fun w8 h8 => ?_
      · exact fun w' h => wp_mono (mild_update (own := M.ownJid) (dev := d) ns M.ownJid dl w') fun _ _ h' => h.trans h'
      · show GoodOn _ _ _
        intro st hst
        have h9 := hs6 st (stk_free h8.3 hst)
        refine ⟨fun n => ?_, fun n hn => ?_⟩
        · rw [h9 n]; split <;> omega
        · have hn' : n ∈ bs := by
            rcases h8.2 n hn with h | h
            · rw [hd6] at h; exact ha5 n h
            · rw [hb6] at h; exact h
          rw [h9 n, if_pos hn']
          omega

theorem good_create (hj : M.ownJid = own) (ht : thr ≤ M.threshold) (bs : List Ns) (label : Option String) (fuel : Nat) (w : World)
    (h0 : (w.disk .ownDeviceId = none ∧ ∀ st, Stk w st → ∀ ns, st ns = 0) ∨ ∃ dev, w.disk .ownDeviceId = some (.int dev) ∧ Half thr own dev w) :
    wp Lib (create M bs label fuel) (ends (fun d w' => Good thr own d w' ∧ M.threshold ≤ 99) fun _ _ => True) w := by
  subst hj
  rw [create_eq]
  split
  · trivial
  · rename_i hdup
    split
    · trivial
    · rename_i hth
      have hth := Decidable.not_not.1 hth
      have hnd : bs.Nodup := nodup_of_dedup_length (Decidable.not_not.1 hdup)
      rw [ends_bind]
      refine Lib.setBackends trivial ?_
      rw [ends_bind]
      have hikp : wp Lib IdentityKeyPair.get (fun _ w' => w'.disk .ownDeviceId = w.disk .ownDeviceId ∧ w'.backends = bs ∧
          (∀ dev n, Advertises w'.disk M.ownJid dev n → Advertises w.disk M.ownJid dev n) ∧ Free w.log w'.log) { w with backends := bs } := by
        refine OpsKeep.pres (I := fun w' => w'.disk .ownDeviceId = w.disk .ownDeviceId ∧ w'.backends = bs ∧
          (∀ dev n, Advertises w'.disk M.ownJid dev n → Advertises w.disk M.ownJid dev n) ∧ Free w.log w'.log) (φ := Ikp) ?_ ops_ikp _ ⟨rfl, rfl, fun _ _ h => h, .refl _⟩
        intro o ho w' r _ ⟨h1, h2, h3, h4⟩
        refine ⟨?_, ?_, fun dev n hn => h3 dev n ((still_next (own := M.ownJid) (dev := dev) ?_ w' r).2 n hn), h4.trans (still_next (own := M.ownJid) (dev := 0) ?_ w' r).3⟩
        · cases ho <;> cases r <;> first | exact h1 | exact (Disk.upd_of_ne (by nofun)).trans h1
        · cases ho <;> cases r <;> exact h2
        · cases ho <;> first | rfl | nofun
        · cases ho <;> first | rfl | nofun
      refine wp_mono hikp fun r w1 hw1 => ?_
      cases r with
      | raised e => trivial
      | crashed => trivial
      | ok kp =>
        obtain ⟨hid, hb, ha, hf⟩ := hw1
        show wp Lib (createRest M label kp fuel) (ends _ _) w1
        unfold createRest
        rw [ends_bind]
        refine Lib.setSync trivial ?_
        rw [ends_bind]
        have hhandle : ∀ d w2, Half thr M.ownJid d w2 → wp Lib (do handleChangedBackends { M with ownDev := d }; pure d)
            (ends (fun d w' => Good thr M.ownJid d w' ∧ M.threshold ≤ 99) fun _ _ => True) w2 := fun d w2 h2 => by
          rw [ends_bind]
          exact ends_mono (good_handle (M := { M with ownDev := d }) rfl ht hth.2 w2 h2) (fun _ _ h => ⟨h, hth.2⟩) fun _ _ h => h
        refine wp_ownId (fun _ _ => trivial) (fun _ _ _ _ => trivial) (fun hn => ?_) fun v d hv hc => ?_
        · refine ends_mono (half_first rfl (by omega) hnd label _ fuel _ ⟨hb, fun st hst => ?_⟩) (fun d w2 h2 => hhandle d w2 h2) fun _ _ h => h
          rcases h0 with ⟨_, h0⟩ | ⟨dev, h0, _⟩
          · exact h0 st (stk_free (w' := { w1 with sync := true }) hf hst)
          · cases (h0.symm.trans (hid.symm.trans hn))
        · rcases h0 with ⟨h0, _⟩ | ⟨dev, h0, h1⟩
          · cases (h0.symm.trans (hid.symm.trans hv))
          · cases (h0.symm.trans (hid.symm.trans hv))
            cases hc
            exact hhandle _ _ (GoodOn.mono (GoodOn.free (w' := { w1 with sync := true }) h1 hf) (ha _))

/-! ### Lives -/

theorem viaApi_of_handsOff (h : HandsOff M) : ViaApi M := by
  have key : ∀ {α : Type} {p : P α}, Decision M p → AppProg M (fun _ => True) p := by
    intro α p hp
    induction hp with
    | ret a => exact .ret a
    | raise e => exact .raise e trivial
    | ext o k ho _ _ _ ih => exact .ext o k ho fun r _ => ih r
    | info jid g f _ _ ihh ihf => exact .info jid g f (fun e _ => ihh e) ihf
    | api c g f hc _ _ ihh ihf => exact .api c g f hc (fun e _ => ihh e) ihf
  exact fun ds i => key (h M.ownDev ds i)

variable {x : XEdDSA}

theorem ikp_still {w w' : World} {t : List Ev} {r : Res Exn Unit} (he : Exec (Call.getIdentityKeyPair.run M) t r) (hr : Lib.Runs w t w') (dev : DevId) :
    w'.disk .ownDeviceId = w.disk .ownDeviceId ∧ Still own dev w w' := by
  have h : AllOps Ikp (Call.getIdentityKeyPair.run M) := AllOps.bind ops_ikp fun _ => trivial
  refine ⟨?_, ?_⟩
  · refine (OpsKeep.pres (I := fun w' => w'.disk .ownDeviceId = w.disk .ownDeviceId) (φ := Ikp) (fun o ho w1 r hok hw => ?_) h).run he hr rfl
    cases ho <;> cases r <;> first | exact hw | exact (Disk.upd_of_ne (by nofun)).trans hw
  · exact wp_sound (still_ops (own := own) (dev := dev) (h.mono fun o ho => by cases ho <;> first | rfl | nofun) w) he hr

/-- What is known in the course of a life. -/
structure Course (own : Jid) (x : XEdDSA) (thr : Int) (s : Use) : Prop where
  used : InUse own x s
  mgrs : ∀ M ∈ s.mgrs, thr ≤ M.threshold ∧ 25 ≤ M.threshold ∧ M.threshold ≤ 99 ∧ HandsOff M
  state : (s.world.disk .ownDeviceId = none ∧ ∀ st, Stk s.world st → ∀ ns, st ns = 0) ∨
    ∃ dev, s.world.disk .ownDeviceId = some (.int dev) ∧ Good thr own dev s.world ∧ Good 25 own dev s.world

theorem course {s0 s : Use} (h0 : New s0) (hlog : s0.world.log = []) (h : Steady own x thr s0 s) : Course own x thr s := by
  induction h with
  | start =>
    refine ⟨inUse_new h0, fun M hM => (by rw [h0.mgrs] at hM; cases hM), .inl ⟨?_, fun st hst => ?_⟩⟩
    · cases hd : s0.world.disk .ownDeviceId with
      | none => rfl
      | some v => rcases h0.disk _ _ hd with h | h <;> cases h
    · have := hst.2
      rw [hlog] at this
      generalize hl : ([] : List Ev) = l at this
      cases this with
      | nil => exact fun _ => rfl
      | @snoc l' e => cases l' <;> cases hl
  | @ikp s w' t r M _ he hr ih =>
    have hst : Step own x s (M, .getIdentityKeyPair) ⟨w', s.mgrs⟩ := .ikp M he hr
    have hst' : Step own x s ({ M with decide := fun _ _ => .ret () }, .getIdentityKeyPair) ⟨w', s.mgrs⟩ := .ikp _ he hr
    refine ⟨inUse_step hst' (fun _ _ => .ret ()) ih.used, ih.mgrs, ?_⟩
    rcases ih.state with ⟨h1, h2⟩ | ⟨dev, h1, h2, h3⟩
    · obtain ⟨h4, h5⟩ := ikp_still (own := own) he hr 0
      exact .inl ⟨h4.trans h1, fun st hs => h2 st (stk_free h5.3 hs)⟩
    · obtain ⟨h4, h5⟩ := ikp_still (own := own) he hr dev
      exact .inr ⟨dev, h4.trans h1, h5.mild.good h2, h5.mild.good h3⟩
  | @create s w' t d M bs label fuel _ hj hx ht ho he hr ih =>
    have hst : Step own x s (M, .create bs label fuel) ⟨w', s.mgrs ++ returned M (.ok d)⟩ := .create M bs label fuel hj hx he hr
    have hin := inUse_step hst (viaApi_of_handsOff ho) ih.used
    have h25 : 25 ≤ M.threshold := by
      rw [create_eq] at he
      split at he
      · cases he
      · split at he
        · cases he
        · rename_i h; exact (Decidable.not_not.1 h).1
    have pre : ∀ thr', (∀ dev, Good thr own dev s.world → Good 25 own dev s.world → Good thr' own dev s.world) → (s.world.disk .ownDeviceId = none ∧ ∀ st, Stk s.world st → ∀ ns, st ns = 0) ∨
        ∃ dev, s.world.disk .ownDeviceId = some (.int dev) ∧ Half thr' own dev s.world := fun thr' h' =>
      ih.state.imp id fun ⟨dev, h1, h2, h3⟩ => ⟨dev, h1, (h' dev h2 h3).mono fun n hn => .inr hn⟩
    have hg := wp_sound (good_create hj ht bs label fuel s.world (pre thr fun _ h _ => h)) he hr
    have hg' := wp_sound (good_create hj h25 bs label fuel s.world (pre 25 fun _ _ h => h)) he hr
    refine ⟨hin, fun M' hM' => ?_, ?_⟩
    · rcases List.mem_append.1 hM' with hM' | hM'
      · exact ih.mgrs M' hM'
      · cases List.mem_singleton.1 hM'
        exact ⟨ht, h25, hg.2, ho⟩
    · rcases hin with ⟨_, h2⟩ | ⟨dev, h1, h2⟩
      · simp [returned] at h2
      · have := (h2 { M with ownDev := d } (by simp [returned])).2.2
        cases this
        exact .inr ⟨_, h1, hg.1, hg'.1⟩
  | @call s w' t r M c _ hM hc hr' he hr ih =>
    obtain ⟨ht, h25, h99, ho⟩ := ih.mgrs M hM
    have hst : Step own x s (M, c) ⟨w', s.mgrs⟩ := .call M c hM hc he hr
    have hin := inUse_step hst (viaApi_of_handsOff ho) ih.used
    refine ⟨hin, ih.mgrs, ?_⟩
    rcases ih.used with ⟨_, h2⟩ | ⟨dev, h1, h2⟩
    · rw [h2] at hM; cases hM
    rcases hin with ⟨_, h4⟩ | ⟨dev', h3, h4⟩
    · change s.mgrs = [] at h4; rw [h4] at hM; cases hM
    obtain ⟨hj, _, hd⟩ := h2 M hM
    obtain ⟨_, _, hd'⟩ := h4 M hM
    obtain rfl : dev = dev' := hd.symm.trans hd'
    rcases ih.state with ⟨h5, _⟩ | ⟨dev2, h5, h6, h7⟩
    · cases h5.symm.trans h1
    · cases h5.symm.trans h1
      have fin : ∀ thr', thr' ≤ M.threshold → Good thr' own dev s.world → Good thr' own dev w' := fun thr' ht' hg => by
        have := wp_sound (sure_call hj hd ht' h99 ho hc s.world hg) he hr
        cases r with
        | ok a => exact this
        | raised e => exact this nofun
        | crashed => exact (hr' rfl).elim
      exact .inr ⟨dev, h3, fin thr ht h6, fin 25 h25 h7⟩

end
end Stock

/-- C43: with backends that count correctly and whose pre key operations do not fail, in the life of an account in which no process dies and no
creation of a manager fails, each loaded backend has more visible pre keys than the (least) refill threshold, in any case at least 26, and at most 100. -/
theorem C43 {own : Jid} {x : XEdDSA} {thr : Int} {s0 s : Use} (h0 : New s0) (hlog : s0.world.log = []) (h : Steady own x thr s0 s) (hm : s.mgrs ≠ [])
    (hf : NoneFailed s.world.log) {st : Ns → Nat} (hc : Counted s.world.log st) {ns : Ns} (hns : ns ∈ s.world.backends) :
    thr < (st ns : Int) ∧ 26 ≤ st ns ∧ st ns ≤ 100 := by
  have hs := Stock.course h0 hlog h
  rcases hs.state with ⟨h1, _⟩ | ⟨dev, _, h1, h2⟩
  · rcases hs.used with ⟨_, h2⟩ | ⟨dev, h2, _⟩
    · exact (hm h2).elim
    · cases h1.symm.trans h2
  · obtain ⟨h3, h4⟩ := h1 st ⟨hf, hc⟩
    obtain ⟨_, h6⟩ := h2 st ⟨hf, hc⟩
    have := h6 ns (.inl hns)
    exact ⟨h4 ns (.inl hns), by omega, h3 ns⟩

end Verif
