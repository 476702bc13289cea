import Verif.Props.StockPar
import Verif.Props.OneTime
/-
Published bundles when calls and the rotation task overlap.
-/
namespace Verif
open SM Spec

namespace Spec

/-- The backend `ns` has something new to publish. -/
def Changes (ns : Ns) (e : Ev) : Prop := match e with
  | ⟨.hidePreKey n _, .ok b⟩ | ⟨.deletePreKey n _, .ok b⟩ => n = ns ∧ b = true
  | ⟨.generatePreKeys n _, .ok _⟩ | ⟨.rotateSpk n, .ok _⟩ => n = ns
  | _ => False

/-- What may overlap: calls, except those that create managers, and rounds of the rotation task. -/
inductive Work (M : Mgr) : P Unit → Prop
  | call (c : Call) : (∀ bs l f, c ≠ .create bs l f) → (∀ p f r, c ≠ .rotation p f r) → Work M (c.run M)
  | round (period : Int) (fuel : Nat) : Work M (rotationRound M period fuel)

structure Deed where
  M : Mgr
  prog : P Unit
  work : Work M prog
  trace : List Ev
  res : Res Exn Unit
  exec : Exec prog trace res

/-- The bundle published last was obtained after all changes. -/
def Renewed (ns : Ns) (t : List Ev) : Prop := ∀ a e c, t = a ++ e :: c → Changes ns e →
  ∃ c1 j d b c2 c3, c = c1 ++ ⟨.getBundle ns j d, .ok b⟩ :: (c2 ++ ⟨.uploadBundle b, .ok ()⟩ :: c3) ∧ b.ns = ns ∧
    ∀ b', b'.ns = ns → (⟨.uploadBundle b', .ok ()⟩ : Ev) ∉ c3

/-- Bundles are published in the order in which they were obtained. -/
def Sequenced (ns : Ns) (t : List Ev) : Prop := ∀ a b c, t = a ++ ⟨.uploadBundle b, .ok ()⟩ :: c → b.ns = ns →
  ∃ a1 j d a2, a = a1 ++ ⟨.getBundle ns j d, .ok b⟩ :: a2 ∧ ∀ j d r, (⟨.getBundle ns j d, r⟩ : Ev) ∉ a2

/-- Overlapping calls and rounds: trust decisions of the application change nothing about the bundle, what failed or died did not either, and bundles are of the backend
asked. -/
structure Deeds (ns : Ns) (deeds : List Deed) (t : List Ev) : Prop where
  decisions : ∀ k ∈ deeds, ∀ ds i, AllOps (fun o => ∀ r, ¬ Changes ns ⟨o, r⟩) (k.M.decide ds i)
  done : ∀ k ∈ deeds, k.res = .ok () ∨ ∀ e ∈ k.trace, ¬ Changes ns e
  shuffle : Shuffle (deeds.map (·.trace)) t
  named : ∀ j d b, (⟨.getBundle ns j d, .ok b⟩ : Ev) ∈ t → b.ns = ns

end Spec

/-- C105 in full: when overlapping calls and rounds of the rotation task are done, the published bundle is up to date. -/
def C105_Claim : Prop := ∀ (ns : Ns) (deeds : List Deed) (t : List Ev), Deeds ns deeds t → Renewed ns t

namespace BundlePar

inductive Stage | clean | dirty | got (b : Bundle)

open Classical in
noncomputable def step (ns : Ns) (l : Stage) (e : Ev) : Stage :=
  if Changes ns e then .dirty else match l, e with
    | .clean, _ => .clean
    | .dirty, ⟨.getBundle n _ _, .ok b⟩ => if n = ns then .got b else .dirty
    | .dirty, _ => .dirty
    | .got b, ⟨.getBundle n _ _, .ok b'⟩ => if n = ns then .got b' else .got b
    | .got b, ⟨.uploadBundle b', .ok _⟩ => if b' = b then .clean else .got b
    | .got b, _ => .got b

variable {ns : Ns}

noncomputable def View (ns : Ns) : Sem LibSig Exn Stage where
  ok _ _ := True
  next := step ns

/-- Calls that return leave nothing to publish. -/
def Ends {α : Type} (r : Res Exn α) (l : Stage) : Prop := ∀ a, r = .ok a → l = .clean

theorem ends_crashed {α : Type} {l : Stage} : Ends (.crashed : Res Exn α) l := fun _ h => nomatch h
theorem ends_raised {α : Type} {l : Stage} {e : Exn} : Ends (.raised e : Res Exn α) l := fun _ h => nomatch h

abbrev G (ns : Ns) {α : Type} (p : P α) (l : Stage) : Prop := guar (View ns) (fun _ _ => True) p Ends l

theorem step_clean {e : Ev} (h : ¬ Changes ns e) : step ns .clean e = .clean := by
  unfold step
  rw [if_neg h]

def _root_.Verif.Op.isGetBundle : Op → Bool
  | .getBundle .. => true
  | _ => false

def calm : Op → Bool
  | .hidePreKey .. | .deletePreKey .. | .generatePreKeys .. | .rotateSpk .. => false
  | _ => true

theorem calm_ok {e : Ev} (h : calm e.1 = true) : ¬ Changes ns e := by
  intro hc
  unfold Changes at hc
  split at hc <;> first | cases h | exact hc

theorem G_calm {α : Type} {p : P α} (h : AllOps (fun o => ∀ r, ¬ Changes ns ⟨o, r⟩) p) : G ns p .clean := by
  induction p with
  | ret | raise => exact fun _ _ => rfl
  | op o k ih =>
    refine ⟨trivial, ends_crashed, fun r _ => ?_⟩
    show guar (View ns) _ (k r) _ (step ns .clean ⟨o, r⟩)
    rw [step_clean (h.1 r)]
    exact ih r (h.2 r)

theorem G_bind {α β : Type} {p : P α} {f : α → P β} {l : Stage} (h : G ns p l) (hf : ∀ a, G ns (f a) .clean) : G ns (p >>= f) l := by
  refine guar_bind.2 (guar_mono h fun r l hl => ?_)
  cases r with
  | ok a => rw [hl a rfl]; exact hf a
  | raised e => exact fun _ h => nomatch h
  | crashed => exact fun _ h => nomatch h

theorem G_call {α : Type} {o : Op} {f : o.Ret → P α} {l : Stage} (h : ∀ a, G ns (f a) (step ns l ⟨o, .ok a⟩)) : G ns (call o >>= f) l := by
  refine ⟨trivial, ends_crashed, fun r _ => ?_⟩
  cases r with
  | error x => exact fun _ h => nomatch h
  | ok a => exact h a

/-- Nothing to publish, or a bundle of the backend `n`. -/
def Due (ns n : Ns) (l : Stage) : Prop := l = .clean ∨ n = ns

theorem due_step {n : Ns} {l : Stage} {e : Ev} (hl : Due ns n l) (hc : Changes ns e → n = ns) : Due ns n (step ns l e) := by
  by_cases hn : n = ns
  · exact .inr hn
  · rcases hl with rfl | h
    · exact .inl (step_clean fun h => hn (hc h))
    · exact absurd h hn

theorem G_publish {M : Mgr} {n : Ns} {l : Stage} (hl : Due ns n l) : G ns (do let b ← call (.getBundle n M.ownJid M.ownDev); call (.uploadBundle b)) l := by
  refine G_call fun b => ⟨trivial, ends_crashed, fun r _ => ?_⟩
  cases r with
  | error x => exact ends_raised
  | ok a =>
    intro _ _
    show step ns (step ns l _) _ = _
    have hc : ¬ Changes ns (⟨.getBundle n M.ownJid M.ownDev, .ok b⟩ : Ev) := id
    have hc' : ¬ Changes ns (⟨.uploadBundle b, .ok a⟩ : Ev) := id
    rcases hl with rfl | rfl
    · simp [step, hc, hc']
    · cases l <;> simp [step, hc, hc']

theorem G_consume {M : Mgr} {n : Ns} {s : Session} : G ns (consumePreKey M n s) .clean := by
  have hrefill : ∀ l, Due ns n l → G ns (do refillPreKeys M n; let b ← call (.getBundle n M.ownJid M.ownDev); call (.uploadBundle b)) l := by
    intro l hl
    unfold refillPreKeys
    unfold G
    rw [guar_bind, guar_bind]
    refine ⟨trivial, ends_crashed, fun k _ => ?_⟩
    cases k with
    | error x => exact ends_raised
    | ok k =>
      have hl := due_step (e := ⟨.numVisible n, .ok k⟩) hl fun h => False.elim h
      show guar _ _ (Prog.when (k ≤ M.threshold) (call (.generatePreKeys n (100 - k)))) _ (step ns l _)
      generalize step ns l _ = l at hl ⊢
      unfold Prog.when
      split
      · refine ⟨trivial, ends_crashed, fun a _ => ?_⟩
        cases a with
        | error x => exact ends_raised
        | ok a => exact G_publish (due_step hl fun h => h)
      · exact G_publish hl
  unfold consumePreKey discardPreKey
  refine G_call fun sync => ?_
  rw [step_clean (e := ⟨.getSync, .ok sync⟩) (fun h => h)]
  have hafter : ∀ (c : Bool) l, Due ns n l → (c = false → l = .clean) → G ns (Prog.when (c = true) (do refillPreKeys M n; let b ← call (.getBundle n M.ownJid M.ownDev); call (.uploadBundle b))) l := by
    intro c l hl hc
    unfold Prog.when
    split
    · exact hrefill l hl
    · rename_i h
      exact fun _ _ => hc (by simpa using h)
  cases sync
  · refine G_call fun c => hafter c _ (due_step (.inl rfl) fun h => h.1) fun hc => ?_
    subst hc
    exact step_clean fun h => nomatch h.2
  · refine G_call fun c => hafter c _ (due_step (.inl rfl) fun h => h.1) fun hc => ?_
    subst hc
    exact step_clean fun h => nomatch h.2

theorem G_retry {M : Mgr} {n : Ns} {fuel : Nat} : ∀ {l}, Due ns n l → G ns (retryUpload M n fuel) l := by
  induction fuel with
  | zero => exact fun _ => ends_raised
  | succ fuel ih =>
    intro l hl
    unfold retryUpload G
    rw [guar_tryElse]
    have hh : ∀ (e : Exn) l, Due ns n l → G ns (if e = .bundleUploadFailed then do call (.sleep 60); retryUpload M n fuel else throwE e) l := by
      intro e l hl
      split
      · exact G_call fun _ => ih (due_step hl fun h => False.elim h)
      · exact ends_raised
    refine ⟨trivial, ends_crashed, fun r _ => ?_⟩
    cases r with
    | error x => exact hh x _ (due_step hl fun h => False.elim h)
    | ok b =>
      refine ⟨trivial, ends_crashed, fun r _ => ?_⟩
      cases r with
      | error x => exact hh x _ (due_step (due_step hl fun h => False.elim h) fun h => False.elim h)
      | ok a =>
        have h1 := (G_publish (M := M) hl).2.2 (.ok b) trivial
        exact h1.2.2 (.ok a) trivial

theorem G_fold {α β : Type} {xs : List α} {f : β → α → P β} (h : ∀ b x, G ns (f b x) .clean) : ∀ {b}, G ns (Prog.fold xs b f) .clean := by
  induction xs with
  | nil => exact fun _ _ => rfl
  | cons x xs ih => exact fun {b} => G_bind (h b x) fun b' => ih

theorem G_round {M : Mgr} {period : Int} {fuel : Nat} : G ns (rotationRound M period fuel) .clean := by
  unfold rotationRound
  refine G_bind (G_calm (AllOps.perform fun _ h => h)) fun bs => G_bind (G_fold fun b x => ?_) fun _ => G_calm (AllOps.perform fun _ h => h)
  refine G_bind (G_calm (AllOps.perform fun _ h => h)) fun age => ?_
  simp only
  split
  · refine G_call fun _ => G_bind (G_retry (due_step (.inl rfl) fun h => h)) fun _ _ _ => rfl
  · exact fun _ _ => rfl

theorem G_decrypt {M : Mgr} {msg : Message} : G ns (Call.run M (.decrypt msg)) .clean := by
  have h1 : AllOps (fun o => calm o = true) (findSender M msg) := by
    unfold findSender
    lib_ops []
    all_goals first
      | exact (ops_getDeviceInformation M _).mono fun _ h => by cases h <;> rfl
      | exact (ops_refreshDeviceList M _ _).mono fun _ h => by
          cases h with
          | download => rfl
          | update h => cases h <;> rfl
  have h2 : ∀ dev ekm kex, AllOps (fun o => calm o = true) (decryptContent M msg dev ekm kex) := by
    intro dev ekm kex
    unfold decryptContent keyMaterial plaintextOf decryptKeyMaterial handleKeyExchange
    lib_ops []
  have h3 : ∀ kex s, AllOps (fun o => calm o = true) (autoReply M msg.ns kex s) := by
    intro kex s
    unfold autoReply queueEmpty
    lib_ops []
    all_goals exact (ops_sendEmptyMessage M _ _).mono fun _ h => by cases h <;> rfl
  have hq : ∀ {α : Type} {p : P α}, AllOps (fun o => calm o = true) p → G ns p .clean := fun h => G_calm (h.mono fun _ h _ => calm_ok h)
  simp only [Call.run]
  refine G_bind ?_ fun _ _ _ => rfl
  unfold decrypt
  refine G_bind (hq (AllOps.perform rfl)) fun bs => ?_
  split
  · exact ends_raised
  · split
    · exact ends_raised
    · refine G_bind (hq h1) fun dev => G_bind (hq (h2 _ _ _)) fun x => ?_
      refine G_bind ?_ fun _ _ _ => rfl
      unfold postDecrypt
      refine G_bind (hq (AllOps.perform rfl)) fun _ => G_bind ?_ fun _ => hq (h3 _ _)
      unfold Prog.when
      split
      · exact G_consume
      · exact fun _ _ => rfl

/-- Interactions that change nothing. -/
def Mute (ns : Ns) (o : Op) : Prop := ∀ r, ¬ Changes ns ⟨o, r⟩

theorem mute {o : Op} (h : calm o = true) : Mute ns o := fun _ => calm_ok h
theorem calm_info {jid : Jid} {o : Op} (h : Foot.Info jid o) : Mute ns o := by cases h <;> exact mute rfl
theorem calm_refresh {M : Mgr} {ns' : Ns} {jid : Jid} {o : Op} (h : Foot.Refresh M ns' jid o) : Mute ns o := by
  cases h with
  | download => exact mute rfl
  | update h => cases h <;> exact mute rfl

theorem calm_others {M : Mgr} {c : Call} (hd : ∀ ds i, AllOps (fun o => ∀ r, ¬ Changes ns ⟨o, r⟩) (M.decide ds i)) (hc : ∀ msg, c ≠ .decrypt msg) (hcr : ∀ bs l f, c ≠ .create bs l f)
    (hro : ∀ p f r, c ≠ .rotation p f r) :
    AllOps (fun o => Mute ns o) (c.run M) := by
  have drop : ∀ {α : Type} {p : P α} {φ : Op → Prop}, AllOps φ p → AllOps φ (do let _ ← p; pure ()) := fun h => AllOps.bind h fun _ => AllOps.ret _
  cases c <;> simp only [Call.run]
  case decrypt msg => exact absurd rfl (hc msg)
  case encrypt jids pt prio i =>
    refine drop ?_
    unfold encrypt
    have h1 : ∀ order, AllOps (fun o => Mute ns o) (recipientDevices M order (setUnion jids [M.ownJid])) := by
      intro order
      unfold recipientDevices getDeviceInformation' deviceInformation identityKeyOf repairNamespaces
      lib_ops []
      all_goals try exact mute rfl
      exact (ops_fetchIdentityKey ..).mono fun _ h => calm_info h
    have h2 : ∀ ds, AllOps (fun o => Mute ns o) (decideTrust M ds i) := by
      intro ds
      unfold decideTrust askTrust devicesWithTrust reloadTrust
      lib_ops []
      all_goals try exact mute rfl
      exact hd _ _
    have h3 : ∀ cache ds, AllOps (fun o => Mute ns o) (encryptTrusted M (setUnion jids [M.ownJid]) cache pt ds) := by
      intro cache ds
      unfold encryptTrusted devicesWithTrust encryptBackend encryptDevice encryptForDevice bundleFor
      lib_ops []
      all_goals try exact mute rfl
    refine AllOps.bind (AllOps.perform (mute rfl)) fun _ => AllOps.bind (allOps_liftE _) fun order => AllOps.bind (h1 order) fun x => AllOps.bind (h2 _) fun ds => h3 _ _
  case replaceSessions j d => exact drop ((ops_replaceSessions M j d).mono fun _ h => by cases h with | info h => exact calm_info h | _ => exact mute rfl)
  case afterHistorySync => exact (ops_afterHistorySync M).mono fun _ h => by cases h with | sendEmpty _ h => cases h <;> exact mute rfl | _ => exact mute rfl
  case getIdentityKeyPair => exact drop (ops_ikp.mono fun _ h => by cases h <;> exact mute rfl)
  case create bs label fuel => exact absurd rfl (hcr bs label fuel)
  case purgeBackend ns' =>
    exact (ops_purgeBackend M ns').mono fun _ h => by
      cases h with
      | info h => exact calm_info h
      | _ => exact mute rfl
  case purgeBareJid jid => exact (ops_purgeBareJid M jid).mono fun _ h => by cases h <;> exact mute rfl
  case ensureDataConsistency => exact (ops_ensureDataConsistency M).mono fun _ h => by cases h with | refresh _ h => exact calm_refresh h | _ => exact mute rfl
  case rotation p f r => exact absurd rfl (hro p f r)
  case updateDeviceList ns jid dl => exact (ops_updateDeviceList M ns jid dl).mono fun _ h => by cases h <;> exact mute rfl
  case refreshDeviceList ns jid => exact (ops_refreshDeviceList M ns jid).mono fun _ h => calm_refresh h
  case refreshDeviceLists jid =>
    unfold refreshDeviceLists
    exact AllOps.bind (AllOps.perform (mute rfl)) fun bs => AllOps.forEach fun ns _ => (ops_refreshDeviceList M ns jid).mono fun _ h => calm_refresh h
  case setTrust => exact AllOps.perform (mute rfl)
  case getSendingChainLength x =>
    unfold getSendingChainLength
    lib_ops []
    all_goals exact mute rfl
  case setOwnLabel l => exact (ops_setOwnLabel M l).mono fun _ h => by cases h <;> exact mute rfl
  case getDeviceInformation jid => exact drop ((ops_getDeviceInformation M jid).mono fun _ h => calm_info h)
  case getOwnDeviceInformation => exact drop ((ops_getOwnDeviceInformation M).mono fun _ h => calm_info h)
  case beforeHistorySync => exact AllOps.perform (mute rfl)

theorem G_deed {k : Deed} (hd : ∀ ds i, AllOps (fun o => ∀ r, ¬ Changes ns ⟨o, r⟩) (k.M.decide ds i)) : G ns k.prog .clean := by
  obtain ⟨M, p, hw, t, r, he⟩ := k
  cases hw with
  | call c h1 h2 =>
    by_cases hc : ∃ msg, c = .decrypt msg
    · obtain ⟨msg, rfl⟩ := hc
      exact G_decrypt
    · exact G_calm (calm_others hd (fun msg hm => hc ⟨msg, hm⟩) h1 h2)
  | round period fuel => exact G_round

theorem guar_fold {α : Type} {p : P α} {u : List Ev} {r : Res Exn α} {Q : Res Exn α → Stage → Prop} (he : Exec p u r) :
    ∀ {l}, guar (View ns) (fun _ _ => True) p Q l → Q r (u.foldl (step ns) l) := by
  induction he with
  | ret => exact fun h => h
  | raise => exact fun h => h
  | crash => exact fun h => h.2.1
  | op r _ ih => exact fun h => ih (h.2.2 r trivial)

/-- From something to publish to nothing to publish. -/
theorem published : ∀ {c : List Ev} {l : Stage}, l ≠ .clean → c.foldl (step ns) l = .clean →
    (∃ c1 j d b c2 c3, c = c1 ++ ⟨.getBundle ns j d, .ok b⟩ :: (c2 ++ ⟨.uploadBundle b, .ok ()⟩ :: c3)) ∨
      ∃ b c2 c3, l = .got b ∧ c = c2 ++ ⟨.uploadBundle b, .ok ()⟩ :: c3 := by
  intro c
  induction c with
  | nil => exact fun h1 h2 => absurd h2 h1
  | cons e c ih =>
    intro l hl hc
    rw [List.foldl_cons] at hc
    by_cases hs : step ns l e = .clean
    · right
      unfold step at hs
      split at hs
      · cases hs
      · split at hs
        · exact absurd rfl hl
        · split at hs <;> cases hs
        · cases hs
        · split at hs <;> cases hs
        · split at hs
          · rename_i h; subst h
            exact ⟨_, [], c, rfl, rfl⟩
          · cases hs
        · cases hs
    · rcases ih hs hc with ⟨c1, j, d, b, c2, c3, rfl⟩ | ⟨b, c2, c3, hb, rfl⟩
      · exact .inl ⟨e :: c1, j, d, b, c2, c3, rfl⟩
      · unfold step at hb
        split at hb
        · cases hb
        · split at hb
          · cases hb
          · split at hb
            · rename_i h; subst h
              cases hb
              exact .inl ⟨[], _, _, b, c2, c3, rfl⟩
            · cases hb
          · cases hb
          · split at hb
            · rename_i h; subst h
              cases hb
              exact .inl ⟨[], _, _, b, c2, c3, rfl⟩
            · cases hb
              exact .inr ⟨_, _ :: c2, c3, rfl, rfl⟩
          · split at hb
            · cases hb
            · cases hb
              exact .inr ⟨_, _ :: c2, c3, rfl, rfl⟩
          · cases hb
            exact .inr ⟨_, _ :: c2, c3, rfl, rfl⟩

theorem later {u ua uc : List Ev} {e : Ev} (hu : u.foldl (step ns) .clean = .clean) (h : u = ua ++ e :: uc) (hc : Changes ns e) :
    ∃ c1 j d b c2 c3, uc = c1 ++ ⟨.getBundle ns j d, .ok b⟩ :: (c2 ++ ⟨.uploadBundle b, .ok ()⟩ :: c3) := by
  subst h
  rw [List.foldl_append, List.foldl_cons] at hu
  have : step ns (ua.foldl (step ns) .clean) e = .dirty := by unfold step; rw [if_pos hc]
  rw [this] at hu
  rcases published (l := .dirty) nofun hu with h | ⟨b, _, _, h, _⟩
  · exact h
  · cases h

/-- An event of an interleaving, in its part. -/
theorem split_shuffle {ts : List (List Ev)} {t : List Ev} (hs : Shuffle ts t) : ∀ {a e c}, t = a ++ e :: c → ∃ u ∈ ts, ∃ ua uc, u = ua ++ e :: uc ∧ uc.Sublist c := by
  have part : ∀ {ts : List (List Ev)} {t}, Shuffle ts t → ∀ u ∈ ts, u.Sublist t := by
    intro ts t h
    induction h with
    | nil h => intro u hu; rw [h u hu]; exact .refl _
    | @cons pre post x v t h ih =>
      intro u hu
      simp only [List.mem_append, List.mem_cons] at hu
      rcases hu with hu | rfl | hu
      · exact (ih u (by simp [hu])).cons _
      · exact (ih v (by simp)).cons_cons _
      · exact (ih u (by simp [hu])).cons _
  induction hs with
  | nil => intro a e c h; cases a <;> cases h
  | @cons pre post x v t h ih =>
    intro a e c hh
    cases a with
    | nil =>
      cases hh
      exact ⟨x :: v, by simp, [], v, rfl, part h v (by simp)⟩
    | cons y a =>
      cases hh
      obtain ⟨u, hu, ua, uc, h1, h2⟩ := ih rfl
      simp only [List.mem_append, List.mem_cons] at hu
      rcases hu with hu | rfl | hu
      · exact ⟨u, by simp [hu], ua, uc, h1, h2⟩
      · exact ⟨x :: u, by simp, x :: ua, uc, by rw [h1]; rfl, h2⟩
      · exact ⟨u, by simp [hu], ua, uc, h1, h2⟩

theorem sub_split {α : Type} {a b c : List α} {e : α} (h : (a ++ e :: b).Sublist c) : ∃ c1 c2, c = c1 ++ e :: c2 ∧ b.Sublist c2 := by
  obtain ⟨r1, r2, rfl, -, h2⟩ := List.append_sublist_iff.1 h
  obtain ⟨r3, r4, rfl, h3, h4⟩ := List.cons_sublist_iff.1 h2
  obtain ⟨x, y, rfl⟩ := List.append_of_mem h3
  exact ⟨r1 ++ x, y ++ r4, by simp, h4.trans (List.sublist_append_right _ _)⟩

/-- The last of the events. -/
theorem last_of {α : Type} {p : α → Prop} : ∀ {l : List α}, (∃ x ∈ l, p x) → ∃ a x b, l = a ++ x :: b ∧ p x ∧ ∀ y ∈ b, ¬ p y := by
  intro l
  induction l with
  | nil => rintro ⟨_, h, _⟩; cases h
  | cons x l ih =>
    intro h
    by_cases hl : ∃ y ∈ l, p y
    · obtain ⟨a, y, b, rfl, h1, h2⟩ := ih hl
      exact ⟨x :: a, y, b, rfl, h1, h2⟩
    · obtain ⟨y, hy, hp⟩ := h
      rcases List.mem_cons.1 hy with rfl | hy
      · exact ⟨[], y, l, rfl, hp, fun z hz hq => hl ⟨z, hz, hq⟩⟩
      · exact absurd ⟨y, hy, hp⟩ hl

end BundlePar

/-- C105, the part that holds: the published bundle is up to date if bundles are published in the order in which they were obtained.  Missing: other orders. -/
theorem C105_partial (ns : Ns) (deeds : List Deed) (t : List Ev) (h : Deeds ns deeds t) (ho : Sequenced ns t) : Renewed ns t := by
  intro a e c ht hc
  obtain ⟨u, hu, ua, uc, h1, h2⟩ := BundlePar.split_shuffle h.shuffle ht
  obtain ⟨k, hk, rfl⟩ := List.mem_map.1 hu
  have hr : k.res = .ok () := by
    rcases h.done k hk with h3 | h3
    · exact h3
    · exact absurd hc (h3 e (by rw [h1]; simp))
  have hend := BundlePar.guar_fold (Q := BundlePar.Ends) k.exec (BundlePar.G_deed (h.decisions k hk)) () hr
  obtain ⟨c1, j, d, b, c2, c3, rfl⟩ := BundlePar.later hend h1 hc
  obtain ⟨x1, x2, rfl, h3⟩ := BundlePar.sub_split h2
  obtain ⟨x3, x4, rfl, -⟩ := BundlePar.sub_split h3
  have hb : b.ns = ns := h.named j d b (by rw [ht]; simp)
  -- the last upload
  obtain ⟨y1, e', y2, hy, ⟨b', hb', rfl⟩, hl⟩ := BundlePar.last_of (p := fun e : Ev => ∃ b', b'.ns = ns ∧ e = ⟨.uploadBundle b', .ok ()⟩)
    (l := x3 ++ (⟨.uploadBundle b, .ok ()⟩ : Ev) :: x4) ⟨_, by simp, b, hb, rfl⟩
  rw [hy] at ht ⊢
  obtain ⟨a1, j', d', a2, h4, h5⟩ := ho (a ++ e :: (x1 ++ ⟨.getBundle ns j d, .ok b⟩ :: y1)) b' y2 (by rw [ht]; simp) hb'
  -- the bundle was obtained after the change
  have key : ∃ z1 z2, x1 ++ (⟨.getBundle ns j d, .ok b⟩ : Ev) :: y1 = z1 ++ ⟨.getBundle ns j' d', .ok b'⟩ :: z2 := by
    have h6 : (a ++ e :: x1) ++ (⟨.getBundle ns j d, .ok b⟩ : Ev) :: y1 = a1 ++ ⟨.getBundle ns j' d', .ok b'⟩ :: a2 := by rw [← h4]; simp
    rcases List.append_eq_append_iff.1 h6 with ⟨v, rfl, h8⟩ | ⟨v, h7, h8⟩
    · cases v with
      | nil =>
        rw [List.nil_append] at h8
        exact ⟨x1, a2, by rw [h8]⟩
      | cons y v =>
        simp only [List.cons_append, List.cons.injEq] at h8
        obtain ⟨rfl, rfl⟩ := h8
        exact ⟨x1 ++ ⟨.getBundle ns j d, .ok b⟩ :: v, a2, by simp⟩
    · cases v with
      | nil =>
        rw [List.nil_append] at h8
        exact ⟨x1, a2, by rw [← h8]⟩
      | cons y v =>
        cases h8
        exact absurd (by simp) (h5 j d (.ok b))
  obtain ⟨z1, z2, hz⟩ := key
  refine ⟨z1, j', d', b', z2, y2, ?_, hb', fun b'' hb'' hm => hl _ hm ⟨b'', hb'', rfl⟩⟩
  rw [show x1 ++ (⟨.getBundle ns j d, .ok b⟩ : Ev) :: (y1 ++ ⟨.uploadBundle b', .ok ()⟩ :: y2) = (x1 ++ (⟨.getBundle ns j d, .ok b⟩ : Ev) :: y1) ++ ⟨.uploadBundle b', .ok ()⟩ :: y2 by simp, hz]
  simp

namespace BundlePar

/-- Every bundle is new, signed pre keys can be rotated. -/
def busy : World → (o : Op) → Except Exn o.Ret
  | _, .spkAge _ => .ok 1000
  | _, .rotateSpk _ => .ok ()
  | _, .sleep _ => .ok ()
  | w, o => OneTime.counting w o

theorem busy_ok (w : World) (o : Op) (e : Exn) (h : busy w o = .error e) : e.isInternal = false := by
  cases o <;> simp only [busy, OneTime.counting, exchanging] at h <;> first
    | exact friendly_ok w _ e h
    | (cases h; done)
    | (split at h <;> cases h; rfl)

/-- A first message is received while the signed pre key is rotated. -/
def work : List (P Unit) := [(Call.decrypt OneTime.first).run Mgr.ex, rotationRound Mgr.ex 100 3]
def crossed := sched (Lib.env busy) Lib.next (List.replicate 17 0 ++ List.replicate 40 1 ++ List.replicate 40 0) work World.side
def orderly := sched (Lib.env busy) Lib.next (List.replicate 15 0 ++ List.replicate 40 1 ++ List.replicate 40 0) work World.side

def lastUpload (ns : Ns) : List Ev → Option Bundle
  | [] => none
  | e :: l => (lastUpload ns l).or (match e with
    | ⟨.uploadBundle b, .ok _⟩ => if b.ns = ns then some b else none
    | _ => none)

def obtained (ns : Ns) (b : Bundle) (e : Ev) : Bool := match e with
  | ⟨.getBundle n _ _, .ok b'⟩ => decide (n = ns ∧ b' = b)
  | _ => false

/-- The bundle published last was obtained before. -/
def staleB (ns : Ns) (c : List Ev) : Bool := (lastUpload ns c).all fun b => !c.any (obtained ns b)

def rotatesB (ns : Ns) (e : Ev) : Bool := match e with
  | ⟨.rotateSpk n, .ok _⟩ => decide (n = ns)
  | _ => false

theorem last_none {ns : Ns} {l : List Ev} (h : ∀ b, b.ns = ns → (⟨.uploadBundle b, .ok ()⟩ : Ev) ∉ l) : lastUpload ns l = none := by
  induction l with
  | nil => rfl
  | cons e l ih =>
    unfold lastUpload
    rw [ih fun b hb hm => h b hb (List.mem_cons_of_mem _ hm)]
    split
    · split
      · rename_i b _ hb
        exact absurd (by simp) (h b hb)
      · rfl
    · rfl

theorem last_some {ns : Ns} {x l : List Ev} {b : Bundle} (hb : b.ns = ns) (h : ∀ b, b.ns = ns → (⟨.uploadBundle b, .ok ()⟩ : Ev) ∉ l) :
    lastUpload ns (x ++ ⟨.uploadBundle b, .ok ()⟩ :: l) = some b := by
  induction x with
  | nil => rw [List.nil_append]; unfold lastUpload; rw [last_none h]; simp [hb]
  | cons e x ih => rw [List.cons_append]; unfold lastUpload; rw [ih]; rfl

theorem stale {ns : Ns} {t : List Ev} {k : Nat} (h : (match t.drop k with | e :: c => rotatesB ns e && staleB ns c | [] => false) = true) : ¬ Renewed ns t := by
  intro hr
  have ht := List.take_append_drop k t
  revert h ht
  cases t.drop k with
  | nil => intro h; cases h
  | cons e c =>
    intro h ht
    obtain ⟨h1, h2⟩ := Bool.and_eq_true_iff.1 h
    have hc : Changes ns e := by
      unfold rotatesB at h1
      split at h1
      · exact (of_decide_eq_true h1 : _ = ns)
      · cases h1
    obtain ⟨c1, j, d, b, c2, c3, rfl, hb, h3⟩ := hr _ e c ht.symm hc
    unfold staleB at h2
    rw [show c1 ++ (⟨.getBundle ns j d, .ok b⟩ : Ev) :: (c2 ++ ⟨.uploadBundle b, .ok ()⟩ :: c3) = (c1 ++ (⟨.getBundle ns j d, .ok b⟩ : Ev) :: c2) ++ ⟨.uploadBundle b, .ok ()⟩ :: c3 by simp,
      last_some hb h3] at h2
    simp [obtained] at h2

/-- Checks `Sequenced`, `x` is the bundle obtained last. -/
def seqB (ns : Ns) (x : Option Bundle) : List Ev → Bool
  | [] => true
  | ⟨.getBundle n _ _, .ok b⟩ :: l => seqB ns (if n = ns then some b else x) l
  | ⟨.getBundle n _ _, .error _⟩ :: l => seqB ns (if n = ns then none else x) l
  | ⟨.uploadBundle b, .ok _⟩ :: l => (decide (b.ns ≠ ns) || decide (x = some b)) && seqB ns x l
  | _ :: l => seqB ns x l

theorem seq_of {ns : Ns} {t : List Ev} (h : seqB ns none t = true) : Sequenced ns t := by
  have key : ∀ (t g : List Ev) (x : Option Bundle), seqB ns x t = true →
      (∀ b, x = some b → ∃ a1 j d a2, g = a1 ++ ⟨.getBundle ns j d, .ok b⟩ :: a2 ∧ ∀ j d r, (⟨.getBundle ns j d, r⟩ : Ev) ∉ a2) →
      ∀ a b c, t = a ++ ⟨.uploadBundle b, .ok ()⟩ :: c → b.ns = ns →
        ∃ a1 j d a2, g ++ a = a1 ++ ⟨.getBundle ns j d, .ok b⟩ :: a2 ∧ ∀ j d r, (⟨.getBundle ns j d, r⟩ : Ev) ∉ a2 := by
    intro t
    induction t with
    | nil => intro g x _ _ a b c h; cases a <;> cases h
    | cons e t ih =>
      intro g x hs hx a b c ht hb
      cases a with
      | nil =>
        cases ht
        simp only [seqB, Bool.and_eq_true, Bool.or_eq_true, decide_eq_true_eq] at hs
        rw [List.append_nil]
        exact hx b (hs.1.resolve_left fun h => h hb)
      | cons y a =>
        simp only [List.cons_append, List.cons.injEq] at ht
        obtain ⟨rfl, ht⟩ := ht
        have keep : (∀ j d r, e ≠ ⟨.getBundle ns j d, r⟩) → ∀ b, x = some b → ∃ a1 j d a2, g ++ [e] = a1 ++ ⟨.getBundle ns j d, .ok b⟩ :: a2 ∧ ∀ j d r, (⟨.getBundle ns j d, r⟩ : Ev) ∉ a2 := by
          intro hne b' hb'
          obtain ⟨a1, j, d, a2, h1, h2⟩ := hx b' hb'
          refine ⟨a1, j, d, a2 ++ [e], by rw [h1]; simp, fun j d r hm => ?_⟩
          rcases List.mem_append.1 hm with hm | hm
          · exact h2 j d r hm
          · exact hne j d r (List.mem_singleton.1 hm).symm
        have go : ∀ x', seqB ns x' t = true → (∀ b, x' = some b → ∃ a1 j d a2, g ++ [e] = a1 ++ ⟨.getBundle ns j d, .ok b⟩ :: a2 ∧ ∀ j d r, (⟨.getBundle ns j d, r⟩ : Ev) ∉ a2) →
            ∃ a1 j d a2, g ++ e :: a = a1 ++ ⟨.getBundle ns j d, .ok b⟩ :: a2 ∧ ∀ j d r, (⟨.getBundle ns j d, r⟩ : Ev) ∉ a2 := by
          intro x' h1 h2
          have := ih (g ++ [e]) x' h1 h2 a b c ht hb
          rwa [List.append_assoc] at this
        unfold seqB at hs
        split at hs
        · rename_i heq; cases heq
        · rename_i n j d b' _ heq
          obtain ⟨rfl, rfl⟩ := List.cons.inj heq
          refine go _ hs ?_
          split
          · rename_i hn; subst hn
            rintro b'' h; cases h
            exact ⟨g, j, d, [], rfl, fun _ _ _ h => absurd h List.not_mem_nil⟩
          · rename_i hn
            exact keep fun j d r h => hn (by cases h; rfl)
        · rename_i n j d b' _ heq
          obtain ⟨rfl, rfl⟩ := List.cons.inj heq
          refine go _ hs ?_
          split
          · rintro b'' h; cases h
          · rename_i hn
            exact keep fun j d r h => hn (by cases h; rfl)
        · rename_i b' _ _ heq
          obtain ⟨rfl, rfl⟩ := List.cons.inj heq
          exact go _ (Bool.and_eq_true_iff.1 hs).2 (keep fun j d r h => nomatch h)
        · rename_i h1 h2 _ heq
          obtain ⟨rfl, rfl⟩ := List.cons.inj heq
          refine go _ hs (keep fun j d r h => ?_)
          cases r with
          | ok v => exact h1 _ _ _ _ h
          | error v => exact h2 _ _ _ _ h
  intro a b c ht hb
  simpa using key t [] none h (fun _ h => nomatch h) a b c ht hb

def namedB (ns : Ns) (e : Ev) : Bool := match e with
  | ⟨.getBundle n _ _, .ok b⟩ => decide (n = ns → b.ns = ns)
  | _ => true

theorem deeds_of {x : List (List Ev) × List (P Unit) × List Ev × World} (hx : SchedOk Lib work World.side x) (c1 : x.2.1[0]?.any (Prog.isOk fun _ => true) = true)
    (c2 : x.2.1[1]?.any (Prog.isOk fun _ => true) = true) (c3 : x.2.2.1.all (namedB "n") = true) :
    ∃ k1 k2 : Deed, k1.prog = (Call.decrypt OneTime.first).run Mgr.ex ∧ k2.prog = rotationRound Mgr.ex 100 3 ∧ Deeds "n" [k1, k2] x.2.2.1 := by
  obtain ⟨ts, y, t, w'⟩ := x
  obtain ⟨t1, t2, rfl⟩ := list2 (l := ts) hx.len
  obtain ⟨_, e1, -⟩ := hx.isOk 0 rfl rfl _ c1
  obtain ⟨_, e2, -⟩ := hx.isOk 1 rfl rfl _ c2
  refine ⟨⟨Mgr.ex, _, .call (.decrypt OneTime.first) (fun _ _ _ h => by cases h) (fun _ _ _ h => by cases h), _, _, e1⟩, ⟨Mgr.ex, _, .round 100 3, _, _, e2⟩, rfl, rfl, ?_, ?_, hx.shuffle, fun j d b hm => ?_⟩
  · intro k hk
    simp only [List.mem_cons, List.not_mem_nil, or_false] at hk
    rcases hk with rfl | rfl <;> exact fun _ _ => AllOps.ret _
  · intro k hk
    simp only [List.mem_cons, List.not_mem_nil, or_false] at hk
    rcases hk with rfl | rfl <;> exact .inl rfl
  · have := List.all_eq_true.1 c3 _ hm
    simpa [namedB] using this

end BundlePar

/-- The claim in full does not hold: while `decrypt` waits for its upload, the rotation task publishes a newer bundle, which the upload then replaces. -/
theorem C105_refuted : ¬ C105_Claim := by
  intro h
  have hx := sched_ok Lib (Lib.env BundlePar.busy) (Lib.env_ok BundlePar.busy BundlePar.busy_ok) (List.replicate 17 0 ++ List.replicate 40 1 ++ List.replicate 40 0) BundlePar.work World.side
  obtain ⟨k1, k2, -, -, hd⟩ := BundlePar.deeds_of (x := BundlePar.crossed) hx (by decide +kernel) (by decide +kernel) (by decide +kernel)
  exact BundlePar.stale (k := 19) (by decide +kernel) (h _ _ _ hd)

/-- The hypotheses of C105 are met: the rotation task publishes while `decrypt` generates pre keys. -/
theorem C105_example : ∃ (deeds : List Deed) (t : List Ev), deeds.length = 2 ∧ Deeds "n" deeds t ∧ Sequenced "n" t ∧ (∃ e ∈ t, Changes "n" e) := by
  have hx := sched_ok Lib (Lib.env BundlePar.busy) (Lib.env_ok BundlePar.busy BundlePar.busy_ok) (List.replicate 15 0 ++ List.replicate 40 1 ++ List.replicate 40 0) BundlePar.work World.side
  obtain ⟨k1, k2, -, -, hd⟩ := BundlePar.deeds_of (x := BundlePar.orderly) hx (by decide +kernel) (by decide +kernel) (by decide +kernel)
  refine ⟨_, _, rfl, hd, BundlePar.seq_of (by decide +kernel), ?_⟩
  obtain ⟨e, hm, he⟩ := List.any_eq_true.1 (show BundlePar.orderly.2.2.1.any (BundlePar.rotatesB "n") = true by decide +kernel)
  refine ⟨e, hm, ?_⟩
  unfold BundlePar.rotatesB at he
  split at he
  · exact (of_decide_eq_true he : _ = "n")
  · cases he

end Verif
