import Verif.Props.Ratchet
import Verif.Proofs.Swaps
import Verif.Base.Sched
import Verif.Props.Commute
/-
C87: states of sessions are not used twice by calls that overlap, if they work with sessions of different devices.
-/
namespace Verif
open SM

namespace Spec

/-- A call, and the key material that left the device by it. -/
inductive Part : List Ev → List EncKM → Prop
  | call {M c t r} : Apart M → Call.isEncrypt c = false → Exec (c.run M) t r → StoresSent t (r = .crashed) → Part t (sentKeys t)
  | encrypt {M jids pt prio i t r} : Apart M → Exec (SM.encrypt M jids pt prio i) t r → BackendsOnce t → Part t (returnedKeys r)

/-- Backends return sessions for the device a message came from. -/
structure Faithful (e : Ev) : Prop where
  decrypt : ∀ ns s k m s', e = ⟨.decryptKM ns s k, .ok (m, s')⟩ → s'.bareJid = s.bareJid ∧ s'.deviceId = s.deviceId
  passive : ∀ ns j d x k s m, e = ⟨.buildPassive ns j d x k, .ok (s, m)⟩ → s.bareJid = j ∧ s.deviceId = d

/-- The device whose session an interaction is about. -/
def Op.device : Op → Option (Jid × DevId)
  | .loadSession _ j d | .buildActive _ j d _ _ | .buildPassive _ j d _ _ => some (j, d)
  | .storeSession _ s | .encryptKM _ s _ | .decryptKM _ s _ => some (s.bareJid, s.deviceId)
  | _ => none

/-- The execution works with the sessions of this device. -/
def WorksWith (t : List Ev) (x : Jid × DevId) : Prop := ∃ e ∈ t, Op.device e.1 = some x

end Spec
open Spec

/-- C87 in full: after calls one after the other, some calls overlap. -/
def C87_Claim : Prop := ∀ (h : List Ev) (L : List EncKM) (parts : List (List Ev × List EncKM)) (t : List Ev), Talk StoresSent h L →
  (∀ p ∈ parts, Part p.1 p.2) → Shuffle (parts.map (·.1)) t → Guarded Ratchets (h ++ t) → (∀ e ∈ t, Faithful e) →
  OneUse (h ++ t) (L ++ (parts.map (·.2)).flatten)

namespace Ratchet

/-- Not about sessions of the same device. -/
def Indep (e f : Ev) : Prop := ∀ x, Op.device e.1 = some x → Op.device f.1 ≠ some x

theorem Indep.symm {e f : Ev} (h : Indep e f) : Indep f e := fun x h1 h2 => h x h2 h1

theorem lastStored_of_latest {h : List Ev} {ns j d s} (hl : Latest h ns j d s) : lastStored h ns j d = some s := by
  obtain ⟨rfl, rfl, h1, h2, rfl, hn⟩ := hl
  have key : ∀ (g : List Ev), (∀ s', s'.bareJid = s.bareJid → s'.deviceId = s.deviceId → (⟨.storeSession ns s', .ok ()⟩ : Ev) ∉ g) →
      ∀ h : List Ev, lastStored (h ++ g) ns s.bareJid s.deviceId = lastStored h ns s.bareJid s.deviceId := by
    intro g
    induction g with
    | nil => intro _ h; rw [List.append_nil]
    | cons e g ih =>
      intro hn h
      have := ih (fun s' a b c => hn s' a b (.tail _ c)) (h ++ [e])
      rw [List.append_assoc, List.singleton_append] at this
      rw [this, lastStored_snoc]
      split
      · rename_i ns' s'
        split
        · rename_i hh
          obtain ⟨rfl, h2, h3⟩ := hh
          exact absurd List.mem_cons_self (hn s' h2 h3)
        · rfl
      · rfl
  have := key h2 hn (h1 ++ [⟨.storeSession ns s, .ok ()⟩])
  rw [List.append_assoc, List.singleton_append] at this
  rw [this, lastStored_snoc]
  simp

theorem latest_iff {h : List Ev} {ns j d s} : Latest h ns j d s ↔ lastStored h ns j d = some s := ⟨lastStored_of_latest, latest_of_lastStored _ _ _ _ _⟩

theorem stores_or (e : Ev) : (∃ ns s, e = ⟨.storeSession ns s, .ok ()⟩) ∨ ∀ h ns j d, lastStored (h ++ [e]) ns j d = lastStored h ns j d := by
  by_cases he : ∃ ns s, e = ⟨.storeSession ns s, .ok ()⟩
  · exact .inl he
  · refine .inr fun h ns j d => ?_
    rw [lastStored_snoc]
    split
    · exact absurd ⟨_, _, rfl⟩ he
    · rfl

/-- Whether a session was stored last does not depend on the order of independent interactions. -/
theorem lastStored_swap {e f : Ev} (h : Indep e f) (h1 h2 : List Ev) (ns j d) :
    lastStored (h1 ++ e :: f :: h2) ns j d = lastStored (h1 ++ f :: e :: h2) ns j d := by
  have key : lastStored (h1 ++ [e] ++ [f]) ns j d = lastStored (h1 ++ [f] ++ [e]) ns j d := by
    rcases stores_or e with ⟨ns1, s1, rfl⟩ | he
    · rcases stores_or f with ⟨ns2, s2, rfl⟩ | hf
      · have hne := h _ rfl
        simp only [lastStored_snoc]
        by_cases c1 : ns1 = ns ∧ s1.bareJid = j ∧ s1.deviceId = d <;> by_cases c2 : ns2 = ns ∧ s2.bareJid = j ∧ s2.deviceId = d
        · refine absurd ?_ hne
          show some (s2.bareJid, s2.deviceId) = some (s1.bareJid, s1.deviceId)
          rw [c1.2.1, c1.2.2, c2.2.1, c2.2.2]
        all_goals simp only [c1, c2, if_true, if_false, and_self]
      · rw [hf, lastStored_snoc, lastStored_snoc]
        simp only [hf]
    · rw [he]
      rcases stores_or f with ⟨ns2, s2, rfl⟩ | hf
      · rw [lastStored_snoc (h1 ++ [e]), lastStored_snoc h1 ⟨.storeSession ns2 s2, .ok ()⟩]
        simp only [he]
      · rw [hf, hf, he]
  have app : ∀ (g k : List Ev), lastStored (g ++ k) ns j d = k.foldl (fun o e => match e with
      | ⟨.storeSession ns' s, .ok ()⟩ => if ns' = ns ∧ s.bareJid = j ∧ s.deviceId = d then some s else o
      | _ => o) (lastStored g ns j d) := fun g k => List.foldl_append
  rw [show h1 ++ e :: f :: h2 = (h1 ++ [e] ++ [f]) ++ h2 by simp, show h1 ++ f :: e :: h2 = (h1 ++ [f] ++ [e]) ++ h2 by simp, app _ h2, app _ h2, key]

theorem ratchets_congr {h h' : List Ev} {e : Ev} (hm : ∀ x, x ∈ h' → x ∈ h) (hl : ∀ ns j d s, Latest h ns j d s → e = ⟨.loadSession ns j d, .ok (some s)⟩ → Latest h' ns j d s)
    (hr : Ratchets h e) : Ratchets h' e := by
  have un : ∀ {s}, Unused h s → Unused h' s := fun hu x hx => hu x (hm x hx)
  have kn : ∀ {k}, KeyNew h k → KeyNew h' k := fun hu x hx => hu x (hm x hx)
  refine ⟨fun ns j d s he => hl _ _ _ _ (hr.load ns j d s he) he, hr.addressed, fun ns s m k s' he => ?_, fun ns s k m s' he => un (hr.decrypt ns s k m s' he),
    fun ns j d b m s k he => ⟨un (hr.active ns j d b m s k he).1, kn (hr.active ns j d b m s k he).2⟩,
    fun ns j d x k s m he => un (hr.passive ns j d x k s m he)⟩
  obtain ⟨h1, h2⟩ := hr.encrypt ns s m k s' he
  refine ⟨fun x hx => h1 x ?_, kn h2⟩
  rcases List.mem_append.1 hx with hx | hx
  · exact List.mem_append_left _ (hm x hx)
  · exact List.mem_append_right _ hx

/-- What backends do does not depend on the order of independent interactions. -/
theorem ratchets_after {h : List Ev} {e f : Ev} (hi : Indep e f) (he : Ratchets h e) (hf : Ratchets (h ++ [e]) f) (hfe : Faithful e) :
    Ratchets (h ++ [f]) e := by
  have hkn : ∀ {k s}, Gives e k s → KeyNew h k → KeyNew (h ++ [f]) k := by
    intro k s hg hk x hx s' hg'
    rcases List.mem_append.1 hx with hx | hx
    · exact hk x hx s' hg'
    · cases List.mem_singleton.1 hx
      exact (gives_new hf hg') e (by simp) s hg
  have hun : ∀ {s}, Op.device e.1 = some (s.bareJid, s.deviceId) → Unused h s → Unused (h ++ [f]) s := by
    intro s hd hu x hx ns m hh
    rcases List.mem_append.1 hx with hx | hx
    · exact hu x hx ns m hh
    · cases List.mem_singleton.1 hx
      refine hi _ hd ?_
      rw [hh]
      rfl
  refine ⟨?_, he.addressed, ?_, ?_, ?_, ?_⟩
  · rintro ns j d s rfl
    have := latest_iff.1 (he.load ns j d s rfl)
    rw [latest_iff, lastStored_snoc]
    split
    · rename_i ns' s'
      split
      · rename_i hh
        obtain ⟨-, rfl, rfl⟩ := hh
        exact absurd rfl (hi _ rfl)
      · exact this
    · exact this
  · rintro ns s m k s' rfl
    obtain ⟨h1, h2⟩ := he.encrypt ns s m k s' rfl
    have ha := he.addressed.encrypt _ _ _ _ _ (List.mem_singleton.2 rfl)
    refine ⟨fun x hx => ?_, hkn (.inr ⟨_, _, _, rfl⟩) h2⟩
    simp only [List.append_assoc, List.mem_append, List.mem_singleton] at hx
    rcases hx with hx | rfl | rfl
    · exact h1 x (by simp [hx])
    · exact hun (s := s') (by rw [ha.1.1, ha.1.2]; rfl) (fun y hy => h1 y (by simp [hy])) x (by simp)
    · exact h1 _ (by simp)
  · rintro ns s k m s' rfl
    have ha := hfe.decrypt _ _ _ _ _ rfl
    exact hun (by rw [ha.1, ha.2]; rfl) (he.decrypt _ _ _ _ _ rfl)
  · rintro ns j d b m s k rfl
    obtain ⟨h1, h2⟩ := he.active _ _ _ _ _ _ _ rfl
    have ha := he.addressed.build _ _ _ _ _ _ _ (List.mem_singleton.2 rfl)
    exact ⟨hun (by rw [ha.1.1, ha.1.2]; rfl) h1, hkn (.inl ⟨_, _, _, _, _, rfl⟩) h2⟩
  · rintro ns j d x k s m rfl
    have ha := hfe.passive _ _ _ _ _ _ _ rfl
    exact hun (by rw [ha.1, ha.2]; rfl) (he.passive _ _ _ _ _ _ _ rfl)

theorem guarded_swap {h1 h2 : List Ev} {e f : Ev} (hi : Indep e f) (hfe : Faithful e) (hg : Guarded Ratchets (h1 ++ e :: f :: h2)) :
    Guarded Ratchets (h1 ++ f :: e :: h2) := by
  have ge := hg h1 e (f :: h2) rfl
  have gf := hg (h1 ++ [e]) f h2 (by simp)
  intro g1 x g2 hx
  rcases List.append_eq_append_iff.1 hx with ⟨a, rfl, ha⟩ | ⟨a, rfl, ha⟩
  · -- `x` is at or after the swapped pair
    cases a with
    | nil =>
      simp only [List.nil_append, List.cons.injEq] at ha
      obtain ⟨rfl, rfl⟩ := ha
      rw [List.append_nil]
      refine ratchets_congr (h := h1 ++ [e]) (fun x hx => by simp [hx]) (fun ns j d s hl hf => ?_) gf
      rw [latest_iff, lastStored_snoc] at hl
      rw [latest_iff]
      split at hl
      · rename_i ns' s'
        split at hl
        · rename_i hh
          obtain ⟨-, rfl, rfl⟩ := hh
          subst hf
          exact absurd rfl (hi _ rfl)
        · exact hl
      · exact hl
    | cons y a =>
      simp only [List.cons_append, List.cons.injEq] at ha
      obtain ⟨rfl, ha⟩ := ha
      cases a with
      | nil =>
        simp only [List.nil_append, List.cons.injEq] at ha
        obtain ⟨rfl, rfl⟩ := ha
        exact ratchets_after hi ge gf hfe
      | cons y a =>
        simp only [List.cons_append, List.cons.injEq] at ha
        obtain ⟨rfl, rfl⟩ := ha
        refine ratchets_congr (h := h1 ++ e :: f :: a) (fun x hx => ?_) (fun ns j d s hl _ => ?_) (hg (h1 ++ e :: f :: a) x g2 (by simp))
        · simp only [List.mem_append, List.mem_cons] at hx ⊢
          rcases hx with h | h | h | h
          · exact .inl h
          · exact .inr (.inr (.inl h))
          · exact .inr (.inl h)
          · exact .inr (.inr (.inr h))
        · rw [latest_iff] at hl ⊢
          rw [← lastStored_swap hi]
          exact hl
  · cases a with
    | nil =>
      simp only [List.nil_append, List.cons.injEq] at ha
      obtain ⟨rfl, rfl⟩ := ha
      rw [List.append_nil] at hg ge gf hx
      refine ratchets_congr (h := g1 ++ [e]) (fun x hx => by simp [hx]) (fun ns j d s hl hf => ?_) gf
      rw [latest_iff, lastStored_snoc] at hl
      rw [latest_iff]
      split at hl
      · rename_i ns' s'
        split at hl
        · rename_i hh
          obtain ⟨-, rfl, rfl⟩ := hh
          subst hf
          exact absurd rfl (hi _ rfl)
        · exact hl
      · exact hl
    | cons y a =>
      simp only [List.cons_append, List.cons.injEq] at ha
      obtain ⟨rfl, rfl⟩ := ha
      exact hg g1 x (a ++ e :: f :: h2) (by simp)

theorem guarded_swaps {t u : List Ev} (h : List Ev) (hs : Swaps Indep t u) (hf : ∀ e ∈ t, Faithful e) (hg : Guarded Ratchets (h ++ t)) :
    Guarded Ratchets (h ++ u) := by
  induction hs with
  | refl => exact hg
  | swap t1 t2 hi h1 h2 =>
    subst h1 h2
    rw [← List.append_assoc] at hg ⊢
    exact guarded_swap hi (hf _ (by simp)) hg
  | trans h1 _ i1 i2 => exact i2 (fun e he => hf e ((h1.mem_iff e).2 he)) (i1 hf hg)

theorem talk_parts {parts : List (List Ev × List EncKM)} (hp : ∀ p ∈ parts, Part p.1 p.2) {h : List Ev} {L : List EncKM} (ht : Talk StoresSent h L) :
    Talk StoresSent (h ++ (parts.map (·.1)).flatten) (L ++ (parts.map (·.2)).flatten) := by
  induction parts generalizing h L with
  | nil => simpa using ht
  | cons p parts ih =>
    rw [List.map_cons, List.map_cons, List.flatten_cons, List.flatten_cons, ← List.append_assoc, ← List.append_assoc]
    refine ih (fun q hq => hp q (.tail _ hq)) ?_
    have hpart := hp _ List.mem_cons_self
    obtain ⟨t, K⟩ := p
    simp only at hpart ⊢
    generalize t = t, K = K at hpart
    cases hpart with
    | call h1 h2 h3 h4 => exact .call ht h1 h2 h3 h4
    | encrypt h1 h2 h3 => exact .encrypt ht h1 h2 h3

end Ratchet

/-- C87 holds if no two of the overlapping calls work with sessions of the same device.  Missing: calls that do. -/
theorem C87_partial (h : List Ev) (L : List EncKM) (parts : List (List Ev × List EncKM)) (t : List Ev) (ht : Talk StoresSent h L)
    (hp : ∀ p ∈ parts, Part p.1 p.2) (hs : Shuffle (parts.map (·.1)) t) (hg : Guarded Ratchets (h ++ t)) (hf : ∀ e ∈ t, Faithful e)
    (hd : parts.Pairwise fun p q => ∀ x, WorksWith p.1 x → ¬ WorksWith q.1 x) : OneUse (h ++ t) (L ++ (parts.map (·.2)).flatten) := by
  have hsw : Swaps Ratchet.Indep t (parts.map (·.1)).flatten := by
    refine hs.swaps ?_ fun _ _ => Ratchet.Indep.symm
    rw [List.pairwise_map]
    exact hd.imp fun hpq a ha b hb x h1 h2 => hpq x ⟨a, ha, h1⟩ ⟨b, hb, h2⟩
  have hg' := Ratchet.guarded_swaps h hsw hf hg
  have hone := C77_partial _ _ (Ratchet.talk_parts hp ht) hg'
  refine ((hsw.symm fun _ _ => Ratchet.Indep.symm).append h).pairwise ?_ hone
  rintro a b hi ns s m1 k1 s1 m2 k2 s2 rfl rfl
  exact absurd rfl (hi _ rfl)

namespace Ratchet

/-- The events are those of faithful backends. -/
def faithfulB : Ev → Bool
  | ⟨.decryptKM _ s _, .ok (_, s')⟩ => decide (s'.bareJid = s.bareJid ∧ s'.deviceId = s.deviceId)
  | ⟨.buildPassive _ j d _ _, .ok (s, _)⟩ => decide (s.bareJid = j ∧ s.deviceId = d)
  | _ => true

theorem faithful_of {t : List Ev} (h : t.all faithfulB = true) : ∀ e ∈ t, Faithful e := fun e he => by
  have hb := List.all_eq_true.1 h e he
  refine ⟨?_, ?_⟩
  · rintro ns s k m s' rfl
    simpa [faithfulB] using hb
  · rintro ns j d x k s m rfl
    simpa [faithfulB] using hb

/-- After the story, two messages for "a" are encrypted at the same time. -/
def twice := sched (Lib.env ratcheting) Lib.next ((List.replicate 42 [0, 1]).flatten)
  [SM.encrypt Mgr.ex ["a"] [("n", [1]), ("o", [1, 2])] none none, SM.encrypt Mgr.ex ["a"] [("n", [3]), ("o", [4])] none none] (answered 200).2.2

end Ratchet

/-- The full statement of C87 is wrong: two calls of `encrypt` for the same device load the same state of the session, both encrypt with it,
and both messages are sent. -/
theorem C87_refuted : ¬ C87_Claim := by
  intro hc
  have hA : Apart Mgr.ex := fun _ _ => trivial
  have h1 : Talk StoresSent ([] ++ (Ratchet.answered 200).1) ([] ++ sentKeys (Ratchet.answered 200).1) :=
    .call .start hA rfl (runProg_exec ..) (Ratchet.storesSent_of (by decide +kernel) (by decide +kernel))
  have hx := sched_ok (⟨fun _ _ => True, Lib.next⟩ : Sem LibSig Exn World) (Lib.env Ratchet.ratcheting) (fun _ _ => trivial) ((List.replicate 42 [0, 1]).flatten)
    [SM.encrypt Mgr.ex ["a"] [("n", [1]), ("o", [1, 2])] none none, SM.encrypt Mgr.ex ["a"] [("n", [3]), ("o", [4])] none none] (Ratchet.answered 200).2.2
  change SchedOk _ _ _ Ratchet.twice at hx
  have c1 : Ratchet.twice.2.1[0]?.any (Prog.isOk fun a => decide (⟨"a", 7, 37⟩ ∈ returnedKeys (.ok a))) = true := by decide +kernel
  have c2 : Ratchet.twice.2.1[1]?.any (Prog.isOk fun _ => true) = true := by decide +kernel
  have c3 : (Ratchet.twice.1.all fun t => t.all fun e => match e with
      | ⟨.getBackends, .ok bs⟩ => decide bs.Nodup
      | _ => true) = true := by decide +kernel
  have c4 : Ratchet.twice.2.2.1.all Ratchet.faithfulB = true := by decide +kernel
  have c5 : Ratchet.allOk ([] ++ (Ratchet.answered 200).1 ++ Ratchet.twice.2.2.1) = true := by decide +kernel
  have c6 : ∃ m1 s1 m2 k2 s2, ([] ++ (Ratchet.answered 200).1 ++ Ratchet.twice.2.2.1)[100]? =
        some ⟨.encryptKM "n" ⟨"n", "a", 7, .passive, true, ⟨[7], 0⟩, some 1, 1, 12⟩ m1, .ok (⟨"a", 7, 37⟩, s1)⟩ ∧
      ([] ++ (Ratchet.answered 200).1 ++ Ratchet.twice.2.2.1)[101]? =
        some ⟨.encryptKM "n" ⟨"n", "a", 7, .passive, true, ⟨[7], 0⟩, some 1, 1, 12⟩ m2, .ok (k2, s2)⟩ := ⟨_, _, _, _, _, rfl, rfl⟩
  generalize Ratchet.twice = x at hx c1 c2 c3 c4 c5 c6
  obtain ⟨ts, y, t, w'⟩ := x
  obtain ⟨t1, t2, rfl⟩ := list2 (l := ts) hx.len
  obtain ⟨a1, e1, ha1⟩ := hx.isOk 0 rfl rfl _ c1
  obtain ⟨a2, e2, -⟩ := hx.isOk 1 rfl rfl _ c2
  simp only [List.all_cons, Bool.and_eq_true] at c3
  have h2 := hc _ _ [(t1, returnedKeys (.ok a1)), (t2, returnedKeys (.ok a2))] t h1 (by
    simp only [List.mem_cons, List.not_mem_nil, or_false]
    rintro p (rfl | rfl)
    · exact .encrypt hA e1 (Ratchet.once_of_all c3.1)
    · exact .encrypt hA e2 (Ratchet.once_of_all c3.2.1)) hx.shuffle (Ratchet.guarded_of_allOk c5) (Ratchet.faithful_of c4)
  obtain ⟨m1, s1, m2, k2, s2, g1, g2⟩ := c6
  obtain ⟨l1, g1⟩ := List.getElem?_eq_some_iff.1 g1
  obtain ⟨l2, g2⟩ := List.getElem?_eq_some_iff.1 g2
  have h3 := List.pairwise_iff_getElem.1 h2 100 101 l1 l2 (by decide) _ _ _ _ _ _ _ _ g1 g2
  exact h3 (by simpa using .inr (.inl (of_decide_eq_true ha1)))

/-! ### The devices a call works with -/

namespace Spec

/-- The devices whose sessions a call is about. -/
def PartnerOf (M : Mgr) : Call → Jid × DevId → Prop
  | .decrypt msg, x => x = (msg.bareJid, msg.deviceId)
  | .replaceSessions jid d, x => x = (jid, d)
  | .getSendingChainLength dev, x => x = (dev.bareJid, dev.deviceId)
  | .encrypt jids _ _ _, x => x.1 ∈ jids ∨ x.1 = M.ownJid
  | .afterHistorySync, _ => True
  | _, _ => False

/-- The trust decision callback does not work with sessions. -/
def Sessionless (M : Mgr) : Prop := ∀ ds i, AllOps (fun o => Op.device o = none) (M.decide ds i)

/-- Backends return sessions for the right device. -/
def Right (e : Ev) : Prop := Addressed [e] ∧ Faithful e

end Spec

namespace Cmt
variable {ψ : Ev → Prop} {φ : Op → Prop} {α β : Type}

theorem Stay.fold {Q : β → Prop} {f : β → α → P β} {xs : List α} {b : β} (hb : Q b) (hf : ∀ b x, x ∈ xs → Q b → Stay ψ φ Q (f b x)) :
    Stay ψ φ Q (Prog.fold xs b f) := by
  induction xs generalizing b with
  | nil => exact .pure hb
  | cons x xs ih => exact Stay.bind (hf b x List.mem_cons_self hb) fun b' hb' => ih hb' fun b y hy => hf b y (.tail _ hy)

theorem Stay.forEach {f : α → P Unit} {xs : List α} (hf : ∀ x ∈ xs, Stay ψ φ (fun _ => True) (f x)) :
    Stay ψ φ (fun _ => True) (Prog.forEach xs f) := by
  induction xs with
  | nil => exact .pure trivial
  | cons x xs ih => exact Stay.bind (hf x List.mem_cons_self) fun _ _ => ih fun y hy => hf y (.tail _ hy)

theorem Stay.tryElse {p : P α} {h : Exn → P β} {f : α → P β} {Q : α → Prop} {R : β → Prop} (hp : Stay ψ φ Q p) (hh : ∀ e, Stay ψ φ R (h e))
    (hf : ∀ a, Q a → Stay ψ φ R (f a)) : Stay ψ φ R (p.tryElse h f) := by
  intro t r he ht
  rcases exec_tryElse_iff.1 he with ⟨t1, a, t2, rfl, h1, h2⟩ | ⟨t1, y, t2, rfl, h1, h2⟩ | ⟨h1, rfl⟩
  · obtain ⟨g1, g2⟩ := hp _ _ h1 fun e hm => ht e (List.mem_append_left _ hm)
    obtain ⟨g3, g4⟩ := hf a (g2 a rfl) _ _ h2 fun e hm => ht e (List.mem_append_right _ hm)
    exact ⟨fun e hm => (List.mem_append.1 hm).elim (g1 e) (g3 e), g4⟩
  · have g1 := (hp _ _ h1 fun e hm => ht e (List.mem_append_left _ hm)).1
    obtain ⟨g3, g4⟩ := hh y _ _ h2 fun e hm => ht e (List.mem_append_right _ hm)
    exact ⟨fun e hm => (List.mem_append.1 hm).elim (g1 e) (g3 e), g4⟩
  · exact ⟨(hp _ _ h1 ht).1, nofun⟩

/-- What is known about the result anyway. -/
theorem Stay.also {p : P α} {Q R : α → Prop} (hp : Stay ψ φ Q p) (hr : ∀ t a, Exec p t (.ok a) → R a) : Stay ψ φ (fun a => Q a ∧ R a) p :=
  fun t r he ht => ⟨(hp t r he ht).1, fun a ha => ⟨(hp t r he ht).2 a ha, hr t a (ha ▸ he)⟩⟩

/-- About sessions of devices in `J` only. -/
def With (J : Jid × DevId → Prop) (o : Op) : Prop := ∀ x, Op.device o = some x → J x

theorem With.none {J} {o : Op} (h : Op.device o = .none) : With J o := fun x hx => by rw [h] at hx; cases hx

theorem With.some {J} {o : Op} {x} (h : Op.device o = .some x) (hx : J x) : With J o := fun y hy => by rw [h] at hy; cases hy; exact hx

theorem stay_none {J} {p : P α} (h : AllOps (fun o => Op.device o = .none) p) : Stay ψ (With J) (fun _ => True) p :=
  .of_ops (h.mono fun _ => With.none)

section
variable {M : Mgr} {J : Jid × DevId → Prop}

/-- The session is for a device in `J`. -/
abbrev For (J : Jid × DevId → Prop) (s : Session) : Prop := J (s.bareJid, s.deviceId)

theorem right_load {ns j d s} (h : Right ⟨.loadSession ns j d, .ok (some s)⟩) : s.bareJid = j ∧ s.deviceId = d := h.1.load _ _ _ _ (List.mem_singleton.2 rfl)

theorem stay_load {ns j d} (h : J (j, d)) : Stay Right (With J) (fun s => ∀ x, s = some x → For J x) (call (.loadSession ns j d)) :=
  Stay.call (o := .loadSession ns j d) (Q := fun s => ∀ x, s = some x → For J x) (With.some rfl h) fun a ha x hx => by
    subst hx
    obtain ⟨h1, h2⟩ := right_load ha
    simpa [For, h1, h2] using h

theorem stay_encryptKM {ns s m} (h : For J s) : Stay Right (With J) (fun x => For J x.2) (call (.encryptKM ns s m)) :=
  Stay.call (o := .encryptKM ns s m) (Q := fun x => For J x.2) (With.some rfl h) fun a ha => by
    have h1 := (ha.1.encrypt _ _ _ _ _ (List.mem_singleton.2 rfl)).1
    simpa [For, h1.1, h1.2] using h

theorem stay_decryptKM {ns s e} (h : For J s) : Stay Right (With J) (fun x => For J x.2) (call (.decryptKM ns s e)) :=
  Stay.call (o := .decryptKM ns s e) (Q := fun x => For J x.2) (With.some rfl h) fun a ha => by
    have h1 := ha.2.decrypt _ _ _ _ _ rfl
    simpa [For, h1.1, h1.2] using h

theorem stay_buildActive {ns j d b m} (h : J (j, d)) : Stay Right (With J) (fun x => For J x.1) (call (.buildActive ns j d b m)) :=
  Stay.call (o := .buildActive ns j d b m) (Q := fun x => For J x.1) (With.some rfl h) fun a ha => by
    have h1 := (ha.1.build _ _ _ _ _ _ _ (List.mem_singleton.2 rfl)).1
    simpa [For, h1.1, h1.2] using h

theorem stay_buildPassive {ns j d k e} (h : J (j, d)) : Stay Right (With J) (fun x => For J x.1) (call (.buildPassive ns j d k e)) :=
  Stay.call (o := .buildPassive ns j d k e) (Q := fun x => For J x.1) (With.some rfl h) fun a ha => by
    have h1 := ha.2.passive _ _ _ _ _ _ _ rfl
    simpa [For, h1.1, h1.2] using h

theorem stay_throw {α : Type} {Q : α → Prop} (e : Exn) : Stay ψ φ Q (throwE e) := fun t r he _ => by
  obtain ⟨rfl, rfl⟩ := exec_throw.1 he
  exact ⟨fun _ hm => absurd hm List.not_mem_nil, fun _ h => by cases h⟩

theorem stay_store {ns s} (h : For J s) : Stay ψ (With J) (fun _ => True) (call (.storeSession ns s)) :=
  Stay.call (o := .storeSession ns s) (With.some rfl h) fun _ _ => trivial

theorem stay_send (ns : Ns) {s : Session} (h : For J s) : Stay Right (With J) (fun _ => True) (sendEmptyMessage M ns s) := by
  unfold sendEmptyMessage
  refine (stay_none (.perform rfl)).bind fun x _ => ?_
  obtain ⟨content, km⟩ := x
  refine (stay_encryptKM h).bind fun x hx => ?_
  obtain ⟨ekm, s'⟩ := x
  refine (stay_none (.perform rfl)).bind fun _ _ => ?_
  exact stay_store hx

theorem stay_keyMaterial {msg : Message} {dev : DeviceInfo} (h : J (dev.bareJid, dev.deviceId)) (ekm kex) :
    Stay Right (With J) (fun x => For J x.1) (keyMaterial M msg dev ekm kex) := by
  have hdec : ∀ {s : Session} {ns}, For J s → Stay Right (With J) (fun x : Session × PlainKM => For J x.1) (do
      let (km, session) ← call (.decryptKM ns s ekm)
      pure (session, km)) := fun {s ns} hs => by
    exact (stay_decryptKM hs).bind fun x hx => .pure hx
  unfold keyMaterial
  split
  · unfold decryptKeyMaterial
    refine (stay_load h).bind fun s hs => ?_
    split
    · exact stay_throw _
    · exact hdec (hs _ rfl)
  · rename_i kex'
    unfold handleKeyExchange
    split
    · exact stay_throw _
    · refine (stay_load h).bind fun s hs => ?_
      split
      · exact stay_buildPassive h
      · rename_i s' hf
        have : s = some s' := by
          cases s with
          | none => cases hf
          | some s0 =>
            simp only [Option.filter] at hf
            split at hf
            · exact hf
            · cases hf
        exact hdec (hs _ this)

theorem none_info (M : Mgr) (jid : Jid) : AllOps (fun o => Op.device o = none) (getDeviceInformation M jid) :=
  (ops_getDeviceInformation M jid).mono fun _ h => by cases h <;> rfl

theorem none_refresh (M : Mgr) (ns : Ns) (jid : Jid) : AllOps (fun o => Op.device o = none) (refreshDeviceList M ns jid) :=
  (ops_refreshDeviceList M ns jid).mono fun _ h => by
    cases h with
    | download => rfl
    | update h => cases h <;> rfl

theorem none_find (M : Mgr) (msg : Message) : AllOps (fun o => Op.device o = none) (findSender M msg) := by
  have h1 := none_info M msg.bareJid
  have h2 := none_refresh M msg.ns msg.bareJid
  unfold findSender
  lib_ops []

theorem partner_decrypt (msg : Message) : Stay Right (With fun x => x = (msg.bareJid, msg.deviceId)) (fun _ => True) (decrypt M msg) := by
  unfold decrypt
  refine (stay_none (.perform rfl)).bind fun bs _ => ?_
  split
  · exact .of_ops trivial
  · split
    · exact .of_ops trivial
    · refine ((stay_none (none_find M msg)).also (R := fun dev => dev.bareJid = msg.bareJid ∧ dev.deviceId = msg.deviceId) fun t dev he => ?_).bind
        fun dev hdev => ?_
      · have := exec_findSender he
        exact ⟨this.bareJid, this.deviceId⟩
      · rename_i ekm kex _
        refine Stay.bind (Q := fun x => For (fun x => x = (msg.bareJid, msg.deviceId)) x.2.1) ?_ fun x hx => ?_
        · unfold decryptContent
          refine (stay_none (.perform rfl)).bind fun level _ => ?_
          split
          · exact stay_throw _
          · refine (stay_keyMaterial (by rw [hdev.2.1, hdev.2.2]) ekm kex).bind fun x hx => ?_
            obtain ⟨s, km⟩ := x
            refine Stay.bind (Q := fun _ => True) (stay_none ?_) fun pt _ => .pure hx
            unfold plaintextOf
            lib_ops []
        · obtain ⟨pt, s, km⟩ := x
          refine Stay.bind (Q := fun _ => True) ?_ fun _ _ => .of_ops trivial
          unfold postDecrypt
          refine (stay_store hx).bind fun _ _ => ?_
          refine Stay.bind (Q := fun _ => True) (stay_none (.when fun _ => ?_)) fun _ _ => ?_
          · unfold consumePreKey discardPreKey refillPreKeys
            lib_ops []
          · unfold autoReply
            refine .when fun _ => ?_
            refine (stay_none (.perform rfl)).bind fun b _ => ?_
            split
            · refine stay_none ?_
              unfold queueEmpty
              lib_ops []
            · exact stay_send _ hx

theorem partner_replace (jid : Jid) (d : DevId) : Stay Right (With fun x => x = (jid, d)) (fun _ => True) (replaceSessions M jid d) := by
  unfold replaceSessions
  refine ((stay_none (none_info M jid)).also (R := fun ds => ∀ dev ∈ ds, dev.bareJid = jid) fun t ds he => ?_).bind fun ds hds => ?_
  · obtain ⟨c, h⟩ := exec_getDeviceInformation he
    exact h.bareJid
  refine Stay.bind (Q := fun dev => dev.bareJid = jid ∧ dev.deviceId = d) ?_ fun dev hdev => ?_
  · intro t r he _
    cases hf : (M.O.iter ds).find? fun dev => decide (dev.deviceId = d) with
    | none =>
      rw [hf] at he
      cases he
      exact ⟨fun _ hm => absurd hm List.not_mem_nil, fun _ h => by cases h⟩
    | some dev =>
      rw [hf] at he
      cases he
      refine ⟨fun _ hm => absurd hm List.not_mem_nil, fun a h => ?_⟩
      cases h
      have h1 := List.mem_of_find?_eq_some hf
      have h2 := List.find?_some hf
      exact ⟨hds.2 _ (by simpa using h1), of_decide_eq_true h2⟩
  · refine (stay_none (.perform rfl)).bind fun bs _ => ?_
    refine Stay.bind (Q := fun _ => True) (.of_ops ?_) fun ws _ => ?_
    · have : ∀ ns, With (fun x => x = (jid, d)) (.loadSession ns dev.bareJid dev.deviceId) := fun ns => .some rfl (by rw [hdev.1, hdev.2])
      generalize hφ : With (fun x => x = (jid, d)) = φ at *
      lib_ops []
      exact this _
    refine (stay_none (.perform rfl)).bind fun bs' _ => ?_
    refine .fold trivial fun b ns _ _ => ?_
    split
    · refine .tryElse (Q := fun _ => True) ?_ (fun e => ?_) fun _ _ => .of_ops trivial
      · unfold replaceSession
        refine (stay_none (.perform rfl)).bind fun x _ => ?_
        obtain ⟨content, km⟩ := x
        refine (stay_none (.perform rfl)).bind fun bundle _ => ?_
        refine (stay_buildActive (by rw [hdev.1, hdev.2])).bind fun x hx => ?_
        obtain ⟨s, ekm⟩ := x
        refine (stay_none (.perform rfl)).bind fun _ _ => ?_
        exact stay_store hx
      · split <;> exact .of_ops trivial
    · exact .of_ops trivial

/-! encrypt -/

theorem of_iter {M : Mgr} {K : Jid → Prop} {ds : List DeviceInfo} (h : Of K ds) : Of K (M.O.iter ds) := fun dev hm => h dev (by simpa using hm)

theorem partner_trust {K : Jid → Prop} (level) {ds : List DeviceInfo} (h : Of K ds) : Stay ψ (With J) (Of K) (devicesWithTrust level ds) := by
  have hops : AllOps (fun o => Op.device o = none) (devicesWithTrust level ds) := by
    unfold devicesWithTrust
    lib_ops []
  intro t r he ht
  refine ⟨fun e hm => With.none (hops.exec he e hm), ?_⟩
  rintro a rfl dev hd
  exact h dev (exec_filterAll_mem he dev hd)

theorem partner_decide {K : Jid → Prop} (hd : Sessionless M) {ds : List DeviceInfo} (h : Of K ds) (i) :
    Stay ψ (With J) (Of K) (decideTrust M ds i) := by
  unfold decideTrust
  refine (partner_trust _ (of_iter h)).bind fun us _ => ?_
  refine Stay.bind (Q := Of K) ?_ fun ds' hds' => ?_
  · unfold askTrust
    split
    · refine (stay_none (hd us i)).bind fun _ _ => ?_
      refine Stay.bind (Q := Of K) ?_ fun a ha => .pure fun dev hdev => ha dev (by simpa using hdev)
      have hops : AllOps (fun o => Op.device o = none) (Prog.mapAll (M.O.iter ds) (reloadTrust M)) := by
        unfold reloadTrust
        lib_ops []
      intro t r he _
      refine ⟨fun e hm => With.none (hops.exec he e hm), ?_⟩
      rintro a rfl dev hdev
      obtain ⟨src, hsrc, t', h'⟩ := exec_mapAll_mem he dev hdev
      unfold reloadTrust at h'
      obtain ⟨_, _, _, _, _, h''⟩ := exec_seq_ok.1 h'
      cases h''
      exact h src (by simpa using hsrc)
    · exact .pure h
  · refine (partner_trust _ (of_iter hds')).bind fun still _ => ?_
    split
    · exact stay_throw _
    · exact .pure hds'

theorem partner_encryptDevice {ns cache km} {dev : DeviceInfo} (h : J (dev.bareJid, dev.deviceId)) {K : Jid → Prop} {st : EncState} (h1 : Of K st.devices)
    (h2 : ∀ x ∈ st.sessions, For J x.2) :
    Stay Right (With J) (fun st => Of K st.devices ∧ ∀ x ∈ st.sessions, For J x.2) (encryptDevice M ns cache km st dev) := by
  unfold encryptDevice
  refine (stay_load h).bind fun s hs => ?_
  refine .tryElse (Q := fun x => For J x.1) ?_ (fun e => ?_) fun x hx => ?_
  · unfold encryptForDevice
    split
    · refine (stay_none (by unfold bundleFor; lib_ops [])).bind fun b _ => ?_
      exact stay_buildActive h
    · refine (stay_encryptKM (hs _ rfl)).bind fun x hx => .pure hx
  · split
    · exact .pure ⟨fun d hd => h1 d (mem_setDiff.1 hd).1, h2⟩
    · exact stay_throw _
  · obtain ⟨s', ekm⟩ := x
    refine .pure ⟨h1, fun x hm => ?_⟩
    simp only [List.mem_append, List.mem_singleton] at hm
    rcases hm with hm | rfl
    · exact h2 x hm
    · exact hx

theorem partner_encrypt (hd : Sessionless M) (jids pt prio i) :
    Stay Right (With fun x => x.1 ∈ jids ∨ x.1 = M.ownJid) (fun _ => True) (encrypt M jids pt prio i) := by
  have mem : ∀ j, j ∈ setUnion jids [M.ownJid] → j ∈ jids ∨ j = M.ownJid := fun j h => by simpa [mem_setUnion] using h
  unfold encrypt
  refine (stay_none (.perform rfl)).bind fun bs _ => ?_
  refine (stay_none (allOps_liftE _)).bind fun order _ => ?_
  refine ((stay_none ?_).also (R := fun x => Of (fun j => j ∈ jids ∨ j = M.ownJid) x.1) fun t x he dev hdev =>
    mem _ (jids_of_recipients (nodup_dedup _) he dev hdev)).bind fun x hx => ?_
  · unfold recipientDevices
    refine .bind (.mapAll fun j hj => (ops_getDeviceInformation' M j).mono fun _ h => by cases h <;> rfl) fun _ => ?_
    lib_ops []
  obtain ⟨devices, cache⟩ := x
  refine (partner_decide hd hx.2 i).bind fun ds hds => ?_
  unfold encryptTrusted
  refine (partner_trust _ (of_iter hds)).bind fun ds' hds' => ?_
  refine (stay_none (.perform rfl)).bind fun bs' _ => ?_
  refine Stay.bind (Q := fun st : EncAll => Of (fun j => j ∈ jids ∨ j = M.ownJid) st.devices ∧
      ∀ x ∈ st.sessions, For (fun x => x.1 ∈ jids ∨ x.1 = M.ownJid) x.2) ?_ fun st hst => ?_
  · refine .fold ⟨hds', fun _ hm => absurd hm List.not_mem_nil⟩ fun st ns _ hst => ?_
    unfold encryptBackend
    dsimp only
    split
    · exact .pure hst
    · split
      · exact stay_throw _
      · refine (stay_none (.perform rfl)).bind fun x _ => ?_
        obtain ⟨content, km⟩ := x
        refine Stay.bind (Q := fun st : EncState => Of (fun j => j ∈ jids ∨ j = M.ownJid) st.devices ∧
          ∀ x ∈ st.sessions, For (fun x => x.1 ∈ jids ∨ x.1 = M.ownJid) x.2) ?_ fun st' hst' => .pure hst'
        refine .fold hst fun b dev hdev hb => partner_encryptDevice ?_ hb.1 hb.2
        exact hst.1 dev (List.mem_filter.1 ((SetOrder.mem_iter (O := M.O)).1 hdev)).1
  · dsimp only
    split
    · exact stay_throw _
    · refine Stay.bind (Q := fun _ => True) (.forEach fun x hx => ?_) fun _ _ => .of_ops trivial
      exact stay_store (hst.2 x (by simpa using hx))

theorem partner_call (hd : Sessionless M) (c : Call) : Stay Right (With (PartnerOf M c)) (fun _ => True) (c.run M) := by
  have hpb : ∀ M ns o, Foot.PurgeBackend M ns o → Op.device o = none := fun M ns o h => by
    cases h with
    | info h => cases h <;> rfl
    | _ => rfl
  have hrf : ∀ M ns j o, Foot.Refresh M ns j o → Op.device o = none := fun M ns j o h => by
    cases h with
    | download => rfl
    | update h => cases h <;> rfl
  have hin : ∀ j o, Foot.Info j o → Op.device o = none := fun j o h => by cases h <;> rfl
  have drop : ∀ {α : Type} {p : P α}, AllOps (fun o => Op.device o = none) p → AllOps (fun o => Op.device o = none) (p >>= fun _ => pure ()) :=
    fun h => .bind h fun _ => trivial
  have drop' : ∀ {α : Type} {p : P α}, Stay Right (With (PartnerOf M c)) (fun _ => True) p → Stay Right (With (PartnerOf M c)) (fun _ => True) (p >>= fun _ => pure ()) :=
    fun h => h.bind fun _ _ => .of_ops trivial
  cases c with
  | getIdentityKeyPair => exact stay_none (drop (ops_ikp.mono fun o h => by cases h <;> rfl))
  | create bs label fuel =>
    refine stay_none (drop ((ops_create M bs label fuel).mono fun o h => ?_))
    rcases h with h | h
    · cases h <;> rfl
    · cases h with
      | refresh ns d h => exact hrf _ _ _ _ h
      | info h => exact hin _ _ h
      | purge ns d h => exact hpb _ _ _ h
      | _ => rfl
  | purgeBackend ns => exact stay_none ((ops_purgeBackend M ns).mono (hpb M ns))
  | purgeBareJid jid => exact stay_none ((ops_purgeBareJid M jid).mono fun o h => by cases h <;> rfl)
  | ensureDataConsistency =>
    refine stay_none ((ops_ensureDataConsistency M).mono fun o h => ?_)
    cases h with
    | refresh ns h => exact hrf _ _ _ _ h
    | _ => rfl
  | rotation p f r => exact stay_none ((ops_manageRotation M p f r).mono fun o h => by cases h <;> rfl)
  | updateDeviceList ns jid dl => exact stay_none ((ops_updateDeviceList M ns jid dl).mono fun o h => by cases h <;> rfl)
  | refreshDeviceList ns jid => exact stay_none (none_refresh M ns jid)
  | refreshDeviceLists jid =>
    refine stay_none ?_
    unfold Call.run SM.refreshDeviceLists
    lib_ops [none_refresh]
  | setTrust jid ik l =>
    refine stay_none ?_
    unfold Call.run SM.setTrust
    lib_ops []
  | replaceSessions jid d => exact drop' (partner_replace jid d)
  | getSendingChainLength dev =>
    refine drop' (.of_ops ?_)
    have : ∀ ns, With (PartnerOf M (.getSendingChainLength dev)) (.loadSession ns dev.bareJid dev.deviceId) := fun ns => .some rfl rfl
    have h0 : With (PartnerOf M (.getSendingChainLength dev)) .getBackends := .none rfl
    generalize hφ : With (PartnerOf M (.getSendingChainLength dev)) = φ at *
    unfold SM.getSendingChainLength
    lib_ops []
    all_goals exact this _
  | setOwnLabel l => exact stay_none ((ops_setOwnLabel M l).mono fun o h => by cases h <;> rfl)
  | getDeviceInformation jid => exact stay_none (drop (none_info M jid))
  | getOwnDeviceInformation => exact stay_none (drop ((ops_getOwnDeviceInformation M).mono (hin _)))
  | beforeHistorySync =>
    refine stay_none ?_
    unfold Call.run SM.beforeHistorySync
    lib_ops []
  | afterHistorySync => exact fun t r _ _ => ⟨fun _ _ _ _ => trivial, fun _ _ => trivial⟩
  | encrypt jids pt prio i => exact drop' (partner_encrypt hd jids pt prio i)
  | decrypt msg => exact drop' (partner_decrypt msg)

end
end Cmt

/-- The sessions a call works with are those of the devices it is about. -/
theorem C87_devices (M : Mgr) (c : Call) (t : List Ev) (r : Res Exn Unit) (hx : Exec (c.run M) t r) (hd : Sessionless M)
    (hr : ∀ e ∈ t, Addressed [e] ∧ Faithful e) (x : Jid × DevId) (hw : WorksWith t x) : PartnerOf M c x := by
  obtain ⟨e, he, hw⟩ := hw
  exact (Cmt.partner_call hd c t r hx hr).1 e he x hw

namespace Spec

/-- A call, as in `Part`. -/
structure Job where
  M : Mgr
  c : Call
  trace : List Ev
  keys : List EncKM
  did : (∃ r, Call.isEncrypt c = false ∧ Exec (c.run M) trace r ∧ StoresSent trace (r = .crashed) ∧ keys = sentKeys trace) ∨
    ∃ jids pt prio i r, c = .encrypt jids pt prio i ∧ Exec (SM.encrypt M jids pt prio i) trace r ∧ BackendsOnce trace ∧ keys = returnedKeys r

end Spec

/-- C87 for calls that are about sessions of different devices. -/
theorem C87_calls_partial (h : List Ev) (L : List EncKM) (js : List Job) (t : List Ev) (ht : Talk StoresSent h L)
    (hM : ∀ j ∈ js, Apart j.M ∧ Sessionless j.M) (hs : Shuffle (js.map (·.trace)) t) (hg : Guarded Ratchets (h ++ t)) (hf : ∀ e ∈ t, Faithful e)
    (hd : js.Pairwise fun j k => ∀ x, PartnerOf j.M j.c x → ¬ PartnerOf k.M k.c x) : OneUse (h ++ t) (L ++ (js.map (·.keys)).flatten) := by
  have hright : ∀ e ∈ t, Addressed [e] ∧ Faithful e := fun e he => by
    obtain ⟨t1, t2, rfl⟩ := List.append_of_mem he
    exact ⟨(hg (h ++ t1) e t2 (by simp)).addressed, hf e he⟩
  have hwork : ∀ j ∈ js, ∀ x, WorksWith j.trace x → PartnerOf j.M j.c x := fun j hj x hw => by
    have hin : ∀ e ∈ j.trace, Addressed [e] ∧ Faithful e := fun e he => hright e ((hs.mem_iff e).2 ⟨_, List.mem_map_of_mem hj, he⟩)
    rcases j.did with ⟨r, -, hx, -, -⟩ | ⟨jids, pt, prio, i, r, hc, hx, -, -⟩
    · exact C87_devices _ _ _ _ hx (hM j hj).2 hin x hw
    · obtain ⟨e, he, hw⟩ := hw
      rw [hc]
      exact (Cmt.partner_encrypt (hM j hj).2 jids pt prio i _ _ hx hin).1 e he x hw
  have := C87_partial h L (js.map fun j => (j.trace, j.keys)) t ht ?_ (by simpa [List.map_map, Function.comp_def] using hs) hg hf ?_
  · simpa [List.map_map, Function.comp_def] using this
  · intro p hp
    obtain ⟨j, hj, rfl⟩ := List.mem_map.1 hp
    rcases j.did with ⟨r, h1, hx, h2, h3⟩ | ⟨jids, pt, prio, i, r, hc, hx, h2, h3⟩
    · simp only [h3]
      exact .call (hM j hj).1 h1 hx h2
    · simp only [h3]
      exact .encrypt (hM j hj).1 hx h2
  · rw [List.pairwise_map]
    exact hd.imp_of_mem fun hj hk h x h1 h2 => h x (hwork _ hj x h1) (hwork _ hk x h2)

namespace Ratchet

/-- Device 8 of "a" sends a message with a key exchange too. -/
def otherMessage : Message := { kexMessage with deviceId := 8, keys := [(⟨"me", 1, 4⟩, some ⟨[8], 0⟩)] }

/-- Both messages are decrypted at the same time. -/
def both := sched (Lib.env ratcheting) Lib.next ((List.replicate 30 [0, 1]).flatten)
  [(Call.decrypt kexMessage).run Mgr.ex, (Call.decrypt otherMessage).run Mgr.ex] World.chat

end Ratchet

/-- Messages from two devices are decrypted at the same time, and answered: the hypotheses of C87 are met, and two messages leave the device. -/
theorem C87_example : ∃ (js : List Job) (t : List Ev), (∀ j ∈ js, Apart j.M ∧ Sessionless j.M) ∧ Shuffle (js.map (·.trace)) t ∧
    Guarded Ratchets ([] ++ t) ∧ (∀ e ∈ t, Faithful e) ∧ (js.Pairwise fun j k => ∀ x, PartnerOf j.M j.c x → ¬ PartnerOf k.M k.c x) ∧
    (js.map (·.keys)).flatten = [⟨"a", 7, 24⟩, ⟨"a", 8, 25⟩] ∧ ∃ x y, WorksWith t x ∧ WorksWith t y ∧ x ≠ y := by
  have hx := sched_ok (⟨fun _ _ => True, Lib.next⟩ : Sem LibSig Exn World) (Lib.env Ratchet.ratcheting) (fun _ _ => trivial)
    ((List.replicate 30 [0, 1]).flatten) [(Call.decrypt kexMessage).run Mgr.ex, (Call.decrypt Ratchet.otherMessage).run Mgr.ex] World.chat
  change SchedOk _ _ _ Ratchet.both at hx
  have c1 : Ratchet.both.2.1[0]?.any (Prog.isOk fun _ => true) = true := by decide +kernel
  have c2 : Ratchet.both.2.1[1]?.any (Prog.isOk fun _ => true) = true := by decide +kernel
  have c3 : Ratchet.both.1.map sentKeys = [[⟨"a", 7, 24⟩], [⟨"a", 8, 25⟩]] := by decide +kernel
  have c4 : Ratchet.both.2.2.1.all Ratchet.faithfulB = true := by decide +kernel
  have c5 : Ratchet.allOk Ratchet.both.2.2.1 = true := by decide +kernel
  have c6 : (Ratchet.both.1.all fun t => Ratchet.sentStored t && !Ratchet.sentB t.getLast?) = true := by decide +kernel
  have c7 : (Ratchet.both.2.2.1.any fun e => decide (Op.device e.1 = some ("a", 7))) = true := by decide +kernel
  have c8 : (Ratchet.both.2.2.1.any fun e => decide (Op.device e.1 = some ("a", 8))) = true := by decide +kernel
  generalize Ratchet.both = x at hx c1 c2 c3 c4 c5 c6 c7 c8
  obtain ⟨ts, y, t, w'⟩ := x
  obtain ⟨t1, t2, rfl⟩ := list2 (l := ts) hx.len
  obtain ⟨a1, e1, -⟩ := hx.isOk 0 rfl rfl _ c1
  obtain ⟨a2, e2, -⟩ := hx.isOk 1 rfl rfl _ c2
  simp only [List.all_cons, Bool.and_eq_true, Bool.not_eq_true'] at c6
  refine ⟨[⟨Mgr.ex, .decrypt kexMessage, t1, sentKeys t1, .inl ⟨_, rfl, e1, Ratchet.storesSent_of c6.1.1 c6.1.2, rfl⟩⟩,
    ⟨Mgr.ex, .decrypt Ratchet.otherMessage, t2, sentKeys t2, .inl ⟨_, rfl, e2, Ratchet.storesSent_of c6.2.1.1 c6.2.1.2, rfl⟩⟩], t, ?_, hx.shuffle,
    Ratchet.guarded_of_allOk c5, Ratchet.faithful_of c4, ?_, ?_, ("a", 7), ("a", 8), ?_, ?_, by decide⟩
  · simp only [List.mem_cons, List.not_mem_nil, or_false]
    rintro j (rfl | rfl) <;> exact ⟨fun _ _ => trivial, fun _ _ => trivial⟩
  · simp only [List.pairwise_cons, List.mem_singleton, List.not_mem_nil]
    refine ⟨?_, fun _ h => h.elim, .nil⟩
    rintro _ rfl x h1 h2
    have := (show x = ("a", 7) from h1).symm.trans (show x = ("a", 8) from h2)
    cases this
  · simp only [List.map_cons, List.map_nil, List.cons.injEq, and_true] at c3
    simp [c3.1, c3.2]
  · obtain ⟨e, he, h⟩ := List.any_eq_true.1 c7
    exact ⟨e, he, of_decide_eq_true h⟩
  · obtain ⟨e, he, h⟩ := List.any_eq_true.1 c8
    exact ⟨e, he, of_decide_eq_true h⟩

end Verif
