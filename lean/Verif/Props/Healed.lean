import Verif.Props.Crossing
/-
Replacing sessions repairs a conversation.
-/
namespace Verif
open SM Spec

namespace Spec

/-- What a device is given that is not new: messages without key exchanges, other than `x`. -/
def OnlyKex (x : KeyExchange) (m : Message) : Prop := ∀ k z, (k, some z) ∈ m.keys → z = x
def NoKex (m : Message) : Prop := ∀ k z, (k, some z) ∉ m.keys

/-- No sessions of the backend are purged. -/
def Unpurged (ns : Ns) (h : List Ev) : Prop := ∀ e ∈ h, ∀ j, e.1 ≠ .purge ns ∧ e.1 ≠ .purgeJid ns j

/-- All sessions used or stored for the device `d` of `j`, and the one left, are of a kind. -/
def AllOf (ns : Ns) (j : Jid) (d : DevId) (i : Initiation) (x : KeyExchange) (h : List Ev) (w : Option Session) : Prop :=
  (∀ s, Uses h ns s → Session.with s j d → s.initiation = i ∧ s.keyExchange = x) ∧ ∃ s, w = some s ∧ s.initiation = i ∧ s.keyExchange = x

end Spec

namespace Healed
open Crossing
variable {A B : Mgr} {ns : Ns} {In : Message → Prop} {s0 : Session} {w' : Option Session} {h : List Ev} {out : List Message}

/-- While there is a session, none is built actively, and the kind of sessions is that of the first one and of those built passively. -/
theorem kept (hl : Lives A B ns NoReplace In (some s0) w' h out) (hp : Unpurged ns h) {φ : Initiation → KeyExchange → Prop} (h0 : φ s0.initiation s0.keyExchange)
    (hb : ∀ x k s m, (⟨.buildPassive ns B.ownJid B.ownDev x k, .ok (s, m)⟩ : Ev) ∈ h → φ s.initiation s.keyExchange) :
    (∀ s, Made h ns B.ownJid B.ownDev s → φ s.initiation s.keyExchange) ∧ ∃ s, w' = some s ∧ φ s.initiation s.keyExchange := by
  have hB := acts_building hl.acts hl.plain fun j d hc => hc j d rfl
  have hs := shelf_kind (acts_belongs hl.acts hl.plain).1 hl.keeps (φ := φ) (L := fun o => ∃ s, o = some s ∧ φ s.initiation s.keyExchange)
    (by simp) (.inr hp)
    (fun h1 h2 b m s k hh hl => by
      obtain ⟨s, h, -⟩ := hl _ (hB h1 _ h2 hh)
      cases h)
    (fun h1 h2 x k s m hh _ => hb x k s m (by rw [hh]; simp)) hl.shelf ⟨s0, rfl, h0⟩
  refine ⟨fun s hm => made_kind (φ := φ) hl.keeps (fun s h => ?_) (fun b m s k h => ?_) hb hm, hs.2⟩
  · obtain ⟨s', h1, h2⟩ := hs.1 _ h
    cases h1
    exact h2
  · obtain ⟨h1, h2, rfl⟩ := List.append_of_mem h
    obtain ⟨s, h, -⟩ := hs.1 _ (List.mem_append_left _ (hB h1 _ h2 rfl))
    cases h

theorem uses_of (hl : Lives A B ns NoReplace In (some s0) w' h out) {φ : Initiation → KeyExchange → Prop}
    (hm : ∀ s, Made h ns B.ownJid B.ownDev s → φ s.initiation s.keyExchange) (s : Session) (hu : Uses h ns s) (hs : Session.with s B.ownJid B.ownDev) :
    φ s.initiation s.keyExchange := by
  have := used_made (acts_belongs hl.acts hl.plain).1 hl.keeps hu
  rw [hs.1, hs.2] at this
  exact hm s this

end Healed

/-- C113, lasting: once one of two devices has an active session and the other a passive one from the same key exchange, it stays so, whatever they send each other, in
any order and any number of times, until sessions are replaced on request or purged.  Of messages from before, there may be those without key exchanges, and those
with the key exchange of these sessions. -/
theorem C113_lasting (A B : Mgr) (ns : Ns) (x : KeyExchange) {sA sB : Session} {wA wB : Option Session} {hA hB : List Ev} {outA outB : List Message}
    (a : Lives A B ns NoReplace (fun m => FromPeer B ns outB m ∨ NoKex m) (some sA) wA hA outA)
    (b : Lives B A ns NoReplace (fun m => FromPeer A ns outA m ∨ OnlyKex x m) (some sB) wB hB outB)
    (ha : sA.initiation = .active ∧ sA.keyExchange = x) (hb : sB.initiation = .passive ∧ sB.keyExchange = x) (pa : Unpurged ns hA) (pb : Unpurged ns hB) :
    AllOf ns B.ownJid B.ownDev .active x hA wA ∧ AllOf ns A.ownJid A.ownDev .passive x hB wB ∧ InCommon A B ns hA hB ∧ InCommon B A ns hB hA := by
  have b1 := (Healed.kept b pb (φ := fun i _ => i = .passive) hb.1 fun _ _ _ _ h => (Crossing.built_from b h).1.1).1
  obtain ⟨a2, a3⟩ := Healed.kept a pa (φ := fun i y => i = .active ∧ y = x) ha fun _ _ _ _ h => by
    obtain ⟨-, msg, h1, h2, h3, h4, h5⟩ := Crossing.built_from a h
    rcases h1 with h1 | h1
    · obtain ⟨s, h6, -, h7⟩ := Crossing.kex_active b (h1 h2 h4 h5) h2 h3
      exact absurd (h7.symm.trans (b1 s h6)) (by decide)
    · exact absurd h3.1 (h1 _ _)
  obtain ⟨b2, b3⟩ := Healed.kept b pb (φ := fun i y => i = .passive ∧ y = x) hb fun _ _ _ _ h => by
    obtain ⟨h0, msg, h1, h2, h3, h4, h5⟩ := Crossing.built_from b h
    rcases h1 with h1 | h1
    · obtain ⟨s, h6, h7, -⟩ := Crossing.kex_active a (h1 h2 h4 h5) h2 h3
      exact ⟨h0.1, h0.2.trans (h7.symm.trans (a2 s h6).2)⟩
    · exact ⟨h0.1, h0.2.trans (h1 _ _ h3.1)⟩
  have ua := Healed.uses_of a (φ := fun i y => i = .active ∧ y = x) a2
  have ub := Healed.uses_of b (φ := fun i y => i = .passive ∧ y = x) b2
  exact ⟨⟨ua, a3⟩, ⟨ub, b3⟩, fun s m k s1 s2 r h1 h2 h3 h4 => (ua s (.encrypt h1) h2).2.trans (ub s2 (.decrypt h3) h4).2.symm,
    fun s m k s1 s2 r h1 h2 h3 h4 => (ub s (.encrypt h1) h2).2.trans (ua s2 (.decrypt h3) h4).2.symm⟩

/-- C113: when `replace_sessions` has stored a session with a device, there is a message it has sent, such that once this device has decrypted the message, whatever
session it had before: as long as no sessions are purged or replaced again, the two have a session in common, and keep it. -/
theorem C113 (A B : Mgr) (ns : Ns) {t r} (he : Exec (replaceSessions A B.ownJid B.ownDev) t r) (hk : ∀ e ∈ t, Lasts e) {w w1}
    (hr : (Shelf ns B.ownJid B.ownDev).Runs w t w1) (hs : ∃ s, (⟨.storeSession ns s, .ok ()⟩ : Ev) ∈ t) :
    ∃ x m, ((⟨.sendMessage m B.ownJid, .ok ()⟩ : Ev) ∈ t ∧ m.ns = ns ∧ m.bareJid = A.ownJid ∧ m.deviceId = A.ownDev ∧ ∃ k, m.keys = [(k, some x)]) ∧
      ∀ {t' p dev km v v1}, Exec (decrypt B m) t' (.ok (p, dev, km)) → (∀ e ∈ t', Lasts e) → (Shelf ns A.ownJid A.ownDev).Runs v t' v1 →
        (∀ s0, v = some s0 → ¬ Same B s0 x) → ∀ {wA wB hA hB outA outB},
        Lives A B ns NoReplace (fun m => FromPeer B ns outB m ∨ NoKex m) w1 wA hA outA →
        Lives B A ns NoReplace (fun m => FromPeer A ns outA m ∨ OnlyKex x m) v1 wB hB outB → Unpurged ns hA → Unpurged ns hB →
        AllOf ns B.ownJid B.ownDev .active x hA wA ∧ AllOf ns A.ownJid A.ownDev .passive x hB wB ∧ InCommon A B ns hA hB ∧ InCommon B A ns hB hA := by
  obtain ⟨s, m, ⟨rfl, h1⟩, h2, h3⟩ := C102_remedy A B ns he hk hr hs
  refine ⟨s.keyExchange, m, h2, fun {t' p dev km v v1} e1 e2 e3 e4 {wA wB hA hB outA outB} a b pa pb => ?_⟩
  obtain ⟨s', rfl, h4, h5⟩ := h3 e1 e2 e3 e4
  exact C113_lasting A B ns s.keyExchange a b ⟨h1, rfl⟩ ⟨h4, h5⟩ pa pb

/-! ### A run -/

namespace Healed
open Run Crossing

/-- Each session built has a key exchange of its own, and key material can be decrypted with a session from the same key exchange. -/
def renewing (me : UInt8) : World → (o : Op) → Except Exn o.Ret
  | w, .buildActive ns j d _ _ => .ok (⟨ns, j, d, .active, false, ⟨[me], w.log.length⟩, none, 1, 0⟩, ⟨j, d, w.log.length * 10 + me.toNat⟩)
  | _, .encryptKM _ s _ => .ok (⟨s.bareJid, s.deviceId, s.keyExchange.blob * 10 + (s.keyExchange.identityKey.headD 0).toNat⟩,
      { s with sendingChainLength := s.sendingChainLength + 1 })
  | _, .decryptKM _ s e => if e.blob = s.keyExchange.blob * 10 + (s.keyExchange.identityKey.headD 0).toNat then .ok (⟨1⟩, { s with confirmed := true }) else
      .error .decryptionFailed
  | w, o => exchanging me w o

def made {α : Type} (me : UInt8) (p : P α) (w : World) : List Ev × Res Exn α × World := runProg (Lib.env (renewing me)) Lib.next 200 p w

/-- What was encrypted. -/
def ms (r : Res Exn (Dict Message PlainKM × List EncError)) : List Message := match r with
  | .ok (ms, _) => ms.map (·.1)
  | _ => []

def enc (M : Mgr) (to : Jid) := SM.encrypt M [to] [("n", [1])] none none
def reads (M : Mgr) (me : UInt8) (m : Message) (w : World) : World := (made me (Call.run M (.decrypt m)) w).2.2

/-- Key exchanges cross. -/
def l1 := made 1 (enc Mgr.ex "a") .side
def r1 := made 7 (enc Mgr.phone "me") .side
def firstL : Message := (ms l1.2.1).headD ⟨"", "", 0, ⟨true, 0⟩, []⟩
def firstR : Message := (ms r1.2.1).headD ⟨"", "", 0, ⟨true, 0⟩, []⟩
def l2 := reads Mgr.ex 1 firstR l1.2.2
def r2 := reads Mgr.phone 7 firstL r1.2.2
def l3 := made 1 (enc Mgr.ex "a") l2
def lostL : Message := (ms l3.2.1).headD ⟨"", "", 0, ⟨true, 0⟩, []⟩
/-- "me" replaces the session. -/
def rep := made 1 (replaceSessions Mgr.ex "a" 7) l3.2.2
def noteL : Message := ⟨"n", "me", 1, ⟨true, 0⟩, [(⟨"a", 7, 321⟩, some ⟨[1], 32⟩)]⟩
def taken := made 7 (decrypt Mgr.phone noteL) r2
/-- The phone answers, and "me" writes again. -/
def answer : Message := ⟨"n", "a", 7, ⟨true, 0⟩, [(⟨"me", 1, 321⟩, none)]⟩
def l4 := made 1 (Call.run Mgr.ex (.decrypt answer)) rep.2.2
def l5 := made 1 (enc Mgr.ex "a") l4.2.2
def found : Message := ⟨"n", "me", 1, ⟨false, 1⟩, [(⟨"a", 7, 321⟩, none)]⟩
def r4 := made 7 (Call.run Mgr.phone (.decrypt found)) taken.2.2

theorem made_exec {α : Type} (me : UInt8) (p : P α) (w : World) : Exec p (made me p w).1 (made me p w).2.1 := by
  unfold made
  exact runProg_exec _ _ _ _ _

theorem acts_enc {M : Mgr} {In C} {me : UInt8} {to : Jid} {h out} {w : World} (ha : Acts M In C h out) (hc : ∀ jids pt prio i, C (.encrypt jids pt prio i))
    (hok : works (made me (enc M to) w).2.1 = true) :
    Acts M In C (h ++ (made me (enc M to) w).1) (out ++ outOf (made me (enc M to) w).1 ++ ms (made me (enc M to) w).2.1) := by
  have he := made_exec me (enc M to) w
  revert he hok
  cases (made me (enc M to) w).2.1 with
  | ok a => exact fun _ he => .encrypt ha (hc _ _ _ _) he
  | raised e => intro h; cases h
  | crashed => intro h; cases h

def readsB (k : EncKM) (e : Ev) : Bool := match e with
  | ⟨.decryptKM "n" _ k', .ok _⟩ => decide (k' = k)
  | _ => false

end Healed
open Healed

/-- The hypotheses of C113 are met.  Key exchanges crossed, and the next message could not be decrypted; "me" replaced the session; the next message is decrypted. -/
theorem C113_example : Run.works (made 7 (Call.run Mgr.phone (.decrypt lostL)) r2).2.1 = false ∧ r4.1.any (readsB ⟨"a", 7, 321⟩) = true ∧
    InCommon Mgr.ex Mgr.phone "n" (l4.1 ++ l5.1) r4.1 ∧ InCommon Mgr.phone Mgr.ex "n" r4.1 (l4.1 ++ l5.1) := by
  refine ⟨by decide +kernel, by decide +kernel, ?_⟩
  have hs : rep.1.any (fun e => match e with | ⟨.storeSession "n" _, .ok ()⟩ => true | _ => false) = true := by decide +kernel
  obtain ⟨x, m, ⟨h1, h2, h3, h4, k, h5⟩, h6⟩ := C113 Mgr.ex Mgr.phone "n" (made_exec 1 (replaceSessions Mgr.ex "a" 7) l3.2.2 : Exec _ rep.1 rep.2.1)
    (Run.keeps_of (by decide +kernel)) (Run.shelf_of (w := Ratchet.lastStored l3.2.2.log "n" "a" 7) (by decide +kernel)) (by
      obtain ⟨e, hm, he⟩ := List.any_eq_true.1 hs
      split at he
      · exact ⟨_, hm⟩
      · cases he)
  have hm : m = noteL := by
    have h7 : rep.1.all (fun e => match e with | ⟨.sendMessage m _, _⟩ => decide (m = noteL) | _ => true) = true := by decide +kernel
    exact of_decide_eq_true (List.all_eq_true.1 h7 _ h1)
  subst hm
  obtain rfl : (⟨[1], 32⟩ : KeyExchange) = x := by
    have h5 : [(⟨"a", 7, 321⟩, some ⟨[1], 32⟩)] = [(k, some x)] := h5
    simp only [List.cons.injEq, Prod.mk.injEq, Option.some.injEq, and_true] at h5
    exact h5.2
  have ht : Run.works taken.2.1 = true := by decide +kernel
  have he : Exec (decrypt Mgr.phone noteL) taken.1 taken.2.1 := made_exec 7 _ _
  revert he ht
  cases taken.2.1 with
  | raised e => intro h; cases h
  | crashed => intro h; cases h
  | ok a =>
    intro _ he
    obtain ⟨p, dev, km⟩ := a
    exact (h6 he (Run.keeps_of (by decide +kernel)) (Run.shelf_of (w := Ratchet.lastStored r2.log "n" "me" 1) (by decide +kernel))
      (fun s0 hs0 hsame => by
        have : (Ratchet.lastStored r2.log "n" "me" 1).all (fun s => decide (s.keyExchange ≠ ⟨[1], 32⟩)) = true := by decide +kernel
        rw [hs0] at this
        exact of_decide_eq_true this (of_decide_eq_true hsame.2))
      (wA := (l4.1 ++ l5.1).foldl (Shelf "n" "a" 7).next (rep.1.foldl (Shelf "n" "a" 7).next (Ratchet.lastStored l3.2.2.log "n" "a" 7)))
      (wB := r4.1.foldl (Shelf "n" "me" 1).next (taken.1.foldl (Shelf "n" "me" 1).next (Ratchet.lastStored r2.log "n" "me" 1)))
      (outA := [] ++ outOf l4.1 ++ outOf l5.1 ++ ms l5.2.1) (outB := [] ++ outOf r4.1)
      ⟨Crossing.plain_ex, acts_enc (.call .start (fun _ _ h => by cases h) (fun m h => by cases h; exact .inr (fun k z hm => by cases List.mem_singleton.1 hm)) (made_exec 1 _ _)) (fun _ _ _ _ => nofun)
        (by decide +kernel), Run.keeps_of (by decide +kernel), Run.shelf_of (by decide +kernel)⟩
      ⟨Crossing.plain_phone, .call .start (fun _ _ h => by cases h) (fun m h => by cases h; exact .inl fun _ _ _ => by decide +kernel) (made_exec 7 _ _), Run.keeps_of (by decide +kernel),
        Run.shelf_of (by decide +kernel)⟩
      (Crossing.nopurge_of (by decide +kernel)) (Crossing.nopurge_of (by decide +kernel))).2.2

end Verif
