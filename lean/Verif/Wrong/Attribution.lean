import Verif.Props.Attribution
import Verif.Wrong.Decrypt
/-
Wrong programs in place of `decrypt`, and the claim about the identity key that a message is attributed to, which rejects them (C115).  See
Wrong/Encrypt.lean for the method.
-/
namespace Verif
namespace Wrong
open SM Spec

/-- C115, what holds of it, for a program. -/
def C115 (dec : Dec) : Prop :=
  ∀ (own : Jid) (x : XEdDSA) (cs : List (Mgr × Call)) (s : Use) (peer : Session → Bytes) (M : Mgr) (msg : Message) (t : List Ev) (p : Option Bytes)
    (dev : DeviceInfo) (km : PlainKM) (w' : World), Story own x cs s → M ∈ s.mgrs → ViaApi M ∧ MildDecisions M → Exec (dec M msg) t (.ok (p, dev, km)) →
    Lib.Runs s.world t w' → Honest peer w'.log → (∀ c ∈ cs, c.2 ≠ .purgeBareJid msg.bareJid) →
    (∀ ns d b k z, (⟨.buildActive ns msg.bareJid d b k, .ok z⟩ : Ev) ∈ w'.log → HasKey w'.disk msg.bareJid d b.identityKey) →
    ∀ e ∈ t, ∀ (ekm : EncKM) (ss : Session), GaveKM msg.ns e ekm ss km → peer ss = dev.identityKey

theorem C115_decrypt : C115 decrypt := fun own x cs s peer M msg t p dev km w' h hM hd he hr hh hp ha e hm ekm ss hg =>
  C115_partial own x cs s peer M msg t p dev km w' h hM hd he hr hh hp ha e hm ekm ss hg

open Attribution in
/-- The run of the example of C115, with another program and message. -/
def attributed (dec : Dec) (msg : Message) := (world 7).run (dec Mgr.ex msg) renewed.world

open Attribution in
/-- The message was decrypted with a session, and attributed to another identity key than that of the other party of this session. -/
def attributedB (dec : Dec) (msg : Message) : Bool := match (attributed dec msg).2.1 with
  | .ok (_, dev, km) => (attributed dec msg).1.any fun e => match e with
    | ⟨.decryptKM ns _ _, .ok (m, ss)⟩ => decide (ns = msg.ns ∧ m = km ∧ peer ss ≠ dev.identityKey)
    | ⟨.buildPassive ns _ _ _ _, .ok (ss, m)⟩ => decide (ns = msg.ns ∧ m = km ∧ peer ss ≠ dev.identityKey)
    | _ => false
  | _ => false

open Attribution in
theorem C115_not {dec : Dec} (msg : Message) (hj : msg.bareJid = "a") (h : attributedB dec msg = true) (h1 : (attributed dec msg).2.2.log.all tiedB = true) (h2 : keepsB [] (attributed dec msg).2.2.log = true)
    (h3 : (attributed dec msg).2.2.log.all activeB = true) (h4 : (attributed dec msg).2.2.disk (.devIdentityKey "a" 7) = some (.str (Base64.encode [7]))) : ¬ C115 dec := by
  intro hc
  have he : Exec (dec Mgr.ex msg) (attributed dec msg).1 (attributed dec msg).2.1 := (world 7).exec _ _
  have hr : Lib.Runs renewed.world (attributed dec msg).1 (attributed dec msg).2.2 := (world 7).runs _ _
  have hlife := (world 7).life greeted_life (M := Mgr.ex) (c := .replaceSessions "a" 7) hasEx (fun _ _ _ h => by cases h)
  have hs := story hlife (by simp)
  have hp : ∀ c ∈ [(Mgr.ex, Call.create ["n", "o"] (some "pc") 5), (Mgr.ex, .updateDeviceList "n" "a" [(7, none)]), (Mgr.ex, .decrypt hello)] ++ [(Mgr.ex, .replaceSessions "a" 7)],
      c.2 ≠ .purgeBareJid msg.bareJid := by simp
  have ha : ∀ ns d b k z, (⟨.buildActive ns msg.bareJid d b k, .ok z⟩ : Ev) ∈ (attributed dec msg).2.2.log → HasKey (attributed dec msg).2.2.disk msg.bareJid d b.identityKey := by
    intro ns d b k z hm
    obtain ⟨-, rfl, h5⟩ := of_decide_eq_true (List.all_eq_true.1 h3 _ hm)
    rw [h5, hj]
    exact h4
  have hh := honest_of h1 h2
  unfold attributedB at h
  generalize attributed dec msg = y at *
  obtain ⟨t, r, w'⟩ := y
  match r, h, he with
  | .ok (p, dev, km), h, he =>
    obtain ⟨e, hm, hx⟩ := List.any_eq_true.1 h
    split at hx
    · rename_i s k m ss
      obtain ⟨rfl, rfl, hn⟩ := of_decide_eq_true hx
      exact hn (hc "me" Mgr.ex.x _ _ peer Mgr.ex msg t p dev _ w' hs hasEx ⟨viaApi_ex, OneTime.mild_ex⟩ he hr hh hp ha _ hm k ss (.inl ⟨s, rfl⟩))
    · rename_i j d x k ss m
      obtain ⟨rfl, rfl, hn⟩ := of_decide_eq_true hx
      exact hn (hc "me" Mgr.ex.x _ _ peer Mgr.ex msg t p dev _ w' hs hasEx ⟨viaApi_ex, OneTime.mild_ex⟩ he hr hh hp ha _ hm k ss (.inr ⟨j, d, x, rfl⟩))
    · cases hx

/-- The own device is returned in place of the sending one. -/
def selfNaming : Dec := fun M msg => do
  let (p, _, km) ← decrypt M msg
  let (own, _) ← getOwnDeviceInformation M
  pure (p, own, km)

theorem C115_selfNaming : ¬ C115 selfNaming :=
  C115_not Attribution.more rfl (by decide +kernel) (by decide +kernel) (by decide +kernel) (by decide +kernel) (by with_unfolding_all rfl)

/-- A message of "a", with a key exchange of somebody else. -/
def foreignKex : Message := ⟨"n", "a", 7, ⟨false, 3⟩, [(⟨"me", 1, 9⟩, some ⟨[99], 2⟩)]⟩

/-- The identity key of the key exchange is not compared. -/
theorem C115_gullible : ¬ C115 gullible :=
  C115_not foreignKex rfl (by decide +kernel) (by decide +kernel) (by decide +kernel) (by decide +kernel) (by with_unfolding_all rfl)

end Wrong
end Verif
