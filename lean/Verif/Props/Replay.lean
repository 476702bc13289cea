import Verif.Props.OneTime
import Verif.Proofs.Sample
import Verif.Base.Sched
/-
No message is read twice.
-/
namespace Verif
open SM Spec

namespace Spec

/-- How a session was built. -/
def Session.origin (s : Session) : Initiation × KeyExchange := (s.initiation, s.keyExchange)

/-- What the Double Ratchet does with message keys (backend.py:164-215, 289-320).  `src k`: how the session that `k` was encrypted for was built, seen from the recipient;
`used s k`: the key for `k` has been used up by the session `s`. -/
structure Fading (src : EncKM → Initiation × KeyExchange) (used : Session → EncKM → Prop) (h : List Ev) (e : Ev) : Prop where
  /-- Key material can be decrypted by sessions built in the same way, and once. -/
  decrypt : ∀ ns s k m s', e = ⟨.decryptKM ns s k, .ok (m, s')⟩ → (src k = Session.origin s ∧ ¬ used s k) ∧ used s' k ∧ ∀ k', used s k' → used s' k'
  passive : ∀ ns j d x k s m, e = ⟨.buildPassive ns j d x k, .ok (s, m)⟩ → src k = (.passive, x) ∧ used s k
  encrypt : ∀ ns s m k s', e = ⟨.encryptKM ns s m, .ok (k, s')⟩ → ∀ k', used s k' → used s' k'
  /-- Every key exchange made by this device is a new one. -/
  active : ∀ ns j d b m s k, e = ⟨.buildActive ns j d b m, .ok (s, k)⟩ → ∀ j' d' b' m' s' k', (⟨.buildActive ns j' d' b' m', .ok (s', k')⟩ : Ev) ∈ h →
    s'.keyExchange ≠ s.keyExchange

/-- Key material `k` from the device `d` of `j` was decrypted. -/
def ReadIn (ns : Ns) (j : Jid) (d : DevId) (k : EncKM) (t : List Ev) : Prop :=
  (∃ s m s', (⟨.decryptKM ns s k, .ok (m, s')⟩ : Ev) ∈ t ∧ Session.with s j d) ∨ ∃ x s m, (⟨.buildPassive ns j d x k, .ok (s, m)⟩ : Ev) ∈ t

/-- Sessions are not built with hidden pre keys. -/
def NoneRevived (pk : KeyExchange → Nat) (h : List Ev) : Prop := ∀ h1 ns j d x k y h2, h = h1 ++ (⟨.buildPassive ns j d x k, .ok y⟩ : Ev) :: h2 → ¬ Hidden pk h1 ns (pk x)

/-- A call of `decrypt` that returns, among others. -/
structure Sitting (P : List Ev → Prop → Prop) (h1 t1 h2 t2 : List Ev) : Prop where
  before : Days P h1
  first : ∃ M msg, MildDecisions M ∧ Exec (Call.run M (.decrypt msg)) t1 (.ok ()) ∧ P t1 False
  between : Days P h2
  second : ∃ M msg r, MildDecisions M ∧ Exec (Call.run M (.decrypt msg)) t2 r ∧ P t2 (r = .crashed)

end Spec

/-- C112 in full: what was decrypted by a call of `decrypt` that returned is not decrypted again, whatever the device does before and in between. -/
def C112_Claim : Prop := ∀ pk offers src used ns j d k h1 t1 h2 t2, Sitting (fun _ _ => True) h1 t1 h2 t2 →
  Guarded (PreKeyed pk offers) (h1 ++ t1 ++ (h2 ++ t2)) → Guarded (Fading src used) (h1 ++ t1 ++ (h2 ++ t2)) →
  (∃ w, (Shelf ns j d).Runs none (h1 ++ t1 ++ (h2 ++ t2)) w) → ReadIn ns j d k t1 → ¬ ReadIn ns j d k t2

namespace Replay
variable {P : List Ev → Prop → Prop} {M : Mgr} {msg : Message} {h t : List Ev} {ns : Ns} {j : Jid} {d : DevId} {k : EncKM}
  {src : EncKM → Initiation × KeyExchange} {used : Session → EncKM → Prop} {pk : KeyExchange → Nat} {offers : Bundle → List Nat}

theorem days_append {a b : List Ev} (ha : Days P a) (hb : Days P b) : Days P (a ++ b) := by
  induction hb with
  | start => simpa using ha
  | call _ hd he hp ih => rw [← List.append_assoc]; exact .call ih hd he hp

theorem days_mono {Q : List Ev → Prop → Prop} (hq : ∀ t d, P t d → Q t d) (hh : Days P h) : Days Q h := by
  induction hh with
  | start => exact .start
  | call _ hd he hp ih => exact .call ih hd he (hq _ _ hp)

theorem guarded_mem {G : List Ev → Ev → Prop} (hg : Guarded G h) {e : Ev} (he : e ∈ h) : ∃ u, G u e := by
  obtain ⟨u, v, rfl⟩ := List.append_of_mem he
  exact ⟨u, hg u e v rfl⟩

/-- Stored and used sessions have been made. -/
def Stems (h : List Ev) (e : Ev) : Prop := ∀ ns s, e.1 = .storeSession ns s → ∃ j d, Made h ns j d s

theorem stems_call {M : Mgr} {c : Call} {r} (hd : MildDecisions M) (he : Exec (c.run M) t r) : Guarded Stems t := by
  have hg : Guarded (Belongs M.ownJid M.ownDev (fun _ => True)) t :=
    Kn.exec (Belongs.kn_call (K := fun _ => True) c (fun _ _ => trivial) (Crossing.grd_plain (OneTime.MildDecisions.plain hd))) he
  rintro h1 ⟨o, y⟩ h2 ht ns s ⟨⟩
  exact hg h1 _ h2 ht

theorem stems_append {a b : List Ev} (ha : Guarded Stems a) (hb : Guarded Stems b) : Guarded Stems (a ++ b) :=
  Crossing.guarded_append (fun _ _ _ hs h ns s hh => let ⟨j, d, hm⟩ := h ns s hh; ⟨j, d, Belongs.Made.mono hs hm⟩) ha hb

theorem stems_days (hh : Days P h) : Guarded Stems h := by
  induction hh with
  | start => intro _ _ _ hh; simp at hh
  | call _ hd he _ ih => exact stems_append ih (stems_call hd he)

theorem made_all {φ : Session → Prop} (hl : ∀ s, (⟨.loadSession ns j d, .ok (some s)⟩ : Ev) ∈ h → φ s)
    (ha : ∀ b m s k, (⟨.buildActive ns j d b m, .ok (s, k)⟩ : Ev) ∈ h → φ s)
    (hp : ∀ x k s m, (⟨.buildPassive ns j d x k, .ok (s, m)⟩ : Ev) ∈ h → φ s)
    (he : ∀ s m k s', (⟨.encryptKM ns s m, .ok (k, s')⟩ : Ev) ∈ h → φ s → φ s')
    (hd : ∀ s m k s', (⟨.decryptKM ns s k, .ok (m, s')⟩ : Ev) ∈ h → φ s → φ s') {s} (hm : Made h ns j d s) : φ s := by
  induction hm with
  | load h => exact hl _ h
  | active h => exact ha _ _ _ _ h
  | passive h => exact hp _ _ _ _ h
  | encrypt _ h ih => exact he _ _ _ _ h ih
  | decrypt _ h ih => exact hd _ _ _ _ h ih

/-- If all sessions stored are of a kind, what is kept is. -/
theorem shelf_stores {φ : Session → Prop} {w w'} (hr : (Shelf ns j d).Runs w t w') (hw : ∀ s, w = some s → φ s)
    (hs : ∀ s, (⟨.storeSession ns s, .ok ()⟩ : Ev) ∈ t → Session.with s j d → φ s) : ∀ s, w' = some s → φ s := by
  induction t generalizing w with
  | nil => cases hr; exact hw
  | cons e t ih =>
    refine ih hr.2 ?_ fun s hm => hs s (List.mem_cons_of_mem _ hm)
    unfold Shelf
    dsimp only
    split
    · split
      · rename_i s _ hh
        rintro _ ⟨⟩
        obtain ⟨rfl, h2⟩ := hh
        exact hs s (by simp) h2
      · exact hw
    · split
      · nofun
      · exact hw
    · split
      · nofun
      · exact hw
    · exact hw

/-- If all sessions built are of a kind that lasts, all sessions that are loaded are. -/
theorem shelf_all {φ : Session → Prop} (hg : Guarded Stems t) (hk : ∀ e ∈ t, Lasts e)
    (ha : ∀ b m s k, (⟨.buildActive ns j d b m, .ok (s, k)⟩ : Ev) ∈ t → φ s)
    (hp : ∀ x k s m, (⟨.buildPassive ns j d x k, .ok (s, m)⟩ : Ev) ∈ t → φ s)
    (he : ∀ s m k s', (⟨.encryptKM ns s m, .ok (k, s')⟩ : Ev) ∈ t → φ s → φ s')
    (hd : ∀ s m k s', (⟨.decryptKM ns s k, .ok (m, s')⟩ : Ev) ∈ t → φ s → φ s') {w w'} (hr : (Shelf ns j d).Runs w t w') (hw : ∀ s, w = some s → φ s) :
    ∀ s, (⟨.loadSession ns j d, .ok (some s)⟩ : Ev) ∈ t → φ s := by
  have key : ∀ suf pre w, t = pre ++ suf → (∀ s, (⟨.loadSession ns j d, .ok (some s)⟩ : Ev) ∈ pre → φ s) → (∀ s, w = some s → φ s) → (Shelf ns j d).Runs w suf w' →
      ∀ s, (⟨.loadSession ns j d, .ok (some s)⟩ : Ev) ∈ t → φ s := by
    intro suf
    induction suf with
    | nil =>
      intro pre w ht h1 _ _
      rw [ht, List.append_nil]
      exact h1
    | cons e suf ih =>
      intro pre w ht h1 hw hr
      have sub : ∀ {x}, x ∈ pre → x ∈ t := fun hx => by rw [ht]; exact List.mem_append_left _ hx
      refine ih (pre ++ [e]) _ (by simp [ht]) (fun s hs => ?_) ?_ hr.2
      · rcases List.mem_append.1 hs with hs | hs
        · exact h1 s hs
        · obtain rfl := List.mem_singleton.1 hs
          exact hw s (hr.1 ⟨rfl, rfl, rfl⟩).symm
      · have hr1 : (Shelf ns j d).Runs w [e] ((Shelf ns j d).next w e) := ⟨hr.1, rfl⟩
        refine shelf_stores hr1 hw fun s hm hs => ?_
        obtain rfl := List.mem_singleton.1 hm
        obtain ⟨j', d', hmade⟩ := hg pre _ suf ht ns s rfl
        obtain ⟨rfl, rfl⟩ := Crossing.made_with (fun e hx => hk e (sub hx)) hmade
        obtain ⟨rfl, rfl⟩ := hs
        exact made_all h1 (fun b m s k hx => ha b m s k (sub hx)) (fun x k s m hx => hp x k s m (sub hx)) (fun s m k s' hx => he s m k s' (sub hx))
          (fun s m k s' hx => hd s m k s' (sub hx)) hmade
  exact key t [] w rfl nofun hw hr

/-- Active sessions that are stored were built by this device. -/
theorem active_built (hg : Guarded Stems h) (hb : Guarded (PreKeyed pk offers) h) : ∀ ns s, (⟨.storeSession ns s, .ok ()⟩ : Ev) ∈ h → s.initiation = .active →
    ∃ b m s0 k0, (⟨.buildActive ns s.bareJid s.deviceId b m, .ok (s0, k0)⟩ : Ev) ∈ h ∧ s0.keyExchange = s.keyExchange := by
  have key : ∀ t1 t2, h = t1 ++ t2 → ∀ ns s, (⟨.storeSession ns s, .ok ()⟩ : Ev) ∈ t1 → s.initiation = .active →
      ∃ b m s0 k0, (⟨.buildActive ns s.bareJid s.deviceId b m, .ok (s0, k0)⟩ : Ev) ∈ h ∧ s0.keyExchange = s.keyExchange := by
    intro t1
    induction h1 : t1.length using Nat.strongRecOn generalizing t1 with
    | _ n ih =>
      intro t2 ht ns s hm hp
      obtain ⟨u, v, rfl⟩ := List.append_of_mem hm
      have hu : ∀ e ∈ u, e ∈ h := fun e h => by rw [ht]; simp [h]
      have hlast : ∀ e ∈ u, Lasts e := fun e he => let ⟨_, h⟩ := guarded_mem hb (hu e he); h.lasts
      obtain ⟨j, d, hmade⟩ := hg u ⟨.storeSession ns s, .ok ()⟩ (v ++ t2) (by rw [ht]; simp) ns s rfl
      obtain ⟨rfl, rfl⟩ := Crossing.made_with hlast hmade
      refine Crossing.made_kind (φ := fun i y => i = .active → ∃ b m s0 k0, (⟨.buildActive ns s.bareJid s.deviceId b m, .ok (s0, k0)⟩ : Ev) ∈ h ∧ s0.keyExchange = y) hlast
        (fun s0 h0 h2 => ?_) (fun b m s0 k h0 h2 => ⟨b, m, s0, k, hu _ h0, rfl⟩) (fun x k s0 m h0 h2 => ?_) hmade hp
      · obtain ⟨w1, w2⟩ := (hlast _ h0).load _ _ _ _ rfl
        obtain ⟨a, b, rfl⟩ := List.append_of_mem h0
        have hl := (hb a ⟨.loadSession ns s.bareJid s.deviceId, .ok (some s0)⟩ (b ++ ⟨.storeSession ns s, .ok ()⟩ :: (v ++ t2)) (by rw [ht]; simp)).load _ _ _ _ rfl
        have := ih a.length (by rw [← h1]; simp) a rfl (⟨.loadSession ns s.bareJid s.deviceId, .ok (some s0)⟩ :: (b ++ ⟨.storeSession ns s, .ok ()⟩ :: (v ++ t2))) (by rw [ht]; simp) ns s0 hl h2
        rw [w1, w2] at this
        exact this
      · rw [((hlast _ h0).passive _ _ _ _ _ _ _ rfl).2.1] at h2
        cases h2
  exact fun ns s hm hp => key h [] (by simp) ns s hm hp

/-- Passive sessions that are stored were stored before for the same device, or just built. -/
theorem passive_built {t : List Ev} (hg : Guarded Stems t) (hb : Guarded (PreKeyed pk offers) (h ++ t)) : ∀ ns s, (⟨.storeSession ns s, .ok ()⟩ : Ev) ∈ t → s.initiation = .passive →
    (∃ s0, (⟨.storeSession ns s0, .ok ()⟩ : Ev) ∈ h ∧ Session.with s0 s.bareJid s.deviceId ∧ s0.initiation = .passive ∧ s0.keyExchange = s.keyExchange) ∨
      ∃ k y, (⟨.buildPassive ns s.bareJid s.deviceId s.keyExchange k, .ok y⟩ : Ev) ∈ t := by
  have key : ∀ t1 t2, t = t1 ++ t2 → ∀ ns s, (⟨.storeSession ns s, .ok ()⟩ : Ev) ∈ t1 → s.initiation = .passive →
      (∃ s0, (⟨.storeSession ns s0, .ok ()⟩ : Ev) ∈ h ∧ Session.with s0 s.bareJid s.deviceId ∧ s0.initiation = .passive ∧ s0.keyExchange = s.keyExchange) ∨
        ∃ k y, (⟨.buildPassive ns s.bareJid s.deviceId s.keyExchange k, .ok y⟩ : Ev) ∈ t := by
    intro t1
    induction h1 : t1.length using Nat.strongRecOn generalizing t1 with
    | _ n ih =>
      intro t2 ht ns s hm hp
      obtain ⟨u, v, rfl⟩ := List.append_of_mem hm
      have hu : ∀ e ∈ u, e ∈ t := fun e h => by rw [ht]; simp [h]
      have hlast : ∀ e ∈ u, Lasts e := fun e he => let ⟨_, h⟩ := guarded_mem hb (List.mem_append_right _ (hu e he)); h.lasts
      obtain ⟨j, d, hmade⟩ := hg u ⟨.storeSession ns s, .ok ()⟩ (v ++ t2) (by rw [ht]; simp) ns s rfl
      obtain ⟨rfl, rfl⟩ := Crossing.made_with hlast hmade
      refine Crossing.made_kind (φ := fun i z => i = .passive →
        (∃ s0, (⟨.storeSession ns s0, .ok ()⟩ : Ev) ∈ h ∧ Session.with s0 s.bareJid s.deviceId ∧ s0.initiation = .passive ∧ s0.keyExchange = z) ∨
          ∃ k y, (⟨.buildPassive ns s.bareJid s.deviceId z k, .ok y⟩ : Ev) ∈ t) hlast
        (fun s0 h0 h2 => ?_) (fun b m s0 k h0 h2 => ?_) (fun x k s0 m h0 h2 => ?_) hmade hp
      · obtain ⟨w1, w2⟩ := (hlast _ h0).load _ _ _ _ rfl
        obtain ⟨a, b, rfl⟩ := List.append_of_mem h0
        have hl := (hb (h ++ a) ⟨.loadSession ns s.bareJid s.deviceId, .ok (some s0)⟩ (b ++ ⟨.storeSession ns s, .ok ()⟩ :: (v ++ t2)) (by rw [ht]; simp)).load _ _ _ _ rfl
        rcases List.mem_append.1 hl with hl | hl
        · exact .inl ⟨s0, hl, ⟨w1, w2⟩, h2, rfl⟩
        · have := ih a.length (by rw [← h1]; simp) a rfl (⟨.loadSession ns s.bareJid s.deviceId, .ok (some s0)⟩ :: (b ++ ⟨.storeSession ns s, .ok ()⟩ :: (v ++ t2))) (by rw [ht]; simp) ns s0 hl h2
          rw [w1, w2] at this
          exact this
      · rw [((hlast _ h0).active _ _ _ _ _ _ _ rfl).1.2] at h2
        cases h2
      · rw [((hlast _ h0).passive _ _ _ _ _ _ _ rfl).2.2]
        exact .inr ⟨k, _, hu _ h0⟩
  exact fun ns s hm hp => key t [] (by simp) ns s hm hp

/-- Passive sessions from one key exchange are with one device. -/
def OneDevice (h : List Ev) : Prop := ∀ ns s s', (⟨.storeSession ns s, .ok ()⟩ : Ev) ∈ h → (⟨.storeSession ns s', .ok ()⟩ : Ev) ∈ h → s.initiation = .passive →
  s'.initiation = .passive → s.keyExchange = s'.keyExchange → Session.with s s'.bareJid s'.deviceId

/-- No session is built by a key exchange of which a session was stored. -/
theorem no_rebuild (hh : Days GivesUp (h ++ t)) (hb : Guarded (PreKeyed pk offers) (h ++ t)) (hn : NoneRevived pk (h ++ t)) {ns s j d k y}
    (hs : (⟨.storeSession ns s, .ok ()⟩ : Ev) ∈ h) (hp : s.initiation = .passive) : (⟨.buildPassive ns j d s.keyExchange k, .ok y⟩ : Ev) ∉ t := by
  intro hm
  obtain ⟨a, b, rfl⟩ := List.append_of_mem hs
  obtain ⟨c, e, rfl⟩ := List.append_of_mem hm
  exact hn (a ++ ⟨.storeSession ns s, .ok ()⟩ :: (b ++ c)) ns j d _ k y e (by simp) ((C103_partial pk offers _ hh hb).1 a ns s (b ++ c) j d _ k y.1 y.2 e (by simp) hp rfl)

theorem one_device (hh : Days GivesUp h) (hb : Guarded (PreKeyed pk offers) h) (hn : NoneRevived pk h) : OneDevice h := by
  induction hh with
  | start => intro _ _ _ h; cases h
  | @call h M c t r hh hd he hp ih =>
    have hh' : Days GivesUp (h ++ t) := .call hh hd he hp
    have ih := ih (OneTime.guarded_left hb) fun h1 ns j d x k y h2 e => hn h1 ns j d x k y (h2 ++ t) (by rw [e]; simp)
    have sender : ∀ {ns j d x k y j' d' x' k' y'}, (⟨.buildPassive ns j d x k, y⟩ : Ev) ∈ t → (⟨.buildPassive ns j' d' x' k', y'⟩ : Ev) ∈ t → j = j' ∧ d = d' := by
      intro ns j d x k y j' d' x' k' y' h1 h2
      have hg : Guarded (Belongs M.ownJid M.ownDev (fun m => c = .decrypt m)) t :=
        Kn.exec (Belongs.kn_call (K := fun _ => True) _ (fun _ h => h) (Crossing.grd_plain (OneTime.MildDecisions.plain hd))) he
      obtain ⟨a, b, ht⟩ := List.append_of_mem h1
      obtain ⟨a', b', ht'⟩ := List.append_of_mem h2
      obtain ⟨msg, e1, -, -, e2, e3⟩ := hg a _ b ht
      obtain ⟨msg', f1, -, -, f2, f3⟩ := hg a' _ b' ht'
      cases e1.symm.trans f1
      exact ⟨e2.trans f2.symm, e3.trans f3.symm⟩
    have built := passive_built (h := h) (stems_call hd he) hb
    intro ns s s' h1 h2 p1 p2 hk
    rcases List.mem_append.1 h1 with h1 | h1 <;> rcases List.mem_append.1 h2 with h2 | h2
    · exact ih ns s s' h1 h2 p1 p2 hk
    · rcases built ns s' h2 p2 with ⟨s0, g1, g2, g3, g4⟩ | ⟨k, y, g⟩
      · have := ih ns s s0 h1 g1 p1 g3 (hk.trans g4.symm)
        exact ⟨this.1.trans g2.1, this.2.trans g2.2⟩
      · exact absurd (hk ▸ g) (no_rebuild hh' hb hn h1 p1)
    · rcases built ns s h1 p1 with ⟨s0, g1, g2, g3, g4⟩ | ⟨k, y, g⟩
      · have := ih ns s0 s' g1 h2 g3 p2 (g4.trans hk)
        exact ⟨g2.1.symm.trans this.1, g2.2.symm.trans this.2⟩
      · exact absurd (hk ▸ g) (no_rebuild hh' hb hn h2 p2)
    · rcases built ns s h1 p1 with ⟨s0, g1, g2, g3, g4⟩ | ⟨k, y, g⟩ <;> rcases built ns s' h2 p2 with ⟨s0', f1, f2, f3, f4⟩ | ⟨k', y', f⟩
      · have := ih ns s0 s0' g1 f1 g3 f3 (g4.trans (hk.trans f4.symm))
        exact ⟨g2.1.symm.trans (this.1.trans f2.1), g2.2.symm.trans (this.2.trans f2.2)⟩
      · exact absurd ((g4.trans hk) ▸ f) (no_rebuild hh' hb hn g1 g3)
      · exact absurd ((f4.trans hk.symm) ▸ g) (no_rebuild hh' hb hn f1 f3)
      · exact sender g f

/-- What `decrypt` decrypts is what the message has for this device. -/
def For (M : Mgr) (msg : Message) : Op → Prop
  | .decryptKM ns _ k | .buildPassive ns _ _ _ k => ns = msg.ns ∧ ∃ x, keyForUs M msg = some (k, x)
  | _ => True

theorem for_looks {o : Op} (h : Op.looks o = true) : For M msg o := by
  cases o <;> first
    | trivial
    | (cases h; done)

theorem for_decrypt : AllOps (For M msg) (decrypt M msg) := by
  unfold decrypt
  refine .bind (.perform trivial) fun bs => ?_
  split
  · trivial
  · split
    · trivial
    · rename_i k x hk
      have hk : keyForUs M msg = some (k, x) := hk
      refine .bind (ops_findSender.mono fun _ h => for_looks h) fun dev => .bind ?_ fun r => .bind ?_ fun _ => trivial
      · have hd : ∀ s, For M msg (.decryptKM msg.ns s k) := fun s => ⟨rfl, x, hk⟩
        have hb : ∀ j d y, For M msg (.buildPassive msg.ns j d y k) := fun j d y => ⟨rfl, x, hk⟩
        unfold decryptContent keyMaterial plaintextOf decryptKeyMaterial handleKeyExchange
        lib_ops [hd, hb]
      · unfold postDecrypt consumePreKey discardPreKey refillPreKeys autoReply queueEmpty sendEmptyMessage
        lib_ops []

theorem inner {r} (he : Exec (Call.run M (.decrypt msg)) t r) : ∃ r', Exec (decrypt M msg) t r' := by
  rcases exec_seq.1 he with ⟨t1, a, t2, rfl, h1, h2⟩ | ⟨e, h1, rfl⟩ | ⟨h1, rfl⟩
  · obtain ⟨rfl, rfl⟩ := exec_pure.1 h2
    exact ⟨_, by simpa using h1⟩
  · exact ⟨_, h1⟩
  · exact ⟨_, h1⟩

theorem inner_ok (he : Exec (Call.run M (.decrypt msg)) t (.ok ())) : ∃ p dev km, Exec (decrypt M msg) t (.ok (p, dev, km)) := by
  rcases exec_seq.1 he with ⟨t1, a, t2, rfl, h1, h2⟩ | ⟨e, h1, h2⟩ | ⟨h1, h2⟩
  · obtain ⟨rfl, -⟩ := exec_pure.1 h2
    exact ⟨_, _, _, by simpa using h1⟩
  · cases h2
  · cases h2

/-- What is read is what the message has for this device. -/
theorem read_for {r} (hd : MildDecisions M) (he : Exec (Call.run M (.decrypt msg)) t r) (hk : ∀ e ∈ t, Lasts e) (hr : ReadIn ns j d k t) :
    (ns = msg.ns ∧ j = msg.bareJid ∧ d = msg.deviceId) ∧ (∃ x, keyForUs M msg = some (k, x)) ∧
      ((∃ s m s', (⟨.decryptKM ns s k, .ok (m, s')⟩ : Ev) ∈ t ∧ Made t ns j d s) ∨ ∃ x s m, (⟨.buildPassive ns j d x k, .ok (s, m)⟩ : Ev) ∈ t) := by
  have hb : Guarded (Belongs M.ownJid M.ownDev (fun m => Call.decrypt msg = .decrypt m)) t :=
    Kn.exec (Belongs.kn_call (K := fun _ => True) _ (fun _ h => h) (Crossing.grd_plain (OneTime.MildDecisions.plain hd))) he
  obtain ⟨r', he'⟩ := inner he
  rcases hr with ⟨s, m, s', hm, hs⟩ | ⟨x, s, m, hm⟩
  · obtain ⟨hn, hkey⟩ := for_decrypt.exec he' _ hm
    obtain ⟨h1, h2, ht⟩ := List.append_of_mem hm
    obtain ⟨msg', _, hmsg, -, -, hmade⟩ := hb h1 _ h2 ht
    cases hmsg
    have hmade := Belongs.Made.mono (h' := t) (fun _ h => by rw [ht]; exact List.mem_append_left _ h) hmade
    obtain ⟨h5, h6⟩ := Crossing.made_with hk hmade
    obtain ⟨rfl, rfl⟩ := hs
    exact ⟨⟨hn, h5, h6⟩, hkey, .inl ⟨s, m, s', hm, h5 ▸ h6 ▸ hmade⟩⟩
  · obtain ⟨hn, hkey⟩ := for_decrypt.exec he' _ hm
    obtain ⟨h1, h2, ht⟩ := List.append_of_mem hm
    obtain ⟨msg', hmsg, -, -, h3, h4⟩ := hb h1 _ h2 ht
    cases hmsg
    exact ⟨⟨hn, h3, h4⟩, hkey, .inr ⟨x, s, m, hm⟩⟩

/-- After `decrypt` has returned, all sessions it has stored have used up the key material it has read, and the one with the sender is stored. -/
theorem stored (he : Exec (Call.run M (.decrypt msg)) t (.ok ())) (hk : ∀ e ∈ t, Lasts e) (hf : ∀ e ∈ t, ∃ u, Fading src used u e) {x} (hkey : keyForUs M msg = some (k, x)) :
    (∀ s y, (⟨.storeSession msg.ns s, y⟩ : Ev) ∈ t → Session.origin s = src k ∧ used s k) ∧
      ∃ u s v, t = u ++ (⟨.storeSession msg.ns s, .ok ()⟩ : Ev) :: v ∧ Session.with s msg.bareJid msg.deviceId := by
  obtain ⟨p, dev, km, he⟩ := inner_ok he
  have recv : ∀ s h, (∀ e ∈ h, e ∈ t) → Received M msg h s → (Session.origin s = src k ∧ used s k) ∧ Session.with s msg.bareJid msg.deviceId := by
    intro s h hs hr
    cases hr with
    | @used k0 x0 s0 m h1 h2 h3 =>
      rw [hkey] at h1
      cases h1
      obtain ⟨u, hu⟩ := hf _ (hs _ h3)
      obtain ⟨⟨h4, -⟩, h5, -⟩ := hu.decrypt _ _ _ _ _ rfl
      obtain ⟨h6, h7, h8⟩ := (hk _ (hs _ h3)).decrypt _ _ _ _ _ rfl
      obtain ⟨h9, h10⟩ := (hk _ (hs _ h2)).load _ _ _ _ rfl
      exact ⟨⟨by rw [h4, Session.origin, Session.origin, h7, h8], h5⟩, h6.1.trans h9, h6.2.trans h10⟩
    | @built k0 x0 m h1 h2 =>
      rw [hkey] at h1
      cases h1
      obtain ⟨u, hu⟩ := hf _ (hs _ h2)
      obtain ⟨h4, h5⟩ := hu.passive _ _ _ _ _ _ _ rfl
      obtain ⟨h6, h7, h8⟩ := (hk _ (hs _ h2)).passive _ _ _ _ _ _ _ rfl
      exact ⟨⟨by rw [h4, Session.origin, h7, h8], h5⟩, h6⟩
  have rule := Kn.exec (Echo.kn_decrypt (M := M) (msg := msg) (K := fun _ => True)) he
  have all : ∀ s u y v, t = u ++ (⟨.storeSession msg.ns s, y⟩ : Ev) :: v → (Session.origin s = src k ∧ used s k) ∧ Session.with s msg.bareJid msg.deviceId := by
    intro s u y v ht
    have hs : ∀ e ∈ u, e ∈ t := fun e h => by rw [ht]; exact List.mem_append_left _ h
    rcases rule u _ v ht with h | ⟨s0, h0, -, -, -, -, km, k', h1⟩
    · exact recv s u hs h
    · obtain ⟨⟨h2, h3⟩, h4⟩ := recv s0 u hs h0
      obtain ⟨⟨h5, h6, h7⟩, -⟩ := (hk _ (hs _ h1)).encrypt _ _ _ _ _ rfl
      obtain ⟨w, hw⟩ := hf _ (hs _ h1)
      exact ⟨⟨by rw [← h2, Session.origin, Session.origin, h6, h7], hw.encrypt _ _ _ _ _ rfl k h3⟩, h5.1.trans h4.1, h5.2.trans h4.2⟩
  refine ⟨fun s y hm => ?_, ?_⟩
  · obtain ⟨u, v, ht⟩ := List.append_of_mem hm
    exact (all s u y v ht).1
  · obtain ⟨-, -, s, u, v, -, ht, -⟩ := C40_stored M msg t p dev km he
    exact ⟨u, s, v, ht, (all s u _ v ht).2⟩

end Replay

open Replay in
/-- C112, partial: as long as giving up pre keys does not fail, the process does not die between storing a session and giving up its pre key, and no session is built with a
pre key while it is hidden, a message is not read twice.  Missing: these cases (see `C112_refuted`). -/
theorem C112_partial (pk : KeyExchange → Nat) (offers : Bundle → List Nat) (src : EncKM → Initiation × KeyExchange) (used : Session → EncKM → Prop) (ns : Ns) (j : Jid) (d : DevId)
    (k : EncKM) (h1 t1 h2 t2 : List Ev) (hs : Sitting GivesUp h1 t1 h2 t2) (hb : Guarded (PreKeyed pk offers) (h1 ++ t1 ++ (h2 ++ t2)))
    (hf : Guarded (Fading src used) (h1 ++ t1 ++ (h2 ++ t2))) (hw : ∃ w, (Shelf ns j d).Runs none (h1 ++ t1 ++ (h2 ++ t2)) w)
    (hn : NoneRevived pk (h1 ++ t1 ++ (h2 ++ t2))) (hr : ReadIn ns j d k t1) : ¬ ReadIn ns j d k t2 := by
  intro hr2
  obtain ⟨hbefore, ⟨M1, m1, hd1, he1, hp1⟩, hbetween, ⟨M2, m2, r2, hd2, he2, hp2⟩⟩ := hs
  have hlast : ∀ e ∈ h1 ++ t1 ++ (h2 ++ t2), Lasts e := fun e he => let ⟨_, h⟩ := guarded_mem hb he; h.lasts
  have hfade : ∀ e ∈ h1 ++ t1 ++ (h2 ++ t2), ∃ u, Fading src used u e := fun e he => guarded_mem hf he
  have in1 : ∀ {e}, e ∈ t1 → e ∈ h1 ++ t1 ++ (h2 ++ t2) := fun h => by simp [h]
  have in2 : ∀ {e}, e ∈ h2 ++ t2 → e ∈ h1 ++ t1 ++ (h2 ++ t2) := fun h => List.mem_append_right _ h
  have d1 : Days GivesUp (h1 ++ t1) := .call hbefore hd1 he1 ⟨hp1.hide, hp1.delete, hp1.field, fun h => by cases h⟩
  have d2 : Days GivesUp (h2 ++ t2) := .call hbetween hd2 he2 hp2
  have one := (C103_partial pk offers _ (days_append d1 d2) hb).1
  -- the first call
  obtain ⟨⟨rfl, rfl, rfl⟩, ⟨x1, hx1⟩, -⟩ := read_for hd1 he1 (fun e he => hlast e (in1 he)) hr
  obtain ⟨hst, u, s1, v, ht1, hs1⟩ := stored (src := src) (used := used) he1 (fun e he => hlast e (in1 he)) (fun e he => hfade e (in1 he)) hx1
  have ho := hst s1 (.ok ()) (by rw [ht1]; simp)
  obtain ⟨w, hw⟩ := hw
  obtain ⟨w1, hw1, hw2⟩ := Sem.runs_append.1 hw
  have hφ1 : ∀ s, w1 = some s → Session.origin s = src k → used s k := by
    rw [ht1] at hw1
    obtain ⟨w0, -, h4⟩ := Sem.runs_append.1 (by rw [← List.append_assoc] at hw1; exact hw1)
    refine shelf_stores h4.2 ?_ fun s hm _ _ => (hst s (.ok ()) (by rw [ht1]; simp [hm])).2
    intro s h5 _
    unfold Shelf at h5
    dsimp only at h5
    rw [if_pos ⟨rfl, hs1⟩] at h5
    cases h5
    exact ho.2
  -- sessions built later
  have later : ∀ x y s m, (⟨.buildPassive m1.ns m1.bareJid m1.deviceId x y, .ok (s, m)⟩ : Ev) ∈ h2 ++ t2 → src k ≠ (.passive, x) := by
    intro x y s m hm hx
    obtain ⟨a, b, hab⟩ := List.append_of_mem hm
    rw [hx] at ho
    have h5 : s1.initiation = .passive := congrArg Prod.fst ho.1
    have h6 : s1.keyExchange = x := congrArg Prod.snd ho.1
    have h7 : h1 ++ t1 ++ (h2 ++ t2) = (h1 ++ u) ++ (⟨.storeSession m1.ns s1, .ok ()⟩ : Ev) ::
        ((v ++ a) ++ (⟨.buildPassive m1.ns m1.bareJid m1.deviceId x y, .ok (s, m)⟩ : Ev) :: b) := by rw [ht1, hab]; simp
    exact hn ((h1 ++ u) ++ (⟨.storeSession m1.ns s1, .ok ()⟩ : Ev) :: (v ++ a)) m1.ns m1.bareJid m1.deviceId x y (s, m) b (by rw [h7]; simp)
      (one (h1 ++ u) m1.ns s1 (v ++ a) _ _ _ _ _ _ b h7 h5 (by rw [h6]))
  have hφa : ∀ b m s y, (⟨.buildActive m1.ns m1.bareJid m1.deviceId b m, .ok (s, y)⟩ : Ev) ∈ h2 ++ t2 → Session.origin s = src k → used s k := by
    intro b m s y hm h5
    exfalso
    have h6 : s.initiation = .active := ((hlast _ (in2 hm)).active _ _ _ _ _ _ _ rfl).1.2
    rw [← ho.1] at h5
    have h7 : s1.initiation = .active := (congrArg Prod.fst h5).symm.trans h6
    obtain ⟨b', m', s', k', h8, h9⟩ := active_built (stems_days d1) (OneTime.guarded_left hb) m1.ns s1 (by rw [ht1]; simp) h7
    obtain ⟨a, c, hac⟩ := List.append_of_mem hm
    refine (hf (h1 ++ t1 ++ a) ⟨.buildActive m1.ns m1.bareJid m1.deviceId b m, .ok (s, y)⟩ c (by rw [hac]; simp)).active _ _ _ _ _ _ _ rfl _ _ b' m' s' k' (List.mem_append_left _ h8) ?_
    exact h9.trans (congrArg Prod.snd h5).symm
  have hφp : ∀ x y s m, (⟨.buildPassive m1.ns m1.bareJid m1.deviceId x y, .ok (s, m)⟩ : Ev) ∈ h2 ++ t2 → Session.origin s = src k → used s k := by
    intro x y s m hm h5
    obtain ⟨-, h6, h7⟩ := (hlast _ (in2 hm)).passive _ _ _ _ _ _ _ rfl
    exact absurd (by rw [← h5, Session.origin, h6, h7]) (later x y s m hm)
  have hφe : ∀ s m y s', (⟨.encryptKM m1.ns s m, .ok (y, s')⟩ : Ev) ∈ h2 ++ t2 → (Session.origin s = src k → used s k) → Session.origin s' = src k → used s' k := by
    intro s m y s' hm h5 h6
    obtain ⟨⟨-, h7, h8⟩, -⟩ := (hlast _ (in2 hm)).encrypt _ _ _ _ _ rfl
    obtain ⟨_, h9⟩ := hfade _ (in2 hm)
    exact h9.encrypt _ _ _ _ _ rfl k (h5 (by rw [← h6, Session.origin, Session.origin, h7, h8]))
  have hφd : ∀ s m y s', (⟨.decryptKM m1.ns s y, .ok (m, s')⟩ : Ev) ∈ h2 ++ t2 → (Session.origin s = src k → used s k) → Session.origin s' = src k → used s' k := by
    intro s m y s' hm h5 h6
    obtain ⟨-, h7, h8⟩ := (hlast _ (in2 hm)).decrypt _ _ _ _ _ rfl
    obtain ⟨_, h9⟩ := hfade _ (in2 hm)
    exact (h9.decrypt _ _ _ _ _ rfl).2.2 k (h5 (by rw [← h6, Session.origin, Session.origin, h7, h8]))
  have loads := shelf_all (φ := fun s => Session.origin s = src k → used s k) (stems_days d2) (fun e he => hlast e (in2 he)) hφa hφp hφe hφd hw2 hφ1
  -- the second call
  obtain ⟨-, -, hr2⟩ := read_for hd2 he2 (fun e he => hlast e (in2 (List.mem_append_right _ he))) hr2
  rcases hr2 with ⟨s, m, s', hm, hmade⟩ | ⟨x, s, m, hm⟩
  · have hm2 := in2 (List.mem_append_right h2 hm)
    obtain ⟨_, h9⟩ := hfade _ hm2
    obtain ⟨⟨h10, h11⟩, -⟩ := h9.decrypt _ _ _ _ _ rfl
    refine h11 (made_all (φ := fun s => Session.origin s = src k → used s k) (h := h2 ++ t2) loads hφa hφp hφe hφd (Belongs.Made.mono (fun _ h => List.mem_append_right _ h) hmade) h10.symm)
  · have hm2 := in2 (List.mem_append_right h2 hm)
    obtain ⟨_, h9⟩ := hfade _ hm2
    exact later x k s m (List.mem_append_right _ hm) (h9.passive _ _ _ _ _ _ _ rfl).1

open Replay in
/-- Nor is it read when another device passes it off as its own. -/
theorem C112_other_partial (pk : KeyExchange → Nat) (offers : Bundle → List Nat) (src : EncKM → Initiation × KeyExchange) (used : Session → EncKM → Prop) (ns : Ns) (j : Jid)
    (d : DevId) (j' : Jid) (d' : DevId) (k : EncKM) (h1 t1 h2 t2 : List Ev) (hs : Sitting GivesUp h1 t1 h2 t2) (hb : Guarded (PreKeyed pk offers) (h1 ++ t1 ++ (h2 ++ t2)))
    (hf : Guarded (Fading src used) (h1 ++ t1 ++ (h2 ++ t2))) (hn : NoneRevived pk (h1 ++ t1 ++ (h2 ++ t2))) (hj : ¬ (j' = j ∧ d' = d)) (hr : ReadIn ns j d k t1) :
    ¬ ReadIn ns j' d' k t2 := by
  intro hr2
  obtain ⟨hbefore, ⟨M1, m1, hd1, he1, hp1⟩, hbetween, ⟨M2, m2, r2, hd2, he2, hp2⟩⟩ := hs
  have hlast : ∀ e ∈ h1 ++ t1 ++ (h2 ++ t2), Lasts e := fun e he => let ⟨_, h⟩ := guarded_mem hb he; h.lasts
  have hfade : ∀ e ∈ h1 ++ t1 ++ (h2 ++ t2), ∃ u, Fading src used u e := fun e he => guarded_mem hf he
  have in1 : ∀ {e}, e ∈ t1 → e ∈ h1 ++ t1 ++ (h2 ++ t2) := fun h => by simp [h]
  have in2 : ∀ {e}, e ∈ t2 → e ∈ h1 ++ t1 ++ (h2 ++ t2) := fun h => by simp [h]
  have d1 : Days GivesUp (h1 ++ t1) := .call hbefore hd1 he1 ⟨hp1.hide, hp1.delete, hp1.field, fun h => by cases h⟩
  have d2 : Days GivesUp (h1 ++ t1 ++ (h2 ++ t2)) := days_append d1 (.call hbetween hd2 he2 hp2)
  -- the first call
  obtain ⟨⟨rfl, rfl, rfl⟩, ⟨x1, hx1⟩, -⟩ := read_for hd1 he1 (fun e he => hlast e (in1 he)) hr
  obtain ⟨hst, u, s1, v, ht1, hs1⟩ := stored (src := src) (used := used) he1 (fun e he => hlast e (in1 he)) (fun e he => hfade e (in1 he)) hx1
  have hmem : (⟨.storeSession m1.ns s1, .ok ()⟩ : Ev) ∈ t1 := by rw [ht1]; simp
  have ho := (hst s1 (.ok ()) hmem).1
  have fresh : ∀ {x y z}, (⟨.buildPassive m1.ns j' d' x y, .ok z⟩ : Ev) ∈ t2 → src k ≠ (.passive, x) := by
    intro x y z hm hx
    rw [hx] at ho
    have h6 : s1.keyExchange = x := congrArg Prod.snd ho
    exact no_rebuild d2 hb hn (List.mem_append_right _ hmem) (congrArg Prod.fst ho) (List.mem_append_right h2 (h6 ▸ hm))
  have twice : ∀ {b m s y b' m' s' y'}, (⟨.buildActive m1.ns m1.bareJid m1.deviceId b m, .ok (s, y)⟩ : Ev) ∈ h1 ++ t1 ++ (h2 ++ t2) →
      (⟨.buildActive m1.ns j' d' b' m', .ok (s', y')⟩ : Ev) ∈ h1 ++ t1 ++ (h2 ++ t2) → s.keyExchange ≠ s'.keyExchange := by
    intro b m s y b' m' s' y' hm hm' he
    obtain ⟨p, q, hpq⟩ := List.append_of_mem hm
    rw [hpq] at hm'
    rcases List.mem_append.1 hm' with h | h
    · exact (hf p _ q hpq).active _ _ _ _ _ _ _ rfl _ _ _ _ _ _ h he.symm
    · rcases List.mem_cons.1 h with h | h
      · injection h with h _
        injection h with _ h3 h4 _ _
        exact hj ⟨h3, h4⟩
      · obtain ⟨p', q', rfl⟩ := List.append_of_mem h
        exact (hf (p ++ ⟨.buildActive m1.ns m1.bareJid m1.deviceId b m, .ok (s, y)⟩ :: p') ⟨.buildActive m1.ns j' d' b' m', .ok (s', y')⟩ q' (by rw [hpq]; simp)).active
          _ _ _ _ _ _ _ rfl m1.bareJid m1.deviceId b m s y (by simp) he
  -- the second call
  obtain ⟨-, -, hr2⟩ := read_for hd2 he2 (fun e he => hlast e (in2 he)) hr2
  rcases hr2 with ⟨s, m, s', hm, hmade⟩ | ⟨x, s, m, hm⟩
  · obtain ⟨_, h9⟩ := hfade _ (in2 hm)
    refine Crossing.made_kind (φ := fun i y => src k = (i, y) → False) (fun e he => hlast e (in2 he)) (fun s0 h0 h3 => ?_) (fun b n s0 y h0 h3 => ?_) (fun x y s0 n h0 h3 => ?_)
      hmade (h9.decrypt _ _ _ _ _ rfl).1.1
    · obtain ⟨w1, w2⟩ := (hlast _ (in2 h0)).load _ _ _ _ rfl
      obtain ⟨a, b, rfl⟩ := List.append_of_mem h0
      have hl := (hb (h1 ++ t1 ++ (h2 ++ a)) ⟨.loadSession m1.ns j' d', .ok (some s0)⟩ b (by simp)).load _ _ _ _ rfl
      have hl : (⟨.storeSession m1.ns s0, .ok ()⟩ : Ev) ∈ h1 ++ t1 ++ (h2 ++ (a ++ ⟨.loadSession m1.ns j' d', .ok (some s0)⟩ :: b)) := by
        simp only [List.mem_append] at hl ⊢
        rcases hl with hl | hl | hl
        · exact .inl hl
        · exact .inr (.inl hl)
        · exact .inr (.inr (.inl hl))
      have he := ho.trans h3
      have k1 : s1.initiation = s0.initiation := congrArg Prod.fst he
      have k2 : s1.keyExchange = s0.keyExchange := congrArg Prod.snd he
      cases hi : s0.initiation with
      | passive =>
        have := one_device d2 hb hn _ s1 s0 (in1 hmem) hl (k1.trans hi) hi k2
        exact hj ⟨w1.symm.trans (this.1.symm.trans hs1.1), w2.symm.trans (this.2.symm.trans hs1.2)⟩
      | active =>
        obtain ⟨_, _, _, _, g1, g2⟩ := active_built (stems_days d2) hb _ s1 (in1 hmem) (k1.trans hi)
        obtain ⟨_, _, _, _, g3, g4⟩ := active_built (stems_days d2) hb _ s0 hl hi
        rw [hs1.1, hs1.2] at g1
        rw [w1, w2] at g3
        exact twice g1 g3 (g2.trans (k2.trans g4.symm))
    · have h6 : s0.initiation = .active := ((hlast _ (in2 h0)).active _ _ _ _ _ _ _ rfl).1.2
      have he := ho.trans h3
      obtain ⟨_, _, _, _, g1, g2⟩ := active_built (stems_days d2) hb _ s1 (in1 hmem) ((congrArg Prod.fst he).trans h6)
      rw [hs1.1, hs1.2] at g1
      exact twice g1 (in2 h0) (g2.trans (congrArg Prod.snd he))
    · obtain ⟨-, h6, h7⟩ := (hlast _ (in2 h0)).passive _ _ _ _ _ _ _ rfl
      rw [h6, h7] at h3
      exact fresh h0 h3
  · obtain ⟨_, h9⟩ := hfade _ (in2 hm)
    exact fresh hm (h9.passive _ _ _ _ _ _ _ rfl).1

open Replay in
/-- In particular, if the device never synchronizes its history. -/
theorem C112_unsynced_partial (pk : KeyExchange → Nat) (offers : Bundle → List Nat) (src : EncKM → Initiation × KeyExchange) (used : Session → EncKM → Prop) (ns : Ns) (j : Jid)
    (d : DevId) (k : EncKM) (h1 t1 h2 t2 : List Ev) (hs : Sitting GivesUp h1 t1 h2 t2) (hb : Guarded (PreKeyed pk offers) (h1 ++ t1 ++ (h2 ++ t2)))
    (hf : Guarded (Fading src used) (h1 ++ t1 ++ (h2 ++ t2))) (hw : ∃ w, (Shelf ns j d).Runs none (h1 ++ t1 ++ (h2 ++ t2)) w)
    (hn : (⟨.getSync, .ok true⟩ : Ev) ∉ h1 ++ t1 ++ (h2 ++ t2)) (hr : ReadIn ns j d k t1) : ¬ ReadIn ns j d k t2 := by
  refine C112_partial pk offers src used ns j d k h1 t1 h2 t2 hs hb hf hw ?_ hr
  obtain ⟨hbefore, ⟨M1, m1, hd1, he1, hp1⟩, hbetween, ⟨M2, m2, r2, hd2, he2, hp2⟩⟩ := hs
  have hd : Days (fun _ _ => True) (h1 ++ t1 ++ (h2 ++ t2)) :=
    days_append (.call (days_mono (fun _ _ _ => trivial) hbefore) hd1 he1 trivial) (.call (days_mono (fun _ _ _ => trivial) hbetween) hd2 he2 trivial)
  rintro a ns j d x k y b hh ⟨u, s, c, v, rfl, -, -⟩
  obtain ⟨u', rfl⟩ := OneTime.reads_days hd u ⟨.hidePreKey ns s, .ok c⟩ (v ++ (⟨.buildPassive ns j d x k, .ok y⟩ : Ev) :: b) (by rw [hh]; simp)
  exact hn (by rw [hh]; simp)

/-! ### Runs -/

namespace Replay

/-- Key material `10 * x + i` is number `i` for the session from key exchange `x`; sessions count what they have decrypted. -/
def fading : World → (o : Op) → Except Exn o.Ret
  | _, .buildPassive ns j d x k => if x = ⟨[7], k.blob / 10⟩ then .ok (⟨ns, j, d, .passive, false, x, some 1, 0, k.blob % 10 + 1⟩, ⟨1⟩) else .error .keyExchangeFailed
  | _, .decryptKM _ s k => if (s.initiation = .passive ∧ s.keyExchange = ⟨[7], k.blob / 10⟩) ∧ s.blob ≤ k.blob % 10 then .ok (⟨1⟩, { s with blob := k.blob % 10 + 1 })
      else .error .decryptionFailed
  | w, o => OneTime.counting w o

def exSrc (k : EncKM) : Initiation × KeyExchange := (.passive, ⟨[7], k.blob / 10⟩)
def exUsed (s : Session) (k : EncKM) : Prop := k.blob % 10 < s.blob

def fadesB (e : Ev) : Bool := match e with
  | ⟨.decryptKM _ s k, .ok (_, s')⟩ => decide ((exSrc k = Session.origin s ∧ s.blob ≤ k.blob % 10) ∧ k.blob % 10 < s'.blob)
  | ⟨.buildPassive _ _ _ x k, .ok (s, _)⟩ => decide (exSrc k = (.passive, x) ∧ k.blob % 10 < s.blob)
  | ⟨.encryptKM _ s _, .ok (_, s')⟩ => decide (s.blob ≤ s'.blob)
  | ⟨.buildActive .., _⟩ => false
  | _ => true

theorem fades_of {h : List Ev} (hb : h.all fadesB = true) : Guarded (Fading exSrc exUsed) h := by
  intro h1 e h2 hh
  have := List.all_eq_true.1 hb e (by rw [hh]; simp)
  refine ⟨?_, ?_, ?_, ?_⟩
  · rintro ns s k m s' rfl
    obtain ⟨⟨h3, h4⟩, h5⟩ := of_decide_eq_true this
    exact ⟨⟨h3, Nat.not_lt.2 h4⟩, h5, fun k' h => Nat.lt_trans (Nat.lt_of_lt_of_le h h4) h5⟩
  · rintro ns j d x k s m rfl
    have h3 : exSrc k = (.passive, x) ∧ k.blob % 10 < s.blob := of_decide_eq_true this
    exact h3
  · rintro ns s m k s' rfl k' h
    exact Nat.lt_of_lt_of_le h (of_decide_eq_true this)
  · rintro ns j d b m s k rfl
    cases this

/-- A call in a state. -/
def step (c : Call) (w : World) : List Ev × Res Exn Unit × World := runProg (Lib.env fading) Lib.next 200 (c.run Mgr.ex) w

theorem step_exec (c : Call) (w : World) : Exec (c.run Mgr.ex) (step c w).1 (step c w).2.1 := runProg_exec (Lib.env fading) Lib.next 200 _ w

/-- Two messages of a session, and one of another. -/
def one : Message := ⟨"n", "a", 7, ⟨false, 1⟩, [(⟨"me", 1, 10⟩, some ⟨[7], 1⟩)]⟩
def two : Message := ⟨"n", "a", 7, ⟨false, 1⟩, [(⟨"me", 1, 11⟩, some ⟨[7], 1⟩)]⟩
def other : Message := ⟨"n", "a", 7, ⟨false, 1⟩, [(⟨"me", 1, 110⟩, some ⟨[7], 11⟩)]⟩

/-- While old messages are fetched: a message, one of a new session, and the first once more. -/
def w1 : World := (step .beforeHistorySync .side).2.2
def w2 : World := (step (.decrypt one) w1).2.2
def w3 : World := (step (.decrypt other) w2).2.2

def builtB (k : EncKM) (e : Ev) : Bool := match e with
  | ⟨.buildPassive "n" "a" 7 _ k', .ok _⟩ => decide (k' = k)
  | _ => false

theorem read_of {t : List Ev} {k : EncKM} (h : t.any (builtB k) = true) : ReadIn "n" "a" 7 k t := by
  obtain ⟨e, hm, he⟩ := List.any_eq_true.1 h
  unfold builtB at he
  split at he
  · rename_i y
    obtain rfl := of_decide_eq_true he
    exact .inr ⟨_, y.1, y.2, hm⟩
  · cases he

end Replay

open Replay in
/-- The claim in full does not hold: during history synchronization, the pre key of the first message stays usable.  If the sender has begun a new session in between, the
same message is read again, and the session of the new one is lost. -/
theorem C112_refuted : ¬ C112_Claim := by
  intro h
  have ok : (step (.decrypt one) w1).2.1 = .ok () := by decide +kernel
  refine h OneTime.key OneTime.keys exSrc exUsed "n" "a" 7 ⟨"me", 1, 10⟩ ([] ++ (step .beforeHistorySync .side).1) (step (.decrypt one) w1).1 ([] ++ (step (.decrypt other) w2).1)
    (step (.decrypt one) w3).1 ⟨.call .start OneTime.mild_ex (step_exec _ _) trivial, ⟨Mgr.ex, one, OneTime.mild_ex, ok ▸ step_exec _ _, trivial⟩,
      .call .start OneTime.mild_ex (step_exec _ _) trivial, Mgr.ex, one, _, OneTime.mild_ex, step_exec _ _, trivial⟩ (OneTime.all_of (by decide +kernel)) (fades_of (by decide +kernel))
    ⟨_, Run.shelf_of (by decide +kernel)⟩ (read_of (by decide +kernel)) (read_of (by decide +kernel))

namespace Replay

/-- Outside of history synchronization: two messages, then the first once more. -/
def v1 : World := (step (.decrypt one) .side).2.2
def v2 : World := (step (.decrypt two) v1).2.2

theorem done_of {c : Call} {w : World} {d : Prop} (h1 : ¬ d) (h2 : (step c w).1.any OneTime.failsB = false) : GivesUp (step c w).1 d where
  hide ns s e hm := absurd (List.any_eq_false.1 h2 _ hm) (by simp [OneTime.failsB])
  delete ns s e hm := absurd (List.any_eq_false.1 h2 _ hm) (by simp [OneTime.failsB])
  field e hm := absurd (List.any_eq_false.1 h2 _ hm) (by simp [OneTime.failsB])
  alive hc := absurd hc h1

def usedB (k : EncKM) (e : Ev) : Bool := match e with
  | ⟨.decryptKM "n" _ k', .ok _⟩ => decide (k' = k)
  | _ => false

end Replay

open Replay in
/-- The hypotheses of `C112_partial` are met: a message is read, the next one too, with the same session; the first is not read again. -/
theorem C112_example : ∃ t1 h2 t2 : List Ev, Sitting GivesUp [] t1 h2 t2 ∧ ReadIn "n" "a" 7 ⟨"me", 1, 10⟩ t1 ∧ h2.any (usedB ⟨"me", 1, 11⟩) = true ∧
    ¬ ReadIn "n" "a" 7 ⟨"me", 1, 10⟩ t2 ∧ Exec (Call.run Mgr.ex (.decrypt one)) t2 (.raised .decryptionFailed) := by
  have ok1 : (step (.decrypt one) .side).2.1 = .ok () := by decide +kernel
  have ok2 : (step (.decrypt two) v1).2.1 = .ok () := by decide +kernel
  have ok3 : (step (.decrypt one) v2).2.1 = .raised .decryptionFailed := by decide +kernel
  have e3 : Exec (Call.run Mgr.ex (.decrypt one)) (step (.decrypt one) v2).1 (.raised .decryptionFailed) := ok3 ▸ step_exec _ _
  have hs : Sitting GivesUp [] (step (.decrypt one) .side).1 ([] ++ (step (.decrypt two) v1).1) (step (.decrypt one) v2).1 :=
    ⟨.start, ⟨Mgr.ex, one, OneTime.mild_ex, ok1 ▸ step_exec _ _, done_of id (by decide +kernel)⟩,
      .call .start OneTime.mild_ex (step_exec _ _) (done_of (by rw [ok2]; nofun) (by decide +kernel)), Mgr.ex, one, _, OneTime.mild_ex, e3, done_of nofun (by decide +kernel)⟩
  have hr : ReadIn "n" "a" 7 ⟨"me", 1, 10⟩ (step (.decrypt one) .side).1 := read_of (by decide +kernel)
  have hn : ([] ++ (step (.decrypt one) .side).1 ++ (([] ++ (step (.decrypt two) v1).1) ++ (step (.decrypt one) v2).1)).any OneTime.hidesB = false := by decide +kernel
  refine ⟨_, _, _, hs, hr, by decide +kernel, ?_, e3⟩
  refine C112_partial OneTime.key OneTime.keys exSrc exUsed "n" "a" 7 ⟨"me", 1, 10⟩ _ _ _ _ hs (OneTime.all_of (by decide +kernel)) (fades_of (by decide +kernel))
    ⟨_, Run.shelf_of (by decide +kernel)⟩ ?_ hr
  rintro h1 ns j d x k y h2 hh ⟨u, s, b, v, rfl, -, -⟩
  exact List.any_eq_false.1 hn ⟨.hidePreKey ns s, .ok b⟩ (by rw [hh]; simp) rfl

namespace Replay

/-- Another device of the same person. -/
def pair : World := { World.side with disk := fun k => match k with
  | .devList "a" => some (.ofInts [7, 8])
  | .devNamespaces "a" 8 => some (.ofStrs ["n"])
  | .devActive "a" 8 => some (.ofBools [("n", true)])
  | .devLabel "a" 8 => some (.ofOptStr none)
  | .devIdentityKey "a" 8 => some (.str (Base64.encode [7]))
  | k => World.side.disk k }

/-- It begins a session, and passes the first message of the other one off as its own. -/
def begins : Message := ⟨"n", "a", 8, ⟨false, 1⟩, [(⟨"me", 1, 120⟩, some ⟨[7], 12⟩)]⟩
def copied : Message := ⟨"n", "a", 8, ⟨false, 1⟩, [(⟨"me", 1, 10⟩, none)]⟩

def p1 : World := (step (.decrypt one) pair).2.2
def p2 : World := (step (.decrypt begins) p1).2.2

end Replay

open Replay in
/-- The hypotheses of `C112_other_partial` are met: both devices have a session, and what one has sent is not decrypted with the session of the other. -/
theorem C112_other_example : ∃ t1 h2 t2 : List Ev, Sitting GivesUp [] t1 h2 t2 ∧ ReadIn "n" "a" 7 ⟨"me", 1, 10⟩ t1 ∧ ¬ ReadIn "n" "a" 8 ⟨"me", 1, 10⟩ t2 ∧
    Exec (Call.run Mgr.ex (.decrypt copied)) t2 (.raised .decryptionFailed) := by
  have ok1 : (step (.decrypt one) pair).2.1 = .ok () := by decide +kernel
  have ok2 : (step (.decrypt begins) p1).2.1 = .ok () := by decide +kernel
  have ok3 : (step (.decrypt copied) p2).2.1 = .raised .decryptionFailed := by decide +kernel
  have e3 : Exec (Call.run Mgr.ex (.decrypt copied)) (step (.decrypt copied) p2).1 (.raised .decryptionFailed) := ok3 ▸ step_exec _ _
  have hs : Sitting GivesUp [] (step (.decrypt one) pair).1 ([] ++ (step (.decrypt begins) p1).1) (step (.decrypt copied) p2).1 :=
    ⟨.start, ⟨Mgr.ex, one, OneTime.mild_ex, ok1 ▸ step_exec _ _, done_of id (by decide +kernel)⟩,
      .call .start OneTime.mild_ex (step_exec _ _) (done_of (by rw [ok2]; nofun) (by decide +kernel)), Mgr.ex, copied, _, OneTime.mild_ex, e3, done_of nofun (by decide +kernel)⟩
  have hr : ReadIn "n" "a" 7 ⟨"me", 1, 10⟩ (step (.decrypt one) pair).1 := read_of (by decide +kernel)
  have hn : ([] ++ (step (.decrypt one) pair).1 ++ (([] ++ (step (.decrypt begins) p1).1) ++ (step (.decrypt copied) p2).1)).any OneTime.hidesB = false := by decide +kernel
  refine ⟨_, _, _, hs, hr, ?_, e3⟩
  refine C112_other_partial OneTime.key OneTime.keys exSrc exUsed "n" "a" 7 "a" 8 ⟨"me", 1, 10⟩ _ _ _ _ hs (OneTime.all_of (by decide +kernel)) (fades_of (by decide +kernel))
    ?_ (by decide) hr
  rintro h1 ns j d x k y h2 hh ⟨u, s, b, v, rfl, -, -⟩
  exact List.any_eq_false.1 hn ⟨.hidePreKey ns s, .ok b⟩ (by rw [hh]; simp) rfl

/-! ### Calls that overlap -/

/-- C112 for two calls of `decrypt` that overlap, outside of history synchronization. -/
def C112_OverlapClaim : Prop := ∀ pk offers src used ns j d k h1 t1 t2 t M msg1 msg2, MildDecisions M → Days GivesUp h1 → (∀ e ∈ h1 ++ t, e ≠ ⟨.getSync, .ok true⟩) →
  Exec (Call.run M (.decrypt msg1)) t1 (.ok ()) → Exec (Call.run M (.decrypt msg2)) t2 (.ok ()) → Shuffle [t1, t2] t →
  Guarded (PreKeyed pk offers) (h1 ++ t) → Guarded (Fading src used) (h1 ++ t) → (∃ w, (Shelf ns j d).Runs none (h1 ++ t) w) → ReadIn ns j d k t1 → ¬ ReadIn ns j d k t2

namespace Replay

/-- A message without key exchange. -/
def three : Message := ⟨"n", "a", 7, ⟨false, 1⟩, [(⟨"me", 1, 12⟩, none)]⟩

/-- It is given to two calls at the same time. -/
def both := sched (Lib.env fading) Lib.next (List.replicate 40 [0, 1]).flatten [Call.run Mgr.ex (.decrypt three), Call.run Mgr.ex (.decrypt three)] v1

def openedB (k : EncKM) (e : Ev) : Bool := match e with
  | ⟨.decryptKM "n" s k', .ok _⟩ => decide (k' = k ∧ Session.with s "a" 7)
  | _ => false

theorem read_of' {t : List Ev} {k : EncKM} (h : t.any (openedB k) = true) : ReadIn "n" "a" 7 k t := by
  obtain ⟨e, hm, he⟩ := List.any_eq_true.1 h
  unfold openedB at he
  split at he
  · rename_i s k' y
    obtain ⟨rfl, hs⟩ := of_decide_eq_true he
    exact .inl ⟨s, y.1, y.2, hm, hs⟩
  · cases he

end Replay

open Replay in
/-- Two calls that overlap read the same message: both load the session before one of them stores what is left of it. -/
theorem C112_overlap_refuted : ¬ C112_OverlapClaim := by
  intro hc
  have ok1 : (step (.decrypt one) .side).2.1 = .ok () := by decide +kernel
  have hx := sched_ok (⟨fun _ _ => True, Lib.next⟩ : Sem LibSig Exn World) (Lib.env fading) (fun _ _ => trivial) (List.replicate 40 [0, 1]).flatten
    [Call.run Mgr.ex (.decrypt three), Call.run Mgr.ex (.decrypt three)] v1
  change SchedOk _ _ _ both at hx
  have c1 : both.2.1[0]?.any (Prog.isOk fun _ => true) = true := by decide +kernel
  have c2 : both.2.1[1]?.any (Prog.isOk fun _ => true) = true := by decide +kernel
  have c3 : (both.1.all fun t => t.any (openedB ⟨"me", 1, 12⟩)) = true := by decide +kernel
  have c4 : (([] ++ (step (.decrypt one) .side).1 ++ both.2.2.1).all fun e => match e with | ⟨.getSync, .ok true⟩ => false | _ => true) = true := by decide +kernel
  have c5 : Guarded (PreKeyed OneTime.key OneTime.keys) ([] ++ (step (.decrypt one) .side).1 ++ both.2.2.1) := OneTime.all_of (by decide +kernel)
  have c6 : Guarded (Fading exSrc exUsed) ([] ++ (step (.decrypt one) .side).1 ++ both.2.2.1) := fades_of (by decide +kernel)
  have c7 : ∃ w, (Shelf "n" "a" 7).Runs none ([] ++ (step (.decrypt one) .side).1 ++ both.2.2.1) w := ⟨_, Run.shelf_of (by decide +kernel)⟩
  have hd : Days GivesUp ([] ++ (step (.decrypt one) .side).1) :=
    .call .start OneTime.mild_ex (step_exec _ _) (done_of (by rw [ok1]; nofun) (by decide +kernel))
  generalize both = x at hx c1 c2 c3 c4 c5 c6 c7
  obtain ⟨ts, y, t, w'⟩ := x
  obtain ⟨t1, t2, rfl⟩ := list2 (l := ts) hx.len
  obtain ⟨_, e1, -⟩ := hx.isOk 0 rfl rfl _ c1
  obtain ⟨_, e2, -⟩ := hx.isOk 1 rfl rfl _ c2
  simp only [List.all_cons, Bool.and_eq_true] at c3
  exact hc _ _ _ _ "n" "a" 7 ⟨"me", 1, 12⟩ _ t1 t2 t Mgr.ex three three OneTime.mild_ex hd (fun e hm => by
    rintro rfl
    exact absurd (List.all_eq_true.1 c4 _ hm) (by decide)) e1 e2 hx.shuffle c5 c6 c7 (read_of' c3.1) (read_of' c3.2.1)

end Verif
