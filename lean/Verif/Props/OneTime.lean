import Verif.Props.Crossing
import Verif.Props.Outward
/-
Pre keys: each builds one session.
-/
namespace Verif
open SM Spec

namespace Spec

/-- A pre key with number `k` was given up: hidden or deleted. -/
def Discarded (pk : KeyExchange → Nat) (h : List Ev) (ns : Ns) (k : Nat) : Prop :=
  ∃ s b, pk s.keyExchange = k ∧ ((⟨.hidePreKey ns s, .ok b⟩ : Ev) ∈ h ∨ (⟨.deletePreKey ns s, .ok b⟩ : Ev) ∈ h)

/-- A pre key was hidden, and hidden pre keys were not deleted since. -/
def Hidden (pk : KeyExchange → Nat) (h : List Ev) (ns : Ns) (k : Nat) : Prop :=
  ∃ u s b v, h = u ++ (⟨.hidePreKey ns s, .ok b⟩ : Ev) :: v ∧ pk s.keyExchange = k ∧ (⟨.deleteHidden ns, .ok ()⟩ : Ev) ∉ v

/-- A pre key was deleted, at once or after it was hidden. -/
def Gone (pk : KeyExchange → Nat) (h : List Ev) (ns : Ns) (k : Nat) : Prop :=
  (∃ s b, pk s.keyExchange = k ∧ (⟨.deletePreKey ns s, .ok b⟩ : Ev) ∈ h) ∨
    ∃ u s b v, h = u ++ (⟨.hidePreKey ns s, .ok b⟩ : Ev) :: v ∧ pk s.keyExchange = k ∧ (⟨.deleteHidden ns, .ok ()⟩ : Ev) ∈ v

/-- What backends do with pre keys and sessions (backend.py:217-252, 354-418).  `pk`: the pre key a key exchange is made with, where different pre keys have
different numbers, also at different times; `offers`: the pre keys in a bundle. -/
structure PreKeyed (pk : KeyExchange → Nat) (offers : Bundle → List Nat) (h : List Ev) (e : Ev) : Prop where
  lasts : Lasts e
  /-- Sessions that are loaded have been stored. -/
  load : ∀ ns j d s, e = ⟨.loadSession ns j d, .ok (some s)⟩ → (⟨.storeSession ns s, .ok ()⟩ : Ev) ∈ h
  /-- Sessions are built only with pre keys that are there. -/
  build : ∀ ns j d x k s m, e = ⟨.buildPassive ns j d x k, .ok (s, m)⟩ → ¬ Gone pk h ns (pk x)
  /-- Bundles contain neither deleted nor hidden pre keys. -/
  bundle : ∀ ns j d b, e = ⟨.getBundle ns j d, .ok b⟩ → ∀ k ∈ offers b, ¬ Discarded pk h ns k

/-- Trust decisions that do not touch sessions, keys, messages and bundles. -/
def MildDecisions (M : Mgr) : Prop := ∀ ds i, AllOps (fun o : Op => Belongs.plain o = true ∧ (∀ b, o ≠ .uploadBundle b) ∧ ∀ ns d, o ≠ .deleteBundle ns d) (M.decide ds i)

/-- Calls one after the other, each ending anywhere, on one device, possibly with different managers.  `P` restricts the interactions of single calls; its second argument says
whether the process died. -/
inductive Days (P : List Ev → Prop → Prop) : List Ev → Prop
  | start : Days P []
  | call {h M c t r} : Days P h → MildDecisions M → Exec (Call.run M c) t r → P t (r = .crashed) → Days P (h ++ t)

/-- Once a session built by a key exchange is stored, the pre key builds no other session, but while it is hidden. -/
def OneSession (pk : KeyExchange → Nat) (h : List Ev) : Prop := ∀ h1 ns s h2 j d x k s' m h3,
  h = h1 ++ (⟨.storeSession ns s, .ok ()⟩ : Ev) :: (h2 ++ (⟨.buildPassive ns j d x k, .ok (s', m)⟩ : Ev) :: h3) → s.initiation = .passive →
    pk s.keyExchange = pk x → Hidden pk (h1 ++ (⟨.storeSession ns s, .ok ()⟩ : Ev) :: h2) ns (pk x)

/-- Once a session built by a key exchange is stored, the pre key is not offered to others: the bundle is obtained from a backend, and not published if it contains the
pre key of a session of this backend. -/
def NotOffered (pk : KeyExchange → Nat) (offers : Bundle → List Nat) (h : List Ev) : Prop := ∀ h1 b r h2, h = h1 ++ (⟨.uploadBundle b, r⟩ : Ev) :: h2 →
  ∃ ns j d, (⟨.getBundle ns j d, .ok b⟩ : Ev) ∈ h1 ∧
    ∀ s, (⟨.storeSession ns s, .ok ()⟩ : Ev) ∈ h1 → s.initiation = .passive → pk s.keyExchange ∉ offers b

/-- Session built, and stored just now. -/
def JustStored (t : List Ev) : Prop := ∃ u ns s v, t = u ++ (⟨.storeSession ns s, .ok ()⟩ : Ev) :: v ∧
  (∃ j d x k m, (⟨.buildPassive ns j d x k, .ok (s, m)⟩ : Ev) ∈ u) ∧ (v = [] ∨ ∃ b, v = [⟨.getSync, .ok b⟩])

/-- Giving up pre keys does not fail, and the process does not die between storing a session that was just built and giving up its pre key. -/
structure GivesUp (t : List Ev) (died : Prop) : Prop where
  hide : ∀ ns s e, (⟨.hidePreKey ns s, .error e⟩ : Ev) ∉ t
  delete : ∀ ns s e, (⟨.deletePreKey ns s, .error e⟩ : Ev) ∉ t
  field : ∀ e, (⟨.getSync, .error e⟩ : Ev) ∉ t
  alive : died → ¬ JustStored t

end Spec

/-- C103 in full. -/
def C103_Claim : Prop := ∀ pk offers h, Days (fun _ _ => True) h → Guarded (PreKeyed pk offers) h → OneSession pk h ∧ NotOffered pk offers h

namespace OneTime
variable {pk : KeyExchange → Nat} {offers : Bundle → List Nat} {M : Mgr} {c : Call} {h t : List Ev} {r : Res Exn Unit}

theorem MildDecisions.plain (hd : MildDecisions M) : PlainDecisions M := fun ds i => (hd ds i).mono fun _ h => h.1

/-- Only `decrypt` builds sessions from key exchanges. -/
theorem builds (hd : MildDecisions M) (he : Exec (c.run M) t r) {ns j d x k y} (hm : (⟨.buildPassive ns j d x k, y⟩ : Ev) ∈ t) : ∃ msg, c = .decrypt msg := by
  have hg : Guarded (Belongs M.ownJid M.ownDev (fun msg => c = .decrypt msg)) t :=
    Kn.exec (Belongs.kn_call (K := fun _ => True) c (fun _ h => h) (Crossing.grd_plain (MildDecisions.plain hd))) he
  obtain ⟨h1, h2, rfl⟩ := List.append_of_mem hm
  obtain ⟨msg, h, -⟩ := hg h1 _ h2 rfl
  exact ⟨msg, h⟩

def early : Op → Bool
  | .storeSession .. | .uploadBundle .. | .buildPassive .. | .hidePreKey .. | .deletePreKey .. => false
  | _ => true

theorem early_looks {o : Op} (h : Op.looks o = true) : early o = true := by
  unfold Op.looks at h
  split at h <;> first | rfl | cases h

/-- The parts of an execution of `decrypt` that matter here. -/
inductive Course (M : Mgr) (msg : Message) (t : List Ev) (r : Res Exn Unit) : Prop
  | none : (∀ e ∈ t, early e.1 = true ∨ ∃ j d x k y, e = ⟨.buildPassive msg.ns j d x k, y⟩) → Course M msg t r
  | post {pre s kex t4} : t = pre ++ t4 → (∀ e ∈ pre, early e.1 = true ∨ ∃ j d x k m, e = ⟨.buildPassive msg.ns j d x k, .ok (s, m)⟩ ∧ kex = some x) →
      Exec (postDecrypt M msg.ns kex s) t4 r → Course M msg t r

theorem open_early {msg : Message} {km t3 r3} (h3 : OpenRun msg km t3 r3) : ∀ e ∈ t3, early e.1 = true := by
  intro e hm
  cases h3 with
  | empty | start => cases hm
  | failed | opened => obtain rfl := List.mem_singleton.1 hm; rfl

theorem key_ok {msg : Message} {dev ekm kex t2 s km} (h2 : KeyRun M msg dev ekm kex t2 (.ok (s, km))) :
    ∀ e ∈ t2, early e.1 = true ∨ ∃ j d x k m, e = ⟨.buildPassive msg.ns j d x k, .ok (s, m)⟩ ∧ kex = some x := by
  intro e hm
  cases h2 with
  | used =>
    rcases List.mem_cons.1 hm with rfl | hm
    · exact .inl rfl
    · obtain rfl := List.mem_singleton.1 hm
      exact .inl rfl
  | built hk =>
    rcases List.mem_cons.1 hm with rfl | hm
    · exact .inl rfl
    · obtain rfl := List.mem_singleton.1 hm
      exact .inr ⟨_, _, _, _, _, rfl, hk⟩

theorem key_early {msg : Message} {dev ekm kex t2 r2} (h2 : KeyRun M msg dev ekm kex t2 r2) :
    ∀ e ∈ t2, early e.1 = true ∨ ∃ j d x k y, e = ⟨.buildPassive msg.ns j d x k, y⟩ := by
  intro e hm
  cases h2 with
  | mismatch | start => cases hm
  | loadFailed | noSession | loaded => obtain rfl := List.mem_singleton.1 hm; exact .inl rfl
  | useFailed | used =>
    rcases List.mem_cons.1 hm with rfl | hm
    · exact .inl rfl
    · obtain rfl := List.mem_singleton.1 hm
      exact .inl rfl
  | buildFailed | built =>
    rcases List.mem_cons.1 hm with rfl | hm
    · exact .inl rfl
    · obtain rfl := List.mem_singleton.1 hm
      exact .inr ⟨_, _, _, _, _, rfl⟩

theorem course {msg : Message} (he : Exec (Call.run M (.decrypt msg)) t r) : Course M msg t r := by
  have key : ∀ {t : List Ev} {r'}, Exec (decrypt M msg) t r' → Course M msg t (match r' with | .ok _ => .ok () | .raised e => .raised e | .crashed => .crashed) := by
    intro t r' he
    cases exec_decrypt he with
    | start => exact .none fun _ hm => absurd hm List.not_mem_nil
    | noBackends | unknown | notForUs => exact .none fun e hm => by obtain rfl := List.mem_singleton.1 hm; exact .inl rfl
    | lookup _ _ h1 _ =>
      refine .none fun e hm => .inl ?_
      rcases List.mem_cons.1 hm with rfl | hm
      · rfl
      · exact early_looks (h1 e hm)
    | evalFailed _ _ h1 | distrusted _ _ h1 =>
      refine .none fun e hm => .inl ?_
      simp only [List.mem_cons, List.mem_append, List.not_mem_nil, or_false] at hm
      rcases hm with rfl | hm | rfl
      · rfl
      · exact early_looks (h1 e hm)
      · rfl
    | keys _ _ h1 _ _ h2 =>
      refine .none fun e hm => ?_
      simp only [List.mem_cons, List.mem_append] at hm
      rcases hm with rfl | hm | rfl | hm
      · exact .inl rfl
      · exact .inl (early_looks (h1 e hm))
      · exact .inl rfl
      · exact key_early h2 e hm
    | content _ _ h1 _ _ h2 h3 =>
      refine .none fun e hm => ?_
      simp only [List.mem_cons, List.mem_append] at hm
      rcases hm with rfl | hm | rfl | hm | hm
      · exact .inl rfl
      · exact .inl (early_looks (h1 e hm))
      · exact .inl rfl
      · exact key_early h2 e hm
      · exact .inl (open_early h3 e hm)
    | @post bs ekm kex t1 dev l t2 s km t3 p t4 r r' _ _ h1 _ _ h2 h3 h4 hr =>
      refine .post (pre := ⟨.getBackends, .ok bs⟩ :: (t1 ++ ⟨.evalTrust dev, .ok l⟩ :: (t2 ++ t3))) (s := s) (kex := kex) (t4 := t4) (by simp) (fun e hm => ?_) ?_
      · simp only [List.mem_cons, List.mem_append] at hm
        rcases hm with rfl | hm | rfl | hm | hm
        · exact .inl rfl
        · exact .inl (early_looks (h1 e hm))
        · exact .inl rfl
        · exact key_ok h2 e hm
        · exact .inl (open_early h3 e hm)
      · rcases hr with ⟨rfl, rfl⟩ | ⟨e, rfl, rfl⟩ | ⟨rfl, rfl⟩ <;> exact h4
  rcases exec_seq.1 he with ⟨t1, a, t2, rfl, h1, h2⟩ | ⟨e, h1, rfl⟩ | ⟨h1, rfl⟩
  · obtain ⟨rfl, rfl⟩ := exec_pure.1 h2
    simpa using key h1
  · exact key h1
  · exact key h1

theorem grd_call {G : List Ev → Op → Prop} {o : Op} (hg : G h o) : Grd G (fun a h' => h' = h ++ [⟨o, .ok a⟩]) (call o) h :=
  ⟨hg, fun y => by cases y <;> simp [Grd]⟩

theorem grd_ops {α : Type} {G : List Ev → Op → Prop} {φ : Op → Prop} (hg : ∀ h o, φ o → G h o) {p : P α} (hp : AllOps φ p) :
    ∀ h, Grd G (fun _ h' => ∃ t, h' = h ++ t ∧ ∀ e ∈ t, φ e.1) p h := by
  induction p with
  | ret a => exact fun h => ⟨[], by simp, fun _ hm => absurd hm List.not_mem_nil⟩
  | raise e => exact fun _ => trivial
  | op o k ih =>
    refine fun h => ⟨hg h o hp.1, fun y => (ih y (hp.2 y) _).mono ?_ fun _ _ h => h⟩
    rintro a h' ⟨t, rfl, ht⟩
    refine ⟨⟨o, y⟩ :: t, by simp, fun e hm => ?_⟩
    rcases List.mem_cons.1 hm with rfl | hm
    · exact hp.1
    · exact ht e hm

theorem grd_when {G : List Ev → Op → Prop} {b : Prop} [Decidable b] {p : P Unit} (hp : Grd G (fun _ _ => True) p h) : Grd G (fun _ _ => True) (Prog.when b p) h := by
  unfold Prog.when
  split
  · exact hp
  · trivial

def noUpload : Op → Bool
  | .uploadBundle .. => false
  | _ => true

/-- Neither stores sessions nor uploads bundles. -/
def mild : Op → Bool
  | .storeSession .. | .uploadBundle .. => false
  | _ => true

/-- The bundle to be uploaded was obtained after the pre keys of all stored sessions were given up. -/
def Clean (h : List Ev) : Op → Prop
  | .uploadBundle b => ∃ u ns j d v, h = u ++ (⟨.getBundle ns j d, .ok b⟩ : Ev) :: v ∧
      ∀ ns' s y, (⟨.storeSession ns' s, y⟩ : Ev) ∈ h → ∃ b', (⟨.hidePreKey ns' s, .ok b'⟩ : Ev) ∈ u ∨ (⟨.deletePreKey ns' s, .ok b'⟩ : Ev) ∈ u
  | _ => True

theorem clean_of {o : Op} (h : List Ev) (ho : noUpload o = true) : Clean h o := by
  cases o <;> first
    | trivial
    | cases ho

theorem grd_postDecrypt {ns : Ns} {kex : Option KeyExchange} {s : Session} {pre : List Ev} (hp : ∀ e ∈ pre, Op.storesSession e.1 = false) :
    Grd Clean (fun _ _ => True) (postDecrypt M ns kex s) pre := by
  have nost : ∀ {l : List Ev} {ns s y}, (∀ e ∈ l, Op.storesSession e.1 = false) → (⟨.storeSession ns s, y⟩ : Ev) ∉ l :=
    fun hl hm => absurd (hl _ hm) (by simp [Op.storesSession])
  have reply : ∀ h, Grd Clean (fun _ _ => True) (autoReply M ns kex s) h := by
    intro h
    refine (grd_ops (φ := fun o => noUpload o = true) (fun h o ho => clean_of h ho) ?_ h).mono (fun _ _ _ => trivial) fun _ _ h => h
    unfold autoReply queueEmpty sendEmptyMessage
    lib_ops []
  unfold postDecrypt
  refine Grd.bind (grd_call trivial) fun _ t0 h0 => ?_
  have e0 : t0 = [⟨.storeSession ns s, .ok ()⟩] := List.append_cancel_left h0
  subst e0
  refine Grd.bind (R := fun _ _ => True) (grd_when ?_) fun _ _ _ => reply _
  unfold consumePreKey
  refine Grd.bind (grd_call trivial) fun sync t1 h1 => ?_
  obtain rfl := List.append_cancel_left h1
  refine Grd.bind (R := fun a h' => ∃ o, h' = ((pre ++ [⟨.storeSession ns s, .ok ()⟩]) ++ [⟨.getSync, .ok sync⟩]) ++ [o] ∧
      (o = (⟨.hidePreKey ns s, .ok a⟩ : Ev) ∨ o = (⟨.deletePreKey ns s, .ok a⟩ : Ev))) ?_ fun ch t2 h2 => ?_
  · unfold discardPreKey
    split
    · exact (grd_call trivial).mono (fun a h' hh => ⟨_, hh, .inl rfl⟩) fun _ _ h => h
    · exact (grd_call trivial).mono (fun a h' hh => ⟨_, hh, .inr rfl⟩) fun _ _ h => h
  obtain ⟨o, h2, ho⟩ := h2
  obtain rfl := List.append_cancel_left h2
  refine grd_when (Grd.bind (grd_ops (φ := fun o => mild o = true) (fun h o ho => clean_of h (by cases o <;> first | rfl | cases ho)) (by unfold refillPreKeys; lib_ops []) _) fun _ t3 h3 => ?_)
  obtain ⟨t, h3, h4⟩ := h3
  obtain rfl := List.append_cancel_left h3
  refine Grd.bind (grd_call trivial) fun bu t5 h5 => ?_
  obtain rfl := List.append_cancel_left h5
  refine (grd_call (o := .uploadBundle bu) ?_).mono (fun _ _ _ => trivial) fun _ _ h => h
  refine ⟨_, ns, _, _, [], rfl, fun ns' s' y hm => ?_⟩
  have hs : ns' = ns ∧ s' = s := by
    simp only [List.mem_append, List.mem_singleton] at hm
    rcases hm with ((((hm | hm) | hm) | hm) | hm) | hm
    · exact absurd hm (nost hp)
    · cases hm; exact ⟨rfl, rfl⟩
    · cases hm
    · rcases ho with rfl | rfl <;> cases hm
    · exact absurd (h4 _ hm) (by simp [mild])
    · cases hm
  obtain ⟨rfl, rfl⟩ := hs
  exact ⟨ch, by rcases ho with rfl | rfl <;> simp⟩

theorem exec_consume {ns : Ns} {s : Session} {t : List Ev} {r} (h : Exec (consumePreKey M ns s) t r) :
    (r = .crashed ∧ (t = [] ∨ ∃ b, t = [⟨.getSync, .ok b⟩])) ∨ (∃ e, (⟨.getSync, .error e⟩ : Ev) ∈ t) ∨
      (∃ e, (⟨.hidePreKey ns s, .error e⟩ : Ev) ∈ t ∨ (⟨.deletePreKey ns s, .error e⟩ : Ev) ∈ t) ∨
      ∃ b, (⟨.hidePreKey ns s, .ok b⟩ : Ev) ∈ t ∨ (⟨.deletePreKey ns s, .ok b⟩ : Ev) ∈ t := by
  unfold consumePreKey at h
  replace h := exec_call_bind.1 h; rcases h with ⟨rfl, rfl⟩ | ⟨e, rfl, rfl⟩ | ⟨sync, t', rfl, h⟩
  · exact .inl ⟨rfl, .inl rfl⟩
  · exact .inr (.inl ⟨e, List.mem_singleton.2 rfl⟩)
  unfold discardPreKey at h
  cases sync with
  | true =>
    simp only [if_true] at h
    replace h := exec_call_bind.1 h; rcases h with ⟨rfl, rfl⟩ | ⟨e, rfl, rfl⟩ | ⟨b, t2, rfl, h⟩
    · exact .inl ⟨rfl, .inr ⟨_, rfl⟩⟩
    · exact .inr (.inr (.inl ⟨e, .inl (by simp)⟩))
    · exact .inr (.inr (.inr ⟨b, .inl (by simp)⟩))
  | false =>
    simp only [Bool.false_eq_true, if_false] at h
    replace h := exec_call_bind.1 h; rcases h with ⟨rfl, rfl⟩ | ⟨e, rfl, rfl⟩ | ⟨b, t2, rfl, h⟩
    · exact .inl ⟨rfl, .inr ⟨_, rfl⟩⟩
    · exact .inr (.inr (.inl ⟨e, .inr (by simp)⟩))
    · exact .inr (.inr (.inr ⟨b, .inr (by simp)⟩))

theorem early_store {e : Ev} (h : early e.1 = true) : Op.storesSession e.1 = false := by
  unfold early at h
  split at h <;> first | (cases h; done) | skip
  unfold Op.storesSession
  split
  · rename_i h1 _ _ _ _ _ _ _ hh
    exact absurd hh (h1 _ _)
  · rfl

/-- If a session is built and a session is stored in the same call, then the pre key of the former is given up. -/
theorem discards (hd : MildDecisions M) (he : Exec (c.run M) t r) (hg : GivesUp t (r = .crashed)) {ns j d x k s m}
    (hb : (⟨.buildPassive ns j d x k, .ok (s, m)⟩ : Ev) ∈ t) {ns' s'} (hs : (⟨.storeSession ns' s', .ok ()⟩ : Ev) ∈ t) :
    ∃ b, (⟨.hidePreKey ns s, .ok b⟩ : Ev) ∈ t ∨ (⟨.deletePreKey ns s, .ok b⟩ : Ev) ∈ t := by
  obtain ⟨msg, rfl⟩ := builds hd he hb
  cases course he with
  | none h1 =>
    rcases h1 _ hs with h | ⟨_, _, _, _, _, h⟩
    · cases h
    · cases h
  | @post pre s0 kex t4 ht h1 h4 =>
    have hs4 : (⟨.storeSession ns' s', .ok ()⟩ : Ev) ∈ t4 := by
      rcases List.mem_append.1 (ht ▸ hs) with h | h
      · rcases h1 _ h with h | ⟨_, _, _, _, _, h, -⟩
        · cases h
        · cases h
      · exact h
    have hb4 : (⟨.buildPassive ns j d x k, .ok (s, m)⟩ : Ev) ∈ pre := by
      rcases List.mem_append.1 (ht ▸ hb) with h | h
      · exact h
      · have := ops_postDecrypt.exec h4 _ h
        cases this
    obtain ⟨rfl, rfl, rfl⟩ : ns = msg.ns ∧ s = s0 ∧ kex = some x := by
      rcases h1 _ hb4 with h | ⟨_, _, _, _, _, h, h'⟩
      · cases h
      · cases h; exact ⟨rfl, rfl, h'⟩
    rcases exec_postDecrypt h4 with ⟨rfl, -⟩ | ⟨e, rfl, -⟩ | ⟨t', rfl, h5⟩
    · cases hs4
    · have := List.mem_singleton.1 hs4
      cases this
    have hwhen : Prog.when (some x ≠ none) (consumePreKey M msg.ns s) = consumePreKey M msg.ns s := if_pos (by simp)
    rw [hwhen] at h5
    have key : ∃ t1 t2 r1, t' = t1 ++ t2 ∧ Exec (consumePreKey M msg.ns s) t1 r1 ∧ (r1 = .crashed → r = .crashed ∧ t2 = []) := by
      rcases exec_seq.1 h5 with ⟨t1, a, t2, rfl, h6, -⟩ | ⟨e, h6, -⟩ | ⟨h6, rfl⟩
      · exact ⟨t1, t2, _, rfl, h6, nofun⟩
      · exact ⟨t', [], _, by simp, h6, nofun⟩
      · exact ⟨t', [], _, by simp, h6, fun _ => ⟨rfl, rfl⟩⟩
    obtain ⟨t1, t2, r1, rfl, h6, h7⟩ := key
    have sub : ∀ e ∈ t1, e ∈ t := fun e h => by rw [ht]; simp [h]
    rcases exec_consume h6 with ⟨hr, h8⟩ | ⟨e, h8⟩ | ⟨e, h8 | h8⟩ | ⟨b, h8⟩
    · obtain ⟨h9, rfl⟩ := h7 hr
      refine absurd ⟨pre, msg.ns, s, t1, by rw [ht]; simp, ⟨_, _, _, _, _, hb4⟩, h8⟩ (hg.alive h9)
    · exact absurd (sub _ h8) (hg.field e)
    · exact absurd (sub _ h8) (hg.hide _ _ e)
    · exact absurd (sub _ h8) (hg.delete _ _ e)
    · exact ⟨b, h8.imp (sub _) (sub _)⟩

/-- Within a call, sessions are not stored before one is built from a key exchange. -/
theorem builds_first (hd : MildDecisions M) (he : Exec (c.run M) t r) {t1 ns j d x k y t2} (ht : t = t1 ++ (⟨.buildPassive ns j d x k, y⟩ : Ev) :: t2) {ns' s' z} :
    (⟨.storeSession ns' s', z⟩ : Ev) ∉ t1 := by
  intro hm
  have hb : (⟨.buildPassive ns j d x k, y⟩ : Ev) ∈ t := by rw [ht]; simp
  obtain ⟨msg, rfl⟩ := builds hd he hb
  cases course he with
  | none h1 =>
    rcases h1 ⟨.storeSession ns' s', z⟩ (by rw [ht]; simp [hm]) with h | ⟨_, _, _, _, _, h⟩
    · cases h
    · cases h
  | @post pre s0 kex t4 hp h1 h4 =>
    rcases List.append_eq_append_iff.1 (ht.symm.trans hp) with ⟨u, hu1, hu2⟩ | ⟨u, hu1, hu2⟩
    · rcases h1 ⟨.storeSession ns' s', z⟩ (by rw [hu1]; simp [hm]) with h | ⟨_, _, _, _, _, h, -⟩
      · cases h
      · cases h
    · have := ops_postDecrypt.exec h4 ⟨.buildPassive ns j d x k, y⟩ (by rw [hu2]; simp)
      cases this

def noStore : Op → Bool
  | .storeSession .. => false
  | _ => true

theorem noStore_of_plain {o : Op} (h : Belongs.plain o = true) : noStore o = true := by
  cases o <;> first
    | (cases h; done)
    | rfl

/-- Calls other than `decrypt` do not both store sessions and upload bundles. -/
theorem apart (hd : MildDecisions M) (hc : ∀ msg, c ≠ .decrypt msg) : AllOps (fun o => noStore o = true) (c.run M) ∨ AllOps (fun o => noUpload o = true) (c.run M) := by
  have drop : ∀ {α : Type} {p : P α} {φ : Op → Prop}, AllOps φ p → AllOps φ (do let _ ← p; pure ()) := fun h => AllOps.bind h fun _ => AllOps.ret _
  have info : ∀ {jid o}, Foot.Info jid o → noUpload o = true := fun h => by cases h <;> rfl
  cases c <;> simp only [Call.run]
  case decrypt msg => exact absurd rfl (hc msg)
  case encrypt jids pt prio i =>
    refine .inr (drop ?_)
    unfold encrypt
    have h1 : ∀ order, AllOps (fun o => noUpload o = true) (recipientDevices M order (setUnion jids [M.ownJid])) := by
      intro order
      unfold recipientDevices getDeviceInformation' deviceInformation identityKeyOf repairNamespaces
      lib_ops []
      exact (ops_fetchIdentityKey ..).mono fun _ h => info h
    have h2 : ∀ ds, AllOps (fun o => noUpload o = true) (decideTrust M ds i) := by
      intro ds
      unfold decideTrust askTrust devicesWithTrust reloadTrust
      lib_ops []
      exact (hd _ _).mono fun o h => by
        cases o <;> first
          | rfl
          | exact absurd rfl (h.2.1 _)
    have h3 : ∀ cache ds, AllOps (fun o => noUpload o = true) (encryptTrusted M (setUnion jids [M.ownJid]) cache pt ds) := by
      intro cache ds
      unfold encryptTrusted devicesWithTrust encryptBackend encryptDevice encryptForDevice bundleFor
      lib_ops []
    refine AllOps.bind (AllOps.perform rfl) fun _ => AllOps.bind (allOps_liftE _) fun order => AllOps.bind (h1 order) fun x => AllOps.bind (h2 _) fun ds => h3 _ _
  case replaceSessions j d => exact .inr (drop ((ops_replaceSessions M j d).mono fun _ h => by cases h with | info h => exact info h | _ => rfl))
  case afterHistorySync => exact .inr ((ops_afterHistorySync M).mono fun _ h => by cases h with | sendEmpty _ h => cases h <;> rfl | _ => rfl)
  case getIdentityKeyPair => exact .inl (drop (ops_ikp.mono fun _ h => by cases h <;> rfl))
  case create bs label fuel => exact .inl (drop ((ops_create M bs label fuel).mono fun _ h => noStore_of_plain (Belongs.create_plain h)))
  case purgeBackend ns => exact .inl ((ops_purgeBackend M ns).mono fun _ h => noStore_of_plain (Belongs.purge_plain h))
  case purgeBareJid jid => exact .inl ((ops_purgeBareJid M jid).mono fun _ h => by cases h <;> rfl)
  case ensureDataConsistency => exact .inl ((ops_ensureDataConsistency M).mono fun _ h => by cases h with | refresh _ h => exact noStore_of_plain (Belongs.refresh_plain h) | _ => rfl)
  case rotation p f r => exact .inl ((ops_manageRotation M p f r).mono fun _ h => by cases h <;> rfl)
  case updateDeviceList ns jid dl => exact .inl ((ops_updateDeviceList M ns jid dl).mono fun _ h => by cases h <;> rfl)
  case refreshDeviceList ns jid => exact .inl ((ops_refreshDeviceList M ns jid).mono fun _ h => noStore_of_plain (Belongs.refresh_plain h))
  case refreshDeviceLists jid =>
    unfold refreshDeviceLists
    exact .inl (AllOps.bind (AllOps.perform rfl) fun bs => AllOps.forEach fun ns _ => (ops_refreshDeviceList M ns jid).mono fun _ h => noStore_of_plain (Belongs.refresh_plain h))
  case setTrust => exact .inl (AllOps.perform rfl)
  case getSendingChainLength x =>
    unfold getSendingChainLength
    exact .inl (by lib_ops [])
  case setOwnLabel l => exact .inl ((ops_setOwnLabel M l).mono fun _ h => by cases h <;> rfl)
  case getDeviceInformation jid => exact .inl (drop ((ops_getDeviceInformation M jid).mono fun _ h => noStore_of_plain (Belongs.info_plain h)))
  case getOwnDeviceInformation => exact .inl (drop ((ops_getOwnDeviceInformation M).mono fun _ h => noStore_of_plain (Belongs.info_plain h)))
  case beforeHistorySync => exact .inl (AllOps.perform rfl)

/-- In every call, bundles to be uploaded were obtained after the pre keys of the sessions stored in this call were given up. -/
theorem clean (hd : MildDecisions M) (he : Exec (c.run M) t r) : Guarded (fun h e => Clean h e.1) t := by
  intro t1 e t2 ht
  by_cases hc : ∃ msg, c = .decrypt msg
  · obtain ⟨msg, rfl⟩ := hc
    by_cases hu : noUpload e.1 = true
    · exact clean_of _ hu
    have hx : early e.1 = false := by
      revert hu
      cases e.1 <;> simp [noUpload, early]
    have hy : ∀ j d x k y, e ≠ ⟨.buildPassive msg.ns j d x k, y⟩ := by
      rintro j d x k y rfl
      exact hu rfl
    cases course he with
    | none h1 =>
      rcases h1 e (by rw [ht]; simp) with h | ⟨_, _, _, _, _, h⟩
      · rw [hx] at h; cases h
      · exact absurd h (hy _ _ _ _ _)
    | @post pre s0 kex t4 hp h1 h4 =>
      have hpre : ∀ e ∈ pre, Op.storesSession e.1 = false := by
        intro e hm
        rcases h1 e hm with h | ⟨_, _, _, _, _, rfl, -⟩
        · exact early_store h
        · rfl
      have hg := (Grd.exec (grd_postDecrypt (M := M) (ns := msg.ns) (kex := kex) (s := s0) hpre) h4).1
      rcases List.append_eq_append_iff.1 (ht.symm.trans hp) with ⟨u, hu1, hu2⟩ | ⟨u, hu1, hu2⟩
      · cases u with
        | nil =>
          simp only [List.append_nil, List.nil_append] at hu1 hu2
          have := hg [] e t2 hu2.symm
          rw [hu1] at this
          simpa using this
        | cons y u =>
          simp only [List.cons_append, List.cons.injEq] at hu2
          obtain ⟨rfl, rfl⟩ := hu2
          rcases h1 e (by rw [hu1]; simp) with h | ⟨_, _, _, _, _, h, -⟩
          · rw [hx] at h; cases h
          · exact absurd h (hy _ _ _ _ _)
      · rw [hu1]
        exact hg u e t2 hu2
  · have hc : ∀ msg, c ≠ .decrypt msg := fun msg h => hc ⟨msg, h⟩
    rcases apart hd hc with h | h
    · by_cases hu : noUpload e.1 = true
      · exact clean_of _ hu
      have hb := (C74 M c (fun ds i t r h => fun h1 e h2 hh => ⟨fun b hb => absurd hb (((hd ds i).exec h e (by rw [hh]; simp)).2.1 b),
        fun ns d hd' => absurd hd' (((hd ds i).exec h e (by rw [hh]; simp)).2.2 ns d)⟩) he t1 e t2 ht).1
      · obtain ⟨o, y⟩ := e
        cases o <;> first
          | exact absurd rfl hu
          | skip
        rename_i b
        obtain ⟨ns, d, -, hm⟩ := hb b rfl
        obtain ⟨u, v, rfl⟩ := List.append_of_mem hm
        refine ⟨u, ns, _, d, v, rfl, fun ns' s y hm => ?_⟩
        have := h.exec he ⟨.storeSession ns' s, y⟩ (by rw [ht]; exact List.mem_append_left _ hm)
        cases this
    · exact clean_of _ (h.exec he e (by rw [ht]; simp))

/-- The pre keys of all stored sessions were given up. -/
def Spent (pk : KeyExchange → Nat) (h : List Ev) : Prop :=
  ∀ ns s, (⟨.storeSession ns s, .ok ()⟩ : Ev) ∈ h → s.initiation = .passive → Discarded pk h ns (pk s.keyExchange)

theorem Discarded.mono {h h' : List Ev} {ns k} (hs : ∀ e ∈ h, e ∈ h') (hd : Discarded pk h ns k) : Discarded pk h' ns k :=
  let ⟨s, b, h1, h2⟩ := hd
  ⟨s, b, h1, h2.imp (hs _) (hs _)⟩

theorem guarded_left {G : List Ev → Ev → Prop} {t : List Ev} (hg : Guarded G (h ++ t)) : Guarded G h :=
  fun h1 e h2 hh => hg h1 e (h2 ++ t) (by rw [hh]; simp)

theorem spent_step (hd : MildDecisions M) (he : Exec (c.run M) t r) (hg : GivesUp t (r = .crashed)) (hb : Guarded (PreKeyed pk offers) (h ++ t)) (hs : Spent pk h) :
    Spent pk (h ++ t) := by
  have hbel : Guarded (Belongs M.ownJid M.ownDev (fun _ => True)) t :=
    Kn.exec (Belongs.kn_call (K := fun _ => True) c (fun _ _ => trivial) (Crossing.grd_plain (MildDecisions.plain hd))) he
  have hlast : ∀ e ∈ t, Lasts e := fun e hm => by
    obtain ⟨u, v, rfl⟩ := List.append_of_mem hm
    exact (hb (h ++ u) e v (by simp)).lasts
  have key : ∀ t1 t2, t = t1 ++ t2 → ∀ ns s, (⟨.storeSession ns s, .ok ()⟩ : Ev) ∈ t1 → s.initiation = .passive → Discarded pk (h ++ t) ns (pk s.keyExchange) := by
    intro t1
    induction h1 : t1.length using Nat.strongRecOn generalizing t1 with
    | _ n ih =>
      intro t2 ht ns s hm hp
      obtain ⟨u, v, rfl⟩ := List.append_of_mem hm
      have hu : ∀ e ∈ u, e ∈ t := fun e h => by rw [ht]; simp [h]
      obtain ⟨j, d, hmade⟩ := hbel u ⟨.storeSession ns s, .ok ()⟩ (v ++ t2) (by rw [ht]; simp)
      refine Crossing.made_kind (φ := fun i y => i = .passive → Discarded pk (h ++ t) ns (pk y)) (fun e he => hlast e (hu e he)) (fun s0 h0 h2 => ?_) (fun b m s0 k h0 h2 => ?_)
        (fun x k s0 m h0 _ => ?_) hmade hp
      · obtain ⟨a, b, rfl⟩ := List.append_of_mem h0
        rcases List.mem_append.1 ((hb (h ++ a) ⟨.loadSession ns j d, .ok (some s0)⟩ (b ++ ⟨.storeSession ns s, .ok ()⟩ :: (v ++ t2)) (by rw [ht]; simp)).load _ _ _ _ rfl) with h3 | h3
        · exact Discarded.mono (fun _ h => List.mem_append_left _ h) (hs ns s0 h3 h2)
        · exact ih a.length (by rw [← h1]; simp) a rfl (⟨.loadSession ns j d, .ok (some s0)⟩ :: (b ++ ⟨.storeSession ns s, .ok ()⟩ :: (v ++ t2))) (by rw [ht]; simp) ns s0 h3 h2
      · rw [((hlast _ (hu _ h0)).active _ _ _ _ _ _ _ rfl).1.2] at h2
        cases h2
      · obtain ⟨b, h3⟩ := discards hd he hg (hu _ h0) (ns' := ns) (s' := s) (by rw [ht]; simp)
        exact ⟨s0, b, rfl, h3.imp (List.mem_append_right _) (List.mem_append_right _)⟩
  intro ns s hm hp
  rcases List.mem_append.1 hm with hm | hm
  · exact Discarded.mono (fun _ h => List.mem_append_left _ h) (hs ns s hm hp)
  · exact key t [] (by simp) ns s hm hp

theorem hidden_of {H : List Ev} {ns k} (hd : Discarded pk H ns k) (hg : ¬ Gone pk H ns k) : Hidden pk H ns k := by
  obtain ⟨s, b, hk, hm | hm⟩ := hd
  · obtain ⟨u, v, rfl⟩ := List.append_of_mem hm
    exact ⟨u, s, b, v, rfl, hk, fun h => hg (.inr ⟨u, s, b, v, rfl, hk, h⟩)⟩
  · exact absurd (.inl ⟨s, b, hk, hm⟩) hg

theorem days (hh : Days GivesUp h) (hb : Guarded (PreKeyed pk offers) h) : Spent pk h ∧ OneSession pk h ∧ NotOffered pk offers h := by
  induction hh with
  | start => exact ⟨fun _ _ hm => absurd hm List.not_mem_nil, fun _ _ _ _ _ _ _ _ _ _ _ hh => by simp at hh, fun _ _ _ _ hh => by simp at hh⟩
  | @call h M c t r _ hd he hg ih =>
    obtain ⟨h1, h2, h3⟩ := ih (guarded_left hb)
    refine ⟨spent_step hd he hg hb h1, ?_, ?_⟩
    · intro a ns s b j d x k s' m e hh hp hk
      have hh' : h ++ t = (a ++ (⟨.storeSession ns s, .ok ()⟩ : Ev) :: b) ++ (⟨.buildPassive ns j d x k, .ok (s', m)⟩ : Ev) :: e := by rw [hh]; simp
      have hn := (hb _ _ _ hh').build _ _ _ _ _ _ _ rfl
      rcases List.append_eq_append_iff.1 hh' with ⟨u, hu1, hu2⟩ | ⟨u, hu1, hu2⟩
      · have hin : (⟨.storeSession ns s, .ok ()⟩ : Ev) ∈ h := by
          rcases List.mem_append.1 (show (⟨.storeSession ns s, .ok ()⟩ : Ev) ∈ h ++ u by rw [← hu1]; simp) with h | h
          · exact h
          · exact absurd h (builds_first hd he hu2)
        refine hidden_of (hk ▸ Discarded.mono (fun e he => ?_) (h1 ns s hin hp)) hn
        rw [hu1]
        exact List.mem_append_left _ he
      · cases u with
        | nil =>
          simp only [List.append_nil, List.nil_append] at hu1 hu2
          have hin : (⟨.storeSession ns s, .ok ()⟩ : Ev) ∈ h := by rw [hu1]; simp
          refine hidden_of (hk ▸ Discarded.mono (fun e he => ?_) (h1 ns s hin hp)) hn
          rw [← hu1]
          exact he
        | cons y u =>
          simp only [List.cons_append, List.cons.injEq] at hu2
          obtain ⟨rfl, rfl⟩ := hu2
          exact h2 a ns s b j d x k s' m u (by rw [hu1]; simp) hp hk
    · intro a b y e hh
      rcases List.append_eq_append_iff.1 hh with ⟨u, hu1, hu2⟩ | ⟨u, hu1, hu2⟩
      · obtain ⟨v, ns, j, d, w, hv, hst⟩ := clean hd he u _ e hu2
        refine ⟨ns, j, d, by rw [hu1, hv]; simp, fun s hm hp hk => ?_⟩
        refine (hb (h ++ v) ⟨.getBundle ns j d, .ok b⟩ (w ++ ⟨.uploadBundle b, y⟩ :: e) (by rw [hu2, hv]; simp)).bundle _ _ _ _ rfl _ hk ?_
        rw [hu1] at hm
        rcases List.mem_append.1 hm with hm | hm
        · exact Discarded.mono (fun _ h => List.mem_append_left _ h) (h1 ns s hm hp)
        · obtain ⟨b', hb'⟩ := hst ns s _ hm
          exact ⟨s, b', rfl, hb'.imp (List.mem_append_right _) (List.mem_append_right _)⟩
      · cases u with
        | nil =>
          simp only [List.append_nil, List.nil_append] at hu1 hu2
          obtain ⟨v, ns, j, d, w, hv, -⟩ := clean hd he [] _ e hu2.symm
          simp at hv
        | cons z u =>
          simp only [List.cons_append, List.cons.injEq] at hu2
          obtain ⟨rfl, rfl⟩ := hu2
          exact h3 a b y u hu1

/-- Before a pre key is hidden, the field is read. -/
def Reads (h : List Ev) : Op → Prop
  | .hidePreKey .. => ∃ h', h = h' ++ [(⟨.getSync, .ok true⟩ : Ev)]
  | _ => True

def noHide : Op → Bool
  | .hidePreKey .. => false
  | _ => true

theorem reads_of {o : Op} (h : List Ev) (ho : noHide o = true) : Reads h o := by
  cases o <;> first
    | trivial
    | cases ho

theorem grd_reads {ns : Ns} {kex : Option KeyExchange} {s : Session} : Grd Reads (fun _ _ => True) (postDecrypt M ns kex s) h := by
  have some_ops : ∀ {α : Type} {p : P α} {h}, AllOps (fun o => noHide o = true) p → Grd Reads (fun _ _ => True) p h := fun hp =>
    (grd_ops (φ := fun o => noHide o = true) (fun h o ho => reads_of h ho) hp _).mono (fun _ _ _ => trivial) fun _ _ h => h
  unfold postDecrypt
  refine Grd.bind (grd_call trivial) fun _ t0 h0 => ?_
  refine Grd.bind (R := fun _ _ => True) (grd_when ?_) fun _ _ _ => some_ops (by unfold autoReply queueEmpty sendEmptyMessage; lib_ops [])
  unfold consumePreKey
  refine Grd.bind (grd_call trivial) fun sync t1 h1 => ?_
  obtain rfl := List.append_cancel_left h1
  refine Grd.bind (R := fun _ _ => True) ?_ fun ch t2 _ => some_ops (by unfold refillPreKeys; lib_ops [])
  unfold discardPreKey
  cases sync with
  | true => exact (grd_call ⟨_, rfl⟩).mono (fun _ _ _ => trivial) fun _ _ h => h
  | false => exact (grd_call trivial).mono (fun _ _ _ => trivial) fun _ _ h => h

theorem reads (hd : MildDecisions M) (he : Exec (c.run M) t r) : Guarded (fun h e => Reads h e.1) t := by
  intro t1 e t2 ht
  by_cases hu : noHide e.1 = true
  · exact reads_of _ hu
  have hm : e ∈ t := by rw [ht]; simp
  obtain ⟨o, y⟩ := e
  cases o <;> first
    | exact absurd rfl hu
    | skip
  rename_i ns s
  have hbel : Guarded (Belongs M.ownJid M.ownDev (fun msg => c = .decrypt msg)) t :=
    Kn.exec (Belongs.kn_call (K := fun _ => True) c (fun _ h => h) (Crossing.grd_plain (MildDecisions.plain hd))) he
  obtain ⟨msg, rfl, -⟩ := hbel t1 _ t2 ht
  cases course he with
  | none h1 =>
    rcases h1 _ hm with h | ⟨_, _, _, _, _, h⟩
    · cases h
    · cases h
  | @post pre s0 kex t4 hp h1 h4 =>
    have hg := (Grd.exec (grd_reads (M := M) (ns := msg.ns) (kex := kex) (s := s0) (h := pre)) h4).1
    rcases List.append_eq_append_iff.1 (ht.symm.trans hp) with ⟨u, hu1, hu2⟩ | ⟨u, hu1, hu2⟩
    · cases u with
      | nil =>
        simp only [List.append_nil, List.nil_append] at hu1 hu2
        have := hg [] _ t2 hu2.symm
        rw [hu1] at this
        simpa using this
      | cons z u =>
        simp only [List.cons_append, List.cons.injEq] at hu2
        obtain ⟨rfl, rfl⟩ := hu2
        rcases h1 ⟨.hidePreKey ns s, y⟩ (by rw [hu1]; simp) with h | ⟨_, _, _, _, _, h, -⟩
        · cases h
        · cases h
    · rw [hu1]
      exact hg u _ t2 hu2

theorem reads_days {P : List Ev → Prop → Prop} (hh : Days P h) : Guarded (fun h e => Reads h e.1) h := by
  induction hh with
  | start => intro _ _ _ hh; simp at hh
  | @call h M c t r _ hd he hg ih =>
    intro t1 e t2 ht
    have hre : ∀ {u : List Ev} {o}, Reads u o → Reads (h ++ u) o := by
      intro u o hr
      unfold Reads at hr ⊢
      split
      · obtain ⟨h', rfl⟩ := hr
        exact ⟨h ++ h', by simp⟩
      · trivial
    rcases List.append_eq_append_iff.1 ht with ⟨u, hu1, hu2⟩ | ⟨u, hu1, hu2⟩
    · rw [hu1]
      exact hre (reads hd he u e t2 hu2)
    · cases u with
      | nil =>
        simp only [List.append_nil, List.nil_append] at hu1 hu2
        have := hre (reads hd he [] e t2 hu2.symm)
        rw [hu1] at this
        simpa using this
      | cons z u =>
        simp only [List.cons_append, List.cons.injEq] at hu2
        obtain ⟨rfl, rfl⟩ := hu2
        exact ih t1 _ u hu1

end OneTime

/-- C103, partial: as long as giving up pre keys does not fail and the process does not die between storing a session and giving up its pre key, a pre key of which the
session was stored builds no other session, but while it is hidden, and is not in bundles that are published. -/
theorem C103_partial (pk : KeyExchange → Nat) (offers : Bundle → List Nat) (h : List Ev) (hh : Days GivesUp h) (hb : Guarded (PreKeyed pk offers) h) :
    OneSession pk h ∧ NotOffered pk offers h := (OneTime.days hh hb).2

/-- Outside of history synchronization, that is from the beginning or from the deletion of the hidden pre keys on, as long as the field is false when it is read, there is no
exception. -/
theorem C103_after (pk : KeyExchange → Nat) (offers : Bundle → List Nat) (ns : Ns) (h1 h2 h3 : List Ev) {j d x k s' m}
    (hh : Days GivesUp (h1 ++ (h2 ++ (⟨.buildPassive ns j d x k, .ok (s', m)⟩ : Ev) :: h3)))
    (hb : Guarded (PreKeyed pk offers) (h1 ++ (h2 ++ (⟨.buildPassive ns j d x k, .ok (s', m)⟩ : Ev) :: h3)))
    (h0 : h1 = [] ∨ ∃ h, h1 = h ++ [⟨.deleteHidden ns, .ok ()⟩]) (hn : (⟨.getSync, .ok true⟩ : Ev) ∉ h2) {s}
    (hs : (⟨.storeSession ns s, .ok ()⟩ : Ev) ∈ h1 ++ h2) (hp : s.initiation = .passive) : pk s.keyExchange ≠ pk x := by
  intro hk
  obtain ⟨a, b, hab⟩ := List.append_of_mem hs
  obtain ⟨u, s0, b', v, hu, -, hv⟩ := (C103_partial pk offers _ hh hb).1 a ns s b j d x k s' m h3 (by rw [← List.append_assoc, hab]; simp) hp hk
  rw [← hab] at hu
  obtain ⟨u', rfl⟩ := OneTime.reads_days hh u ⟨.hidePreKey ns s0, .ok b'⟩ (v ++ (⟨.buildPassive ns j d x k, .ok (s', m)⟩ : Ev) :: h3) (by rw [← List.append_assoc, hu]; simp)
  rcases h0 with rfl | ⟨h, rfl⟩
  · exact hn (by rw [List.nil_append] at hu; rw [hu]; simp)
  · have hu : h ++ (⟨.deleteHidden ns, .ok ()⟩ : Ev) :: h2 = u' ++ (⟨.getSync, .ok true⟩ : Ev) :: (⟨.hidePreKey ns s0, .ok b'⟩ : Ev) :: v := by simpa using hu
    rcases List.append_eq_append_iff.1 hu with ⟨w, hw1, hw2⟩ | ⟨w, hw1, hw2⟩
    · cases w with
      | nil => cases hw2
      | cons y w =>
        simp only [List.cons_append, List.cons.injEq] at hw2
        exact hn (by rw [hw2.2]; simp)
    · cases w with
      | nil => cases hw2
      | cons y w =>
        simp only [List.cons_append, List.cons.injEq] at hw2
        cases w with
        | nil => cases hw2.2
        | cons z w =>
          simp only [List.cons_append, List.cons.injEq] at hw2
          exact hv (by rw [hw2.2.2]; simp)

/-! ### Runs -/

namespace OneTime

/-- Every bundle has a new pre key. -/
def counting : World → (o : Op) → Except Exn o.Ret
  | w, .getBundle ns j d => .ok ⟨ns, j, d, [1], w.log.length + 100⟩
  | _, .hidePreKey _ _ => .ok true
  | _, .deletePreKey _ _ => .ok true
  | w, o => exchanging 1 w o

abbrev Diary := List Ev × World

/-- A call that dies after `n` interactions, if it needs more. -/
def day (n : Nat) (c : Call) (x : Diary) : Diary :=
  let y := runProg (Lib.env counting) Lib.next n (c.run Mgr.ex) x.2
  (x.1 ++ y.1, y.2.2)

def failsB (e : Ev) : Bool := match e with
  | ⟨.hidePreKey .., .error _⟩ | ⟨.deletePreKey .., .error _⟩ | ⟨.getSync, .error _⟩ => true
  | _ => false

theorem mild_ex : MildDecisions Mgr.ex := fun _ _ => AllOps.ret _

theorem days_day {P : List Ev → Prop → Prop} {n c} {x : Diary} (hx : Days P x.1)
    (hp : P (runProg (Lib.env counting) Lib.next n (c.run Mgr.ex) x.2).1 ((runProg (Lib.env counting) Lib.next n (c.run Mgr.ex) x.2).2.1 = .crashed)) :
    Days P (day n c x).1 := .call hx mild_ex (runProg_exec (Lib.env counting) Lib.next n _ x.2) hp

/-- The pre key of a key exchange, and of a bundle. -/
def key (x : KeyExchange) : Nat := x.blob / 10
def keys (b : Bundle) : List Nat := [b.blob]

def givenB (k : Nat) (ns : Ns) (e : Ev) : Bool := match e with
  | ⟨.hidePreKey ns' s, .ok _⟩ | ⟨.deletePreKey ns' s, .ok _⟩ => decide (ns' = ns ∧ key s.keyExchange = k)
  | _ => false

def deletedB (k : Nat) (ns : Ns) (e : Ev) : Bool := match e with
  | ⟨.deletePreKey ns' s, .ok _⟩ => decide (ns' = ns ∧ key s.keyExchange = k)
  | _ => false

def cleanedB (e : Ev) : Bool := match e with
  | ⟨.deleteHidden _, _⟩ => true
  | _ => false

/-- Given up, and hidden pre keys deleted later. -/
def wipedB (k : Nat) (ns : Ns) : List Ev → Bool
  | [] => false
  | e :: t => givenB k ns e && t.any cleanedB || wipedB k ns t

theorem wiped_of {k : Nat} {ns : Ns} {e c : Ev} {v : List Ev} (he : givenB k ns e = true) (hc : c ∈ v) (hd : cleanedB c = true) : ∀ u, wipedB k ns (u ++ e :: v) = true
  | [] => by
    have : v.any cleanedB = true := List.any_eq_true.2 ⟨c, hc, hd⟩
    simp [wipedB, he, this]
  | x :: u => by simp [wipedB, wiped_of he hc hd u]

def savedB (ns : Ns) (s : Session) (e : Ev) : Bool := match e with
  | ⟨.storeSession ns' s', .ok ()⟩ => decide (ns' = ns ∧ s' = s)
  | _ => false

def okB (h : List Ev) (e : Ev) : Bool := match e with
  | ⟨.loadSession ns _ _, .ok (some s)⟩ => h.any (savedB ns s)
  | ⟨.buildPassive ns _ _ x _, .ok _⟩ => !h.any (deletedB (key x) ns) && !wipedB (key x) ns h
  | ⟨.getBundle ns _ _, .ok b⟩ => !h.any (givenB b.blob ns)
  | _ => true

def allB : List Ev → List Ev → Bool
  | _, [] => true
  | h, e :: t => Run.keepsB e && okB h e && allB (h ++ [e]) t

theorem backed_of {e : Ev} (h1 : Run.keepsB e = true) (h2 : okB h e = true) : PreKeyed key keys h e where
  lasts := Run.keeps_of (h := [e]) (by simp [h1]) e (List.mem_singleton.2 rfl)
  load := by
    rintro ns j d s rfl
    obtain ⟨e, hm, he⟩ := List.any_eq_true.1 h2
    unfold savedB at he
    split at he
    · obtain ⟨rfl, rfl⟩ := of_decide_eq_true he
      exact hm
    · cases he
  build := by
    rintro ns j d x k s m rfl hg
    unfold okB at h2
    simp only [Bool.and_eq_true, Bool.not_eq_true', List.any_eq_false] at h2
    rcases hg with ⟨s, b, hk, hm⟩ | ⟨u, s, b, v, rfl, hk, hm⟩
    · exact h2.1 _ hm (decide_eq_true ⟨rfl, hk⟩)
    · have := wiped_of (k := key x) (ns := ns) (e := ⟨.hidePreKey ns s, .ok b⟩) (decide_eq_true ⟨rfl, hk⟩) hm rfl u
      rw [h2.2] at this
      cases this
  bundle := by
    rintro ns j d b rfl k hk ⟨s, b', hks, hm⟩
    obtain rfl := List.mem_singleton.1 hk
    unfold okB at h2
    simp only [Bool.not_eq_true', List.any_eq_false] at h2
    rcases hm with hm | hm
    · exact h2 _ hm (decide_eq_true ⟨rfl, hks⟩)
    · exact h2 _ hm (decide_eq_true ⟨rfl, hks⟩)

theorem all_of {t : List Ev} (hb : allB [] t = true) : Guarded (PreKeyed key keys) t := by
  have key : ∀ (t h : List Ev), allB h t = true → ∀ h1 e h2, t = h1 ++ e :: h2 → PreKeyed key keys (h ++ h1) e := by
    intro t
    induction t with
    | nil => intro h _ h1 e h2 hh; simp at hh
    | cons x t ih =>
      intro h hb h1 e h2 hh
      unfold allB at hb
      simp only [Bool.and_eq_true] at hb
      cases h1 with
      | nil =>
        simp only [List.nil_append, List.cons.injEq] at hh
        obtain ⟨rfl, rfl⟩ := hh
        simpa using backed_of hb.1.1 hb.1.2
      | cons y h1 =>
        simp only [List.cons_append, List.cons.injEq] at hh
        obtain ⟨rfl, rfl⟩ := hh
        simpa using ih (h ++ [x]) hb.2 h1 e h2 rfl
  intro h1 e h2 hh
  simpa using key t [] hb h1 e h2 hh

/-- The phone builds sessions three times, twice with the same pre key. -/
def first : Message := ⟨"n", "a", 7, ⟨false, 1⟩, [(⟨"me", 1, 7⟩, some ⟨[7], 1⟩)]⟩
def again : Message := ⟨"n", "a", 7, ⟨false, 1⟩, [(⟨"me", 1, 7⟩, some ⟨[7], 2⟩)]⟩
def third : Message := ⟨"n", "a", 7, ⟨false, 1⟩, [(⟨"me", 1, 7⟩, some ⟨[7], 11⟩)]⟩

/-- The process dies after the session was stored. -/
def died : Diary := day 200 (.decrypt again) (day 13 (.decrypt first) ([], .side))
def buildsB (k : Nat) (e : Ev) : Bool := match e with
  | ⟨.buildPassive "n" _ _ x _, .ok _⟩ => decide (key x = k)
  | _ => false

def storesB (k : Nat) (e : Ev) : Bool := match e with
  | ⟨.storeSession "n" s, .ok ()⟩ => decide (s.initiation = .passive ∧ key s.keyExchange = k)
  | _ => false

def hidesB (e : Ev) : Bool := match e with
  | ⟨.hidePreKey .., _⟩ => true
  | _ => false

def uploadsB (e : Ev) : Bool := match e with
  | ⟨.uploadBundle _, _⟩ => true
  | _ => false

theorem of_stores {k : Nat} {e : Ev} (h : storesB k e = true) : ∃ s, e = ⟨.storeSession "n" s, .ok ()⟩ ∧ s.initiation = .passive ∧ key s.keyExchange = k := by
  unfold storesB at h
  split at h
  · exact ⟨_, rfl, of_decide_eq_true h⟩
  · cases h

theorem of_builds {k : Nat} {e : Ev} (h : buildsB k e = true) : ∃ j d x km s m, e = ⟨.buildPassive "n" j d x km, .ok (s, m)⟩ ∧ key x = k := by
  unfold buildsB at h
  split at h
  · rename_i y
    exact ⟨_, _, _, _, y.1, y.2, rfl, of_decide_eq_true h⟩
  · cases h

end OneTime

/-- The claim in full does not hold: the process dies between storing the session and giving up the pre key, which then builds another session. -/
theorem C103_refuted : ¬ C103_Claim := by
  intro h
  let x := OneTime.day 13 (.decrypt OneTime.first) ([], .side)
  let y := runProg (Lib.env OneTime.counting) Lib.next 200 ((Call.decrypt OneTime.again).run Mgr.ex) x.2
  have hx : Days (fun _ _ => True) OneTime.died.1 := OneTime.days_day (OneTime.days_day .start trivial) trivial
  obtain ⟨h1, -⟩ := h OneTime.key OneTime.keys _ hx (OneTime.all_of (by decide +kernel))
  have he : OneTime.died.1 = x.1 ++ y.1 := rfl
  obtain ⟨e1, hm1, hs⟩ := List.any_eq_true.1 (show x.1.any (OneTime.storesB 0) = true by decide +kernel)
  obtain ⟨e2, hm2, hb⟩ := List.any_eq_true.1 (show y.1.any (OneTime.buildsB 0) = true by decide +kernel)
  obtain ⟨s, rfl, hp, hk⟩ := OneTime.of_stores hs
  obtain ⟨j, d, z, km, s', m, rfl, hz⟩ := OneTime.of_builds hb
  obtain ⟨a, b, hab⟩ := List.append_of_mem hm1
  obtain ⟨a', b', hab'⟩ := List.append_of_mem hm2
  obtain ⟨u, s0, c, v, hu, -⟩ := h1 a "n" s (b ++ a') j d z km s' m b' (by rw [he, hab, hab']; simp) hp (hk.trans hz.symm)
  have hn : OneTime.died.1.any OneTime.hidesB = false := by decide +kernel
  refine List.any_eq_false.1 hn ⟨.hidePreKey "n" s0, .ok c⟩ ?_ rfl
  have : OneTime.died.1 = (a ++ (⟨.storeSession "n" s, .ok ()⟩ : Ev) :: (b ++ a')) ++ (⟨.buildPassive "n" j d z km, .ok (s', m)⟩ : Ev) :: b' := by rw [he, hab, hab']; simp
  rw [this, hu]
  simp

namespace OneTime

/-- While old messages are fetched, the pre key is used twice; another one afterwards. -/
def synced1 : Diary := day 200 (.decrypt first) (day 200 .beforeHistorySync ([], .side))
def synced2 : Diary := day 200 (.decrypt again) synced1
def synced3 : Diary := day 200 .afterHistorySync synced2
def synced : Diary := day 200 (.decrypt third) synced3

theorem done_of {n : Nat} {c : Call} {x : Diary} (h1 : Run.works (runProg (Lib.env counting) Lib.next n (c.run Mgr.ex) x.2).2.1 = true)
    (h2 : (runProg (Lib.env counting) Lib.next n (c.run Mgr.ex) x.2).1.any failsB = false) :
    GivesUp (runProg (Lib.env counting) Lib.next n (c.run Mgr.ex) x.2).1 ((runProg (Lib.env counting) Lib.next n (c.run Mgr.ex) x.2).2.1 = .crashed) where
  hide ns s e hm := absurd (List.any_eq_false.1 h2 _ hm) (by simp [failsB])
  delete ns s e hm := absurd (List.any_eq_false.1 h2 _ hm) (by simp [failsB])
  field e hm := absurd (List.any_eq_false.1 h2 _ hm) (by simp [failsB])
  alive hc := by rw [hc] at h1; cases h1

theorem synced_days : Days GivesUp synced.1 :=
  days_day (days_day (days_day (days_day (days_day .start (done_of (by decide +kernel) (by decide +kernel))) (done_of (by decide +kernel) (by decide +kernel)))
    (done_of (by decide +kernel) (by decide +kernel))) (done_of (by decide +kernel) (by decide +kernel))) (done_of (by decide +kernel) (by decide +kernel))

end OneTime

/-- The hypotheses of `C103_partial` in a run with two uses of a pre key while it is hidden, and a bundle published. -/
theorem C103_example : (OneSession OneTime.key OneTime.synced.1 ∧ NotOffered OneTime.key OneTime.keys OneTime.synced.1) ∧
    OneTime.synced.1.countP (OneTime.buildsB 0) = 2 ∧ OneTime.synced.1.countP OneTime.hidesB = 2 ∧ OneTime.synced.1.any OneTime.uploadsB = true :=
  ⟨C103_partial _ _ _ OneTime.synced_days (OneTime.all_of (by decide +kernel)), by decide +kernel, by decide +kernel, by decide +kernel⟩

def OneTime.readsTrueB (e : Ev) : Bool := match e with
  | ⟨.getSync, .ok b⟩ => b
  | _ => false

/-- The hypotheses of `C103_after` in this run: the hidden pre keys are deleted, and then there is another key exchange. -/
theorem C103_after_example : ∃ h1 h2 j d x k s' m h3 s, OneTime.synced.1 = h1 ++ (h2 ++ (⟨.buildPassive "n" j d x k, .ok (s', m)⟩ : Ev) :: h3) ∧
    (∃ h, h1 = h ++ [⟨.deleteHidden "n", .ok ()⟩]) ∧ ((⟨.storeSession "n" s, .ok ()⟩ : Ev) ∈ h1 ∧ s.initiation = .passive) ∧
    OneTime.key s.keyExchange ≠ OneTime.key x := by
  let y3 := runProg (Lib.env OneTime.counting) Lib.next 200 ((Call.afterHistorySync).run Mgr.ex) OneTime.synced2.2
  let y := runProg (Lib.env OneTime.counting) Lib.next 200 ((Call.decrypt OneTime.third).run Mgr.ex) OneTime.synced3.2
  have he : OneTime.synced.1 = (OneTime.synced2.1 ++ y3.1) ++ y.1 := rfl
  obtain ⟨e1, hm1, hs⟩ := List.any_eq_true.1 (show OneTime.synced2.1.any (OneTime.storesB 0) = true by decide +kernel)
  obtain ⟨e2, hm2, hb⟩ := List.any_eq_true.1 (show y.1.any (OneTime.buildsB 1) = true by decide +kernel)
  obtain ⟨e3, hm3, hd⟩ := List.any_eq_true.1 (show y3.1.any (fun e => match e with | ⟨.deleteHidden "n", .ok ()⟩ => true | _ => false) = true by decide +kernel)
  obtain ⟨s, rfl, hp, hk⟩ := OneTime.of_stores hs
  obtain ⟨j, d, z, km, s', m, rfl, hz⟩ := OneTime.of_builds hb
  have hd : e3 = ⟨.deleteHidden "n", .ok ()⟩ := by
    split at hd
    · rfl
    · cases hd
  subst hd
  obtain ⟨a, b, hab⟩ := List.append_of_mem hm2
  obtain ⟨a', b', hab'⟩ := List.append_of_mem hm3
  have hr : (y3.1 ++ y.1).any OneTime.readsTrueB = false := by decide +kernel
  have hh : OneTime.synced.1 = (OneTime.synced2.1 ++ a' ++ [⟨.deleteHidden "n", .ok ()⟩]) ++ ((b' ++ a) ++ (⟨.buildPassive "n" j d z km, .ok (s', m)⟩ : Ev) :: b) := by
    rw [he, hab, hab']; simp
  have hm : (⟨.storeSession "n" s, .ok ()⟩ : Ev) ∈ OneTime.synced2.1 ++ a' ++ [⟨.deleteHidden "n", .ok ()⟩] := by simp [hm1]
  refine ⟨_, _, j, d, z, km, s', m, b, s, hh, ⟨_, rfl⟩, ⟨hm, hp⟩, ?_⟩
  refine C103_after OneTime.key OneTime.keys "n" _ _ _ (hh ▸ OneTime.synced_days) (hh ▸ OneTime.all_of (by decide +kernel)) (.inr ⟨_, rfl⟩) (fun hg => ?_)
    (List.mem_append_left _ hm) hp
  refine List.any_eq_false.1 hr ⟨.getSync, .ok true⟩ ?_ rfl
  rw [hab, hab']
  rcases List.mem_append.1 hg with h | h <;> simp [h]

end Verif
