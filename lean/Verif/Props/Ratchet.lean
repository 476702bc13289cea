import Verif.Props.EncryptResult
import Verif.Props.KeyExchange
import Verif.Props.DecryptAfter
/-
C77: no state of a session is used for two messages that leave the device.
-/
namespace Verif
open SM

namespace Spec

/-- The session stored last for device `d` of `j`. -/
def Latest (h : List Ev) (ns : Ns) (j : Jid) (d : DevId) (s : Session) : Prop :=
  s.bareJid = j ∧ s.deviceId = d ∧ ∃ h1 h2, h = h1 ++ ⟨.storeSession ns s, .ok ()⟩ :: h2 ∧
    ∀ s', s'.bareJid = j → s'.deviceId = d → (⟨.storeSession ns s', .ok ()⟩ : Ev) ∉ h2

/-- Nothing was encrypted with the session in this state. -/
def Unused (h : List Ev) (s : Session) : Prop := ∀ e ∈ h, ∀ ns m, e.1 ≠ .encryptKM ns s m

/-- No backend returned this encrypted key material. -/
def KeyNew (h : List Ev) (k : EncKM) : Prop := ∀ e ∈ h, ∀ s, ¬ Gives e k s

/-- Backends keep sessions as they were stored; using a session takes it to a state it was not in before when it was used to encrypt, and encrypted
key material never comes out the same twice. -/
structure Ratchets (h : List Ev) (e : Ev) : Prop where
  load : ∀ ns j d s, e = ⟨.loadSession ns j d, .ok (some s)⟩ → Latest h ns j d s
  addressed : Addressed [e]
  encrypt : ∀ ns s m k s', e = ⟨.encryptKM ns s m, .ok (k, s')⟩ → Unused (h ++ [e]) s' ∧ KeyNew h k
  decrypt : ∀ ns s k m s', e = ⟨.decryptKM ns s k, .ok (m, s')⟩ → Unused h s'
  active : ∀ ns j d b m s k, e = ⟨.buildActive ns j d b m, .ok (s, k)⟩ → Unused h s ∧ KeyNew h k
  passive : ∀ ns j d x k s m, e = ⟨.buildPassive ns j d x k, .ok (s, m)⟩ → Unused h s

/-- The encrypted key material in sent messages. -/
def sentKeys (t : List Ev) : List EncKM :=
  t.flatMap fun
    | ⟨.sendMessage m _, .ok ()⟩ => m.keys.map (·.1)
    | _ => []

/-- The encrypted key material returned to the caller of `encrypt`. -/
def returnedKeys : Res Exn (Dict Message PlainKM × List EncError) → List EncKM
  | .ok (msgs, _) => msgs.flatMap fun x => x.1.keys.map (·.1)
  | _ => []

/-- The trust decision callback does not use sessions, send messages or evaluate trust. -/
def Apart (M : Mgr) : Prop :=
  ∀ ds i, AllOps (fun o : Op => Op.encrypts o = false ∧ Op.sendsMessage o = false ∧ ∀ dev, o ≠ .evalTrust dev) (M.decide ds i)

def Call.isEncrypt : Call → Bool
  | .encrypt .. => true
  | _ => false

/-- Calls one after the other, each ending anywhere: all interactions, and the key material that left the device.  `P` restricts the
interactions of single calls; its second argument says whether the process died. -/
inductive Talk (P : List Ev → Prop → Prop) : List Ev → List EncKM → Prop
  | start : Talk P [] []
  | call {h L M c t r} : Talk P h L → Apart M → Call.isEncrypt c = false → Exec (c.run M) t r → P t (r = .crashed) → Talk P (h ++ t) (L ++ sentKeys t)
  | encrypt {h L M jids pt prio i t r} : Talk P h L → Apart M → Exec (SM.encrypt M jids pt prio i) t r → BackendsOnce t →
      Talk P (h ++ t) (L ++ returnedKeys r)

/-- When a session in the same state is used twice, then what was made with it first did not leave the device. -/
def OneUse (h : List Ev) (L : List EncKM) : Prop :=
  h.Pairwise fun e1 e2 => ∀ ns s m1 k1 s1 m2 k2 s2, e1 = ⟨.encryptKM ns s m1, .ok (k1, s1)⟩ → e2 = ⟨.encryptKM ns s m2, .ok (k2, s2)⟩ → k1 ∉ L

/-- A message was sent just now. -/
def SentLast (t : List Ev) : Prop := ∃ m j, t.getLast? = some ⟨.sendMessage m j, .ok ()⟩

/-- After a message was sent, storing the session does not fail, and the process does not die before it. -/
structure StoresSent (t : List Ev) (died : Prop) : Prop where
  stored : ∀ t1 t2 ns s x, t = t1 ++ ⟨.storeSession ns s, x⟩ :: t2 → SentLast t1 → x = .ok ()
  alive : died → ¬ SentLast t

end Spec
open Spec

/-- C77 in full. -/
def C77_Claim : Prop := ∀ h L, Talk (fun _ _ => True) h L → Guarded Ratchets h → OneUse h L

namespace Ratchet
variable {h : List Ev} {L : List EncKM} {e : Ev} {ns : Ns} {j : Jid} {d : DevId} {s : Session}

/-- What was made with `s` did not leave the device. -/
def Unspent (h : List Ev) (L : List EncKM) (ns : Ns) (s : Session) : Prop :=
  ∀ m k s', (⟨.encryptKM ns s m, .ok (k, s')⟩ : Ev) ∈ h → k ∉ L

structure Fine (h : List Ev) (L : List EncKM) : Prop where
  once : OneUse h L
  known : ∀ k ∈ L, ¬ KeyNew h k
  latest : ∀ ns j d s, Latest h ns j d s → Unspent h L ns s

/-- `Fine`, but for one device. -/
structure Half (h : List Ev) (L : List EncKM) (ns : Ns) (j : Jid) (d : DevId) : Prop where
  once : OneUse h L
  known : ∀ k ∈ L, ¬ KeyNew h k
  latest : ∀ ns' j' d' s, Latest h ns' j' d' s → ¬ (ns' = ns ∧ j' = j ∧ d' = d) → Unspent h L ns' s

theorem Fine.half (hf : Fine h L) (ns : Ns) (j : Jid) (d : DevId) : Half h L ns j d := ⟨hf.once, hf.known, fun _ _ _ _ h _ => hf.latest _ _ _ _ h⟩

theorem keyNew_of_append {h' : List Ev} {k : EncKM} (hk : KeyNew (h ++ h') k) : KeyNew h k := fun e he => hk e (List.mem_append_left _ he)

theorem not_keyNew {k : EncKM} {s'} {m} (he : (⟨.encryptKM ns s m, .ok (k, s')⟩ : Ev) ∈ h) : ¬ KeyNew h k :=
  fun hk => hk _ he s' (.inr ⟨_, _, _, rfl⟩)

/-- Appending something that stores no session. -/
theorem latest_snoc (he : ∀ ns s, e ≠ ⟨.storeSession ns s, .ok ()⟩) : Latest (h ++ [e]) ns j d s ↔ Latest h ns j d s := by
  refine and_congr_right fun _ => and_congr_right fun _ => ⟨?_, ?_⟩
  · rintro ⟨h1, h2, hh, hn⟩
    rcases List.eq_nil_or_concat h2 with rfl | ⟨h2, x, rfl⟩
    · have := List.append_inj' hh rfl
      simp only [List.cons.injEq, and_true] at this
      exact absurd this.2 (he _ _)
    · rw [List.concat_eq_append, ← List.cons_append, ← List.append_assoc] at hh
      obtain ⟨rfl, hx⟩ := List.append_inj' hh rfl
      exact ⟨h1, h2, rfl, fun s' a b c => hn s' a b (by simp [c])⟩
  · rintro ⟨h1, h2, rfl, hn⟩
    refine ⟨h1, h2 ++ [e], by simp, fun s' a b c => ?_⟩
    rcases List.mem_append.1 c with c | c
    · exact hn s' a b c
    · simp only [List.mem_singleton] at c
      exact he _ _ c.symm

theorem latest_store {s0 : Session} {ns0 : Ns} (hl : Latest (h ++ [⟨.storeSession ns0 s0, .ok ()⟩]) ns j d s) :
    (ns = ns0 ∧ s = s0) ∨ (Latest h ns j d s ∧ ¬ (ns = ns0 ∧ j = s0.bareJid ∧ d = s0.deviceId)) := by
  obtain ⟨hj, hd, h1, h2, hh, hn⟩ := hl
  rcases List.eq_nil_or_concat h2 with rfl | ⟨h2, x, rfl⟩
  · have := List.append_inj' hh rfl
    simp only [List.cons.injEq, and_true] at this
    cases this.2
    exact .inl ⟨rfl, rfl⟩
  · rw [List.concat_eq_append, ← List.cons_append, ← List.append_assoc] at hh
    obtain ⟨rfl, hx⟩ := List.append_inj' hh rfl
    simp only [List.cons.injEq, and_true] at hx
    subst hx
    refine .inr ⟨⟨hj, hd, h1, h2, rfl, fun s' a b c => hn s' a b (by simp [c])⟩, ?_⟩
    rintro ⟨rfl, rfl, rfl⟩
    exact hn s0 rfl rfl (by simp)

theorem latest_stored (h : List Ev) (ns : Ns) (s : Session) : Latest (h ++ [⟨.storeSession ns s, .ok ()⟩]) ns s.bareJid s.deviceId s :=
  ⟨rfl, rfl, h, [], rfl, fun _ _ _ h => by cases h⟩

theorem known_snoc (hf : ∀ k ∈ L, ¬ KeyNew h k) (e : Ev) : ∀ k ∈ L, ¬ KeyNew (h ++ [e]) k := fun k hk hn => hf k hk (keyNew_of_append hn)

theorem once_snoc (hf : OneUse h L) (he : ∀ ns s m k s', e ≠ ⟨.encryptKM ns s m, .ok (k, s')⟩) : OneUse (h ++ [e]) L := by
  refine List.pairwise_append.2 ⟨hf, List.pairwise_singleton _ _, fun a _ b hb => ?_⟩
  simp only [List.mem_singleton] at hb
  subst hb
  exact fun _ _ _ _ _ _ _ _ _ h => absurd h (he _ _ _ _ _)

theorem unspent_snoc (he : ∀ ns s m k s', e ≠ ⟨.encryptKM ns s m, .ok (k, s')⟩) (hu : Unspent h L ns s) : Unspent (h ++ [e]) L ns s := by
  intro m k s' hm
  rcases List.mem_append.1 hm with hm | hm
  · exact hu m k s' hm
  · simp only [List.mem_singleton] at hm
    exact absurd hm.symm (he _ _ _ _ _)

/-- Anything but encrypting with or storing a session. -/
theorem Fine.other (hf : Fine h L) (he : ∀ ns s m k s', e ≠ ⟨.encryptKM ns s m, .ok (k, s')⟩) (he' : ∀ ns s, e ≠ ⟨.storeSession ns s, .ok ()⟩) :
    Fine (h ++ [e]) L :=
  ⟨once_snoc hf.once he, known_snoc hf.known e, fun ns j d s hl => unspent_snoc he (hf.latest ns j d s ((latest_snoc he').1 hl))⟩

/-- Encrypting with a session. -/
theorem Fine.enc {m k s'} (hf : Fine h L) (hu : Unspent h L ns s) (hr : Ratchets h ⟨.encryptKM ns s m, .ok (k, s')⟩) :
    Fine (h ++ [⟨.encryptKM ns s m, .ok (k, s')⟩]) L := by
  obtain ⟨h1, h2⟩ := hr.encrypt _ _ _ _ _ rfl
  have hk : k ∉ L := fun hk => hf.known k hk h2
  refine ⟨?_, known_snoc hf.known _, fun ns' j d s0 hl => ?_⟩
  · refine List.pairwise_append.2 ⟨hf.once, List.pairwise_singleton _ _, fun a ha b hb => ?_⟩
    simp only [List.mem_singleton] at hb
    subst hb
    rintro ns' s' m1 k1 s1 m2 k2 s2 rfl h4
    cases h4
    exact hu m1 k1 s1 ha
  · have hl := (latest_snoc (by simp)).1 hl
    intro m' k' s1 hm
    rcases List.mem_append.1 hm with hm | hm
    · exact hf.latest _ _ _ _ hl m' k' s1 hm
    · simp only [List.mem_singleton] at hm
      cases hm
      exact hk

/-- Key material made with `s` just now leaves. -/
theorem Fine.send {m k s'} (hf : Fine (h ++ [⟨.encryptKM ns s m, .ok (k, s')⟩]) L) (hk : KeyNew h k) :
    Half (h ++ [⟨.encryptKM ns s m, .ok (k, s')⟩]) (L ++ [k]) ns s.bareJid s.deviceId := by
  refine ⟨?_, ?_, ?_⟩
  · have h0 := List.pairwise_append.1 hf.once
    refine List.pairwise_append.2 ⟨?_, List.pairwise_singleton _ _, ?_⟩
    · refine h0.1.imp_of_mem fun {a b} ha hb hab => ?_
      intro ns' s0 m1 k1 s1 m2 k2 s2 h1 h2 hk1
      rcases List.mem_append.1 hk1 with hk1 | hk1
      · exact hab _ _ _ _ _ _ _ _ h1 h2 hk1
      · simp only [List.mem_singleton] at hk1
        subst hk1 h1
        exact not_keyNew ha hk
    · intro a ha b hb ns' s0 m1 k1 s1 m2 k2 s2 h1 h2 hk1
      rcases List.mem_append.1 hk1 with hk1 | hk1
      · exact h0.2.2 a ha b hb _ _ _ _ _ _ _ _ h1 h2 hk1
      · simp only [List.mem_singleton] at hk1
        subst hk1 h1
        exact not_keyNew ha hk
  · intro k' hk'
    rcases List.mem_append.1 hk' with hk' | hk'
    · exact hf.known k' hk'
    · simp only [List.mem_singleton] at hk'
      subst hk'
      exact not_keyNew (by simp : (⟨.encryptKM ns s m, .ok (k', s')⟩ : Ev) ∈ _)
  · intro ns' j' d' s0 hl hne m' k' s1 hm hk'
    rcases List.mem_append.1 hk' with hk' | hk'
    · exact hf.latest _ _ _ _ hl m' k' s1 hm hk'
    · simp only [List.mem_singleton] at hk'
      subst hk'
      rcases List.mem_append.1 hm with hm | hm
      · exact not_keyNew hm hk
      · simp only [List.mem_singleton] at hm
        cases hm
        exact hne ⟨rfl, hl.1.symm, hl.2.1.symm⟩

/-- Key material leaves that was not made by encrypting with a session. -/
theorem Fine.sendNew {k : EncKM} (hf : Fine h L) (hk : ¬ KeyNew h k) (hn : ∀ ns s m s', (⟨.encryptKM ns s m, .ok (k, s')⟩ : Ev) ∉ h) :
    Fine h (L ++ [k]) := by
  refine ⟨?_, ?_, ?_⟩
  · refine List.Pairwise.imp_of_mem (fun {a b} ha hb hab => ?_) hf.once
    intro ns' s0 m1 k1 s1 m2 k2 s2 h1 h2 hk1
    rcases List.mem_append.1 hk1 with hk1 | hk1
    · exact hab _ _ _ _ _ _ _ _ h1 h2 hk1
    · simp only [List.mem_singleton] at hk1
      subst hk1 h1
      exact hn _ _ _ _ ha
  · intro k' hk'
    rcases List.mem_append.1 hk' with hk' | hk'
    · exact hf.known k' hk'
    · simp only [List.mem_singleton] at hk'
      subst hk'
      exact hk
  · intro ns' j' d' s0 hl m' k' s1 hm hk'
    rcases List.mem_append.1 hk' with hk' | hk'
    · exact hf.latest _ _ _ _ hl m' k' s1 hm hk'
    · simp only [List.mem_singleton] at hk'
      subst hk'
      exact hn _ _ _ _ hm

theorem Half.other (hf : Half h L ns j d) (he : ∀ ns s m k s', e ≠ ⟨.encryptKM ns s m, .ok (k, s')⟩) (he' : ∀ ns s, e ≠ ⟨.storeSession ns s, .ok ()⟩) :
    Half (h ++ [e]) L ns j d :=
  ⟨once_snoc hf.once he, known_snoc hf.known e, fun ns j d s hl hne => unspent_snoc he (hf.latest ns j d s ((latest_snoc he').1 hl) hne)⟩

/-- Storing a new state. -/
theorem Half.store (hf : Half h L ns s.bareJid s.deviceId) (hu : Unused h s) : Fine (h ++ [⟨.storeSession ns s, .ok ()⟩]) L := by
  refine ⟨once_snoc hf.once (by simp), known_snoc hf.known _, fun ns' j d s' hl => unspent_snoc (by simp) ?_⟩
  rcases latest_store hl with ⟨rfl, rfl⟩ | ⟨hl, hne⟩
  · exact fun m k s' hm => absurd rfl (hu _ hm _ _)
  · exact hf.latest _ _ _ _ hl hne

/-! ### Calls other than `encrypt` -/

/-- The contract, after the history `h0`; the state is what happened since. -/
def Since (h0 : List Ev) : Sem LibSig Exn (List Ev) where
  ok t e := Ratchets (h0 ++ t) e ∧ ∀ ns s x, e = ⟨.storeSession ns s, x⟩ → SentLast t → x = .ok ()
  next t e := t ++ [e]

theorem since_runs {h0 t : List Ev} {died : Prop} (hg : Guarded Ratchets (h0 ++ t)) (hs : StoresSent t died) : (Since h0).Runs [] t t := by
  suffices ∀ t2 t1, t = t1 ++ t2 → (Since h0).Runs t1 t2 t from this t [] rfl
  intro t2
  induction t2 with
  | nil => intro t1 ht; simp only [Sem.runs_nil]; simpa using ht
  | cons e t2 ih =>
    intro t1 ht
    refine ⟨⟨hg _ _ t2 (by rw [ht]; simp), fun ns s x he hl => hs.stored t1 t2 ns s x (by rw [ht, he]) hl⟩, ih _ (by rw [ht]; simp [Since])⟩

def Inv (h0 : List Ev) (L0 : List EncKM) (t : List Ev) : Prop := Fine (h0 ++ t) (L0 ++ sentKeys t) ∧ ¬ SentLast t

/-- Ended early. -/
def Early (h0 : List Ev) (L0 : List EncKM) (x : Option Exn) (t : List Ev) : Prop := Inv h0 L0 t ∨ (x = none ∧ SentLast t)

def Pr {α : Type} (h0 : List Ev) (L0 : List EncKM) (p : P α) : Prop :=
  ∀ t, Inv h0 L0 t → wp (Since h0) p (ends (fun _ => Inv h0 L0) (Early h0 L0)) t

variable {h0 : List Ev} {L0 : List EncKM} {t : List Ev} {α β : Type}

/-- Interactions of interest. -/
def turns : Op → Bool
  | .encryptKM .. | .sendMessage .. | .storeSession .. => true
  | _ => false

theorem sentKeys_append {t t' : List Ev} : sentKeys (t ++ t') = sentKeys t ++ sentKeys t' := List.flatMap_append

theorem sentKeys_none (h : ∀ m j, e ≠ ⟨.sendMessage m j, .ok ()⟩) : sentKeys [e] = [] := by
  unfold sentKeys
  simp only [List.flatMap_cons, List.flatMap_nil, List.append_nil]

theorem not_sentLast (h : ∀ m j, e ≠ ⟨.sendMessage m j, .ok ()⟩) : ¬ SentLast (t ++ [e]) := by
  rintro ⟨m, j, hl⟩
  simp only [List.getLast?_append, List.getLast?_singleton, Option.some_or, Option.some.injEq] at hl
  exact h _ _ hl

theorem Inv.other (hi : Inv h0 L0 t) (h1 : ∀ ns s m k s', e ≠ ⟨.encryptKM ns s m, .ok (k, s')⟩) (h2 : ∀ ns s, e ≠ ⟨.storeSession ns s, .ok ()⟩)
    (h3 : ∀ m j, e ≠ ⟨.sendMessage m j, .ok ()⟩) : Inv h0 L0 (t ++ [e]) := by
  refine ⟨?_, not_sentLast h3⟩
  rw [sentKeys_append, sentKeys_none h3, List.append_nil, ← List.append_assoc]
  exact hi.1.other h1 h2

theorem turns_ne {o : Op} {r} (ho : turns o = false) : (∀ ns s m k s', (⟨o, r⟩ : Ev) ≠ ⟨.encryptKM ns s m, .ok (k, s')⟩) ∧
    (∀ ns s, (⟨o, r⟩ : Ev) ≠ ⟨.storeSession ns s, .ok ()⟩) ∧ ∀ m j, (⟨o, r⟩ : Ev) ≠ ⟨.sendMessage m j, .ok ()⟩ := by
  refine ⟨fun _ _ _ _ _ h => ?_, fun _ _ h => ?_, fun _ _ h => ?_⟩ <;> cases h <;> cases ho

/-- Programs without interactions of interest, keeping what is known besides. -/
theorem quiet_with {p : P α} (K : List Ev → Prop) (hK : ∀ t o r, turns o = false → K t → K (t ++ [⟨o, r⟩])) (hp : AllOps (fun o => turns o = false) p)
    (hi : Inv h0 L0 t) (hk : K t) : wp (Since h0) p (fun _ t' => Inv h0 L0 t' ∧ K t') t :=
  hp.invariant (I := fun t => Inv h0 L0 t ∧ K t) (fun t o r ho _ h => ⟨h.1.other (turns_ne ho).1 (turns_ne ho).2.1 (turns_ne ho).2.2, hK t o r ho h.2⟩)
    t ⟨hi, hk⟩

theorem Pr.quiet {p : P α} (hp : AllOps (fun o => turns o = false) p) : Pr h0 L0 p := fun t hi =>
  wp_mono (quiet_with (fun _ => True) (fun _ _ _ _ _ => trivial) hp hi trivial) fun r t' h => by
    cases r
    · exact h.1
    · exact .inl h.1
    · exact .inl h.1

theorem Pr.bind {p : P α} {f : α → P β} (hp : Pr h0 L0 p) (hf : ∀ a, Pr h0 L0 (f a)) : Pr h0 L0 (p >>= f) := fun t hi =>
  ends_bind.2 (ends_mono (hp t hi) (fun a t' h => hf a t' h) fun _ _ h => h)

theorem Pr.forEach {xs : List β} {f : β → P Unit} (hf : ∀ x, Pr h0 L0 (f x)) : Pr h0 L0 (Prog.forEach xs f) := fun _ hi =>
  ends_forEach (fun _ _ => Inv h0 L0) hi (fun _ x _ t _ h => hf x t h) fun _ h => h

theorem Pr.fold {xs : List β} {b : α} {f : α → β → P α} (hf : ∀ b x, Pr h0 L0 (f b x)) : Pr h0 L0 (Prog.fold xs b f) := fun _ hi =>
  ends_fold (fun _ _ _ => Inv h0 L0) hi (fun _ x _ b t _ h => hf b x t h) fun _ _ h => h

theorem Pr.ret (a : α) : Pr h0 L0 (pure a) := fun _ hi => hi

theorem Pr.raise (e : Exn) : Pr h0 L0 (Prog.raise e : P α) := fun _ hi => .inl hi

theorem Pr.tryElse {p : P α} {h : Exn → P β} {f : α → P β} (hp : Pr h0 L0 p) (hh : ∀ e, Pr h0 L0 (h e)) (hf : ∀ a, Pr h0 L0 (f a)) :
    Pr h0 L0 (p.tryElse h f) := fun t hi => by
  rw [wp_tryElse]
  refine wp_mono (hp t hi) fun r t' hr => ?_
  cases r with
  | ok a => exact hf a t' hr
  | raised e =>
    rcases hr with hr | ⟨hr, _⟩
    · exact hh e t' hr
    · cases hr
  | crashed => exact hr

theorem latest_since {e : Ev} (he : ∀ ns s, e ≠ ⟨.storeSession ns s, .ok ()⟩) (hl : Latest (h0 ++ t) ns j d s) : Latest (h0 ++ (t ++ [e])) ns j d s := by
  rw [← List.append_assoc]
  exact (latest_snoc he).2 hl

/-- `__send_empty_message` for the session as it is stored. -/
theorem sendEmpty (M : Mgr) (hi : Inv h0 L0 t) (hl : Latest (h0 ++ t) ns s.bareJid s.deviceId s) :
    wp (Since h0) (sendEmptyMessage M ns s) (ends (fun _ => Inv h0 L0) (Early h0 L0)) t := by
  unfold sendEmptyMessage
  wpsimp
  have hi1 : ∀ x, Inv h0 L0 (t ++ [⟨.encryptEmpty ns, x⟩]) := fun x => hi.other (by simp) (by simp) (by simp)
  refine ⟨.inl hi, fun ⟨c, km⟩ _ => ⟨.inl (hi1 _), ?_, fun e _ => ?_⟩, fun e _ => .inl (hi1 _)⟩
  · rintro ⟨k, s'⟩ ⟨hr, _⟩
    have hl1 : ∀ x, Latest (h0 ++ (t ++ [⟨.encryptEmpty ns, x⟩])) ns s.bareJid s.deviceId s := fun x => latest_since (by simp) hl
    have hf := (hi1 (.ok (c, km))).1
    have h2 := hf.enc (hf.latest _ _ _ _ (hl1 _)) hr
    obtain ⟨hu, hk⟩ := hr.encrypt _ _ _ _ _ rfl
    obtain ⟨⟨ha1, ha2⟩, _⟩ := hr.addressed.encrypt ns s km k s' (by simp)
    have hi2 : Inv h0 L0 (t ++ [⟨.encryptEmpty ns, .ok (c, km)⟩] ++ [⟨.encryptKM ns s km, .ok (k, s')⟩]) := by
      refine ⟨?_, not_sentLast (by simp)⟩
      rw [sentKeys_append, sentKeys_none (e := ⟨.encryptKM ns s km, _⟩) (by simp), List.append_nil, ← List.append_assoc h0]
      exact h2
    refine ⟨.inl hi2, fun _ _ => ?_, fun e _ => .inl (hi2.other (by simp) (by simp) (by simp))⟩
    have h3 := (h2.send hk).other (e := ⟨.sendMessage { ns := ns, bareJid := M.ownJid, deviceId := M.ownDev, content := c, keys := [(k, kexFor s')] }
      s'.bareJid, .ok ()⟩) (by simp) (by simp)
    have hs : SentLast (t ++ [⟨.encryptEmpty ns, .ok (c, km)⟩] ++ [⟨.encryptKM ns s km, .ok (k, s')⟩] ++
        [⟨.sendMessage { ns := ns, bareJid := M.ownJid, deviceId := M.ownDev, content := c, keys := [(k, kexFor s')] } s'.bareJid, .ok ()⟩]) :=
      ⟨_, _, List.getLast?_concat⟩
    refine ⟨.inr ⟨rfl, hs⟩, fun _ _ => ⟨?_, not_sentLast (by simp)⟩, fun e hr2 => ?_⟩
    · rw [← ha1, ← ha2] at h3
      have h4 := h3.store (s := s') fun e he => ?_
      · simpa [Since, sentKeys] using h4
      · rcases List.mem_append.1 he with he | he
        · exact hu e he
        · simp only [List.mem_singleton] at he
          subst he
          simp
    · have := hr2.2 _ _ _ rfl hs
      cases this
  · exact .inl ((hi1 _).other (by simp) (by simp) (by simp))

/-- One queued message. -/
theorem sendQueued (M : Mgr) (ns : Ns) (jid : Jid) (d : DevId) : Pr h0 L0 (SM.sendQueued M ns jid d) := fun t hi => by
  unfold SM.sendQueued
  wpsimp
  have hi1 : ∀ x, Inv h0 L0 (t ++ [⟨.loadSession ns jid d, x⟩]) := fun x => hi.other (by simp) (by simp) (by simp)
  refine ⟨.inl hi, fun o hr => ?_, fun e _ => .inl (hi1 _)⟩
  cases o with
  | none => exact hi1 _
  | some s =>
    obtain ⟨rfl, rfl, _⟩ := hr.1.load _ _ _ _ rfl
    exact sendEmpty M (hi1 _) (latest_since (by simp) (hr.1.load _ _ _ _ rfl))

theorem afterHistorySync (M : Mgr) : Pr h0 L0 (SM.afterHistorySync M) := by
  unfold SM.afterHistorySync sendQueuedBackend sendQueuedJid
  refine .bind (.quiet (by lib_ops [])) fun _ => .bind (.quiet (by lib_ops [])) fun _ => .bind (.quiet (by lib_ops [])) fun _ =>
    .bind (.quiet (by lib_ops [])) fun _ => .forEach fun ns => ?_
  refine .bind (.quiet (by lib_ops [])) fun _ => .bind (.quiet (by lib_ops [])) fun _ => .forEach fun jid => ?_
  exact .bind (.quiet (by lib_ops [])) fun _ => .bind (.quiet (by lib_ops [])) fun _ => .forEach fun d => sendQueued M ns jid d

/-- A session that was not used to encrypt so far. -/
theorem store (hi : Inv h0 L0 t) (hu : Unused (h0 ++ t) s) : wp (Since h0) (call (.storeSession ns s))
    (ends (fun _ t' => Inv h0 L0 t' ∧ Latest (h0 ++ t') ns s.bareJid s.deviceId s) (Early h0 L0)) t := by
  unfold call
  wpsimp
  refine ⟨.inl hi, fun _ _ => ⟨⟨?_, not_sentLast (by simp)⟩, ?_⟩, fun e _ => .inl (hi.other (by simp) (by simp) (by simp))⟩
  · have := (hi.1.half ns s.bareJid s.deviceId).store hu
    simpa [Since, sentKeys] using this
  · have := latest_stored (h0 ++ t) ns s
    simpa [Since] using this

theorem replaceSession (M : Mgr) (jid : Jid) (d : DevId) (ns : Ns) : Pr h0 L0 (SM.replaceSession M jid d ns) := fun t hi => by
  unfold SM.replaceSession
  wpsimp
  have hi1 : ∀ x, Inv h0 L0 (t ++ [⟨.encryptEmpty ns, x⟩]) := fun x => hi.other (by simp) (by simp) (by simp)
  have hi2 : ∀ x y, Inv h0 L0 (t ++ [⟨.encryptEmpty ns, x⟩] ++ [⟨.downloadBundle ns jid d, y⟩]) := fun x y => (hi1 x).other (by simp) (by simp) (by simp)
  have hi3 : ∀ x y b km z, Inv h0 L0 (t ++ [⟨.encryptEmpty ns, x⟩] ++ [⟨.downloadBundle ns jid d, y⟩] ++ [⟨.buildActive ns jid d b km, z⟩]) :=
    fun x y b km z => (hi2 x y).other (by simp) (by simp) (by simp)
  refine ⟨.inl hi, fun ⟨c, km⟩ _ => ⟨.inl (hi1 _), fun b _ => ⟨.inl (hi2 _ _), ?_, fun e _ => .inl (hi3 _ _ _ _ _)⟩, fun e _ => .inl (hi2 _ _)⟩,
    fun e _ => .inl (hi1 _)⟩
  rintro ⟨s, k⟩ ⟨hr, _⟩
  have h3 := hi3 (.ok (c, km)) (.ok b) b km (.ok (s, k))
  obtain ⟨hu, hk⟩ := hr.active _ _ _ _ _ _ _ rfl
  refine ⟨.inl h3, fun _ _ => ?_, fun e _ => .inl (h3.other (by simp) (by simp) (by simp))⟩
  have h4 : Fine _ _ := h3.1.sendNew (k := k) (fun hn => hn ⟨.buildActive ns jid d b km, .ok (s, k)⟩ (by simp) s (.inl ⟨_, _, _, _, _, rfl⟩)) ?_
  · have h5 := h4.other (e := ⟨.sendMessage
      { ns := ns, bareJid := M.ownJid, deviceId := M.ownDev, content := c, keys := [(k, some s.keyExchange)] } jid, .ok ()⟩) (by simp) (by simp)
    have hs : SentLast (t ++ [⟨.encryptEmpty ns, .ok (c, km)⟩] ++ [⟨.downloadBundle ns jid d, .ok b⟩] ++ [⟨.buildActive ns jid d b km, .ok (s, k)⟩] ++
        [⟨.sendMessage { ns := ns, bareJid := M.ownJid, deviceId := M.ownDev, content := c, keys := [(k, some s.keyExchange)] } jid, .ok ()⟩]) :=
      ⟨_, _, List.getLast?_concat⟩
    refine ⟨.inr ⟨rfl, hs⟩, fun _ _ => ⟨?_, not_sentLast (by simp)⟩, fun e hr2 => ?_⟩
    · have h6 := (h5.half ns s.bareJid s.deviceId).store fun e he => ?_
      · simpa [Since, sentKeys] using h6
      · rw [List.append_assoc] at he
        rcases List.mem_append.1 he with he | he
        · exact hu e (List.mem_append_left _ he)
        · simp only [List.mem_append, List.mem_singleton, or_assoc] at he
          rcases he with he | rfl | rfl | rfl | rfl
          · exact hu e (by simp [Since, he])
          all_goals simp
    · have := hr2.2 _ _ _ rfl hs
      cases this
  · intro ns' s0 m s1 hm
    simp only [← List.append_assoc h0] at hm
    rcases List.mem_append.1 hm with hm | hm
    · exact not_keyNew hm (by simpa [Since] using hk)
    · simp at hm

theorem unused_snoc {o : Op} {r} (ho : turns o = false) (hu : Unused h s) : Unused (h ++ [⟨o, r⟩]) s := by
  intro e he ns m
  rcases List.mem_append.1 he with he | he
  · exact hu e he ns m
  · simp only [List.mem_singleton] at he
    subst he
    rintro rfl
    cases ho

theorem keyMaterial (M : Mgr) (msg : Message) (dev : DeviceInfo) (ekm : EncKM) (kex : Option KeyExchange) (hi : Inv h0 L0 t) :
    wp (Since h0) (SM.keyMaterial M msg dev ekm kex) (ends (fun x t' => Inv h0 L0 t' ∧ Unused (h0 ++ t') x.1) (Early h0 L0)) t := by
  have hi1 : ∀ x, Inv h0 L0 (t ++ [⟨.loadSession msg.ns dev.bareJid dev.deviceId, x⟩]) := fun x => hi.other (by simp) (by simp) (by simp)
  have hdec : ∀ t s, Inv h0 L0 t → wp (Since h0) (do let (km, session) ← call (.decryptKM msg.ns s ekm); pure (session, km))
      (ends (fun x t' => Inv h0 L0 t' ∧ Unused (h0 ++ t') x.1) (Early h0 L0)) t := by
    intro t s hi
    wpsimp
    refine ⟨.inl hi, ?_, fun e _ => .inl (hi.other (by simp) (by simp) (by simp))⟩
    rintro ⟨km, s'⟩ ⟨hr, _⟩
    have := unused_snoc (o := .decryptKM msg.ns s ekm) (r := .ok (km, s')) rfl (hr.decrypt _ _ _ _ _ rfl)
    exact ⟨hi.other (by simp) (by simp) (by simp), by simpa [Since] using this⟩
  unfold SM.keyMaterial
  cases kex with
  | none =>
    simp only
    unfold decryptKeyMaterial
    wpsimp
    refine ⟨.inl hi, fun o _ => ?_, fun e _ => .inl (hi1 _)⟩
    cases o with
    | none => exact .inl (hi1 _)
    | some s => exact hdec _ s (hi1 _)
  | some x =>
    simp only
    unfold handleKeyExchange
    split
    · exact .inl hi
    · wpsimp
      refine ⟨.inl hi, fun o _ => ?_, fun e _ => .inl (hi1 _)⟩
      cases o.filter (fun s => decide (s.initiation = .passive) && M.sameSession s.keyExchange x) with
      | some s => exact hdec _ s (hi1 _)
      | none =>
        wpsimp
        refine ⟨.inl (hi1 _), ?_, fun e _ => .inl ((hi1 _).other (by simp) (by simp) (by simp))⟩
        rintro ⟨s, km⟩ ⟨hr, _⟩
        have := unused_snoc (o := .buildPassive msg.ns dev.bareJid dev.deviceId x ekm) (r := .ok (s, km)) rfl (hr.passive _ _ _ _ _ _ _ rfl)
        exact ⟨(hi1 _).other (by simp) (by simp) (by simp), by simpa [Since] using this⟩

/-- Reading and updating what is known about devices. -/
theorem quiet_refresh (M : Mgr) (ns : Ns) (jid : Jid) : AllOps (fun o => turns o = false) (refreshDeviceList M ns jid) :=
  (ops_refreshDeviceList M ns jid).mono fun _ h => by
    cases h with
    | download => rfl
    | update h => cases h <;> rfl

theorem quiet_info (M : Mgr) (jid : Jid) : AllOps (fun o => turns o = false) (getDeviceInformation M jid) :=
  (ops_getDeviceInformation M jid).mono fun _ h => by cases h <;> rfl

/-- `quiet_with`, for programs with a result. -/
theorem quiet_ends {p : P α} (K : List Ev → Prop) (hK : ∀ t o r, turns o = false → K t → K (t ++ [⟨o, r⟩])) (hp : AllOps (fun o => turns o = false) p)
    (hi : Inv h0 L0 t) (hk : K t) : wp (Since h0) p (ends (fun _ t' => Inv h0 L0 t' ∧ K t') (Early h0 L0)) t :=
  wp_mono (quiet_with K hK hp hi hk) fun r t' h => by
    cases r
    · exact h
    · exact .inl h.1
    · exact .inl h.1

theorem keeps_unused (t : List Ev) (o : Op) (r) (ho : turns o = false) (h : Unused (h0 ++ t) s) : Unused (h0 ++ (t ++ [⟨o, r⟩])) s := by
  have := unused_snoc (r := r) ho h
  rwa [List.append_assoc] at this

theorem keeps_latest (t : List Ev) (o : Op) (r) (ho : turns o = false) (h : Latest (h0 ++ t) ns j d s) : Latest (h0 ++ (t ++ [⟨o, r⟩])) ns j d s :=
  latest_since (turns_ne ho).2.1 h

theorem quiet_consume (M : Mgr) (ns : Ns) (s : Session) : AllOps (fun o => turns o = false) (consumePreKey M ns s) := by
  unfold consumePreKey discardPreKey refillPreKeys
  lib_ops []

theorem quiet_queue (M : Mgr) (s : Session) : AllOps (fun o => turns o = false) (queueEmpty M s) := by
  unfold queueEmpty
  lib_ops []

theorem autoReply (M : Mgr) (kex : Option KeyExchange) (hi : Inv h0 L0 t) (hl : Latest (h0 ++ t) ns s.bareJid s.deviceId s) :
    wp (Since h0) (SM.autoReply M ns kex s) (ends (fun _ => Inv h0 L0) (Early h0 L0)) t := by
  unfold SM.autoReply
  refine ends_when (fun _ => ?_) fun _ => hi
  refine ends_bind.2 (ends_mono (quiet_ends _ (keeps_latest (ns := ns) (s := s)) (by lib_ops []) hi hl) ?_ fun _ _ h => h)
  rintro sync t' ⟨hi', hl'⟩
  split
  · exact Pr.quiet (quiet_queue M s) _ hi'
  · exact sendEmpty M hi' hl'

theorem postDecrypt (M : Mgr) (kex : Option KeyExchange) (hi : Inv h0 L0 t) (hu : Unused (h0 ++ t) s) :
    wp (Since h0) (SM.postDecrypt M ns kex s) (ends (fun _ => Inv h0 L0) (Early h0 L0)) t := by
  unfold SM.postDecrypt
  refine ends_bind.2 (ends_mono (store hi hu) ?_ fun _ _ h => h)
  rintro _ t1 ⟨hi1, hl1⟩
  refine ends_bind.2 (ends_mono (quiet_ends _ (keeps_latest (ns := ns) (s := s)) (.when fun _ => quiet_consume M ns s) hi1 hl1) ?_ fun _ _ h => h)
  rintro _ t2 ⟨hi2, hl2⟩
  exact autoReply M kex hi2 hl2

theorem decrypt (M : Mgr) (msg : Message) : Pr h0 L0 (SM.decrypt M msg) := by
  have hfind : AllOps (fun o => turns o = false) (findSender M msg) := by
    unfold findSender
    lib_ops [quiet_refresh, quiet_info]
  unfold SM.decrypt
  refine .bind (.quiet (by lib_ops [])) fun bs => ?_
  split
  · exact .raise _
  split
  · exact .raise _
  refine .bind (.quiet hfind) fun dev => ?_
  intro t hi
  unfold decryptContent
  refine ends_bind.2 ?_
  refine ends_bind.2 (ends_mono (Pr.quiet (by lib_ops []) t hi) ?_ fun _ _ h => h)
  intro level t1 hi1
  dsimp only
  split
  · exact .inl hi1
  refine ends_bind.2 (ends_mono (keyMaterial M msg dev _ _ hi1) ?_ fun _ _ h => h)
  rintro ⟨session, km⟩ t2 ⟨hi2, hu2⟩
  refine ends_bind.2 (ends_mono (quiet_ends _ (keeps_unused (s := session)) (by unfold plaintextOf; lib_ops []) hi2 hu2) ?_ fun _ _ h => h)
  rintro pt t3 ⟨hi3, hu3⟩
  exact ends_bind.2 (ends_mono (postDecrypt M _ hi3 hu3) (fun _ _ h => h) fun _ _ h => h)

theorem replaceSessions (M : Mgr) (jid : Jid) (d : DevId) : Pr h0 L0 (SM.replaceSessions M jid d) := by
  unfold SM.replaceSessions
  refine .bind (.quiet (quiet_info M jid)) fun _ => .bind (.quiet (allOps_next _)) fun dev => .bind (.quiet (by lib_ops [])) fun _ =>
    .bind (.quiet (by lib_ops [])) fun _ => .bind (.quiet (by lib_ops [])) fun _ => .fold fun b ns => ?_
  split
  · refine .tryElse (replaceSession M _ _ ns) (fun e => ?_) fun _ => .ret _
    split
    · exact .ret _
    · exact .raise _
  · exact .ret _

/-- Every call but `encrypt`. -/
theorem run (M : Mgr) {c : Call} (hc : Call.isEncrypt c = false) : Pr h0 L0 (c.run M) := by
  have hpb : ∀ M ns o, Foot.PurgeBackend M ns o → turns o = false := fun M ns o h => by
    cases h with
    | info h => cases h <;> rfl
    | _ => rfl
  have hrf : ∀ M ns j o, Foot.Refresh M ns j o → turns o = false := fun M ns j o h => by
    cases h with
    | download => rfl
    | update h => cases h <;> rfl
  have hin : ∀ j o, Foot.Info j o → turns o = false := fun j o h => by cases h <;> rfl
  cases c with
  | getIdentityKeyPair => exact .bind (.quiet (ops_ikp.mono fun o h => by cases h <;> rfl)) fun _ => .ret _
  | create bs label fuel =>
    refine .bind (.quiet ((ops_create M bs label fuel).mono fun o h => ?_)) fun _ => .ret _
    rcases h with h | h
    · cases h <;> rfl
    · cases h with
      | refresh ns d h => exact hrf _ _ _ _ h
      | info h => exact hin _ _ h
      | purge ns d h => exact hpb _ _ _ h
      | _ => rfl
  | purgeBackend ns => exact .quiet ((ops_purgeBackend M ns).mono (hpb M ns))
  | purgeBareJid jid => exact .quiet ((ops_purgeBareJid M jid).mono fun o h => by cases h <;> rfl)
  | ensureDataConsistency =>
    refine .quiet ((ops_ensureDataConsistency M).mono fun o h => ?_)
    cases h with
    | refresh ns h => exact hrf _ _ _ _ h
    | _ => rfl
  | rotation p f r => exact .quiet ((ops_manageRotation M p f r).mono fun o h => by cases h <;> rfl)
  | updateDeviceList ns jid dl => exact .quiet ((ops_updateDeviceList M ns jid dl).mono fun o h => by cases h <;> rfl)
  | refreshDeviceList ns jid => exact .quiet (quiet_refresh M ns jid)
  | refreshDeviceLists jid =>
    refine .quiet ?_
    unfold Call.run SM.refreshDeviceLists
    lib_ops [quiet_refresh]
  | setTrust jid ik l =>
    refine .quiet ?_
    unfold Call.run SM.setTrust
    lib_ops []
  | replaceSessions jid d => exact .bind (replaceSessions M jid d) fun _ => .ret _
  | getSendingChainLength dev =>
    refine .quiet ?_
    unfold Call.run SM.getSendingChainLength
    lib_ops []
  | setOwnLabel l => exact .quiet ((ops_setOwnLabel M l).mono fun o h => by cases h <;> rfl)
  | getDeviceInformation jid => exact .bind (.quiet (quiet_info M jid)) fun _ => .ret _
  | getOwnDeviceInformation => exact .bind (.quiet ((ops_getOwnDeviceInformation M).mono (hin _))) fun _ => .ret _
  | beforeHistorySync =>
    refine .quiet ?_
    unfold Call.run SM.beforeHistorySync
    lib_ops []
  | afterHistorySync => exact afterHistorySync M
  | encrypt _ _ _ _ => cases hc
  | decrypt msg => exact .bind (decrypt M msg) fun _ => .ret _

theorem call_fine {M : Mgr} {c : Call} {r} (hf : Fine h0 L0) (hc : Call.isEncrypt c = false) (hg : Guarded Ratchets (h0 ++ t))
    (hx : Exec (c.run M) t r) (hs : StoresSent t (r = .crashed)) : Fine (h0 ++ t) (L0 ++ sentKeys t) := by
  have hi : Inv h0 L0 [] := ⟨by simpa [sentKeys] using hf, by rintro ⟨_, _, h⟩; cases h⟩
  have := wp_sound (run M hc [] hi) hx (since_runs hg hs)
  cases r with
  | ok a => exact this.1
  | raised e => 
    rcases this with h | ⟨h, _⟩
    · exact h.1
    · cases h
  | crashed =>
    rcases this with h | ⟨_, h⟩
    · exact h.1
    · exact absurd h (hs.alive rfl)

/-! ### `encrypt` -/

/-- Each device is served once, with a session loaded just before or a new one; sessions are stored at the end. -/
structure Shape (u w : List Ev) : Prop where
  first : ∀ e ∈ u, Op.storesSession e.1 = false
  last : ∀ e ∈ w, ∃ ns s, (ns, s) ∈ given u ∧ e.1 = .storeSession ns s
  hands : ∀ h1 e h2, u = h1 ++ e :: h2 → Op.handsOut e.1 = true → ∃ ns j d m, HandsOut h1 e ns j d m ∧
    ∀ g1 f g2 ns' m', h1 = g1 ++ f :: g2 → ¬ HandsOut g1 f ns' j d m'

theorem shape {M : Mgr} {jids pt prio i} {r} (hdec : CallbackQuiet M.decide) (hx : Exec (SM.encrypt M jids pt prio i) t r) (hb : BackendsOnce t) :
    ∃ u w, t = u ++ w ∧ Shape u w := by
  have hq : ∀ {o : Op}, Op.encrypts o = false → Op.storesSession o = false ∧ Op.handsOut o = false := by
    intro o; cases o <;> simp [Op.encrypts, Op.storesSession, Op.handsOut]
  have silent : ∀ {t : List Ev}, (∀ e ∈ t, Op.encrypts e.1 = false) → ∃ u w, t = u ++ w ∧ Shape u w := by
    intro t ht
    refine ⟨t, [], by simp, fun e he => (hq (ht e he)).1, by simp, ?_⟩
    rintro h1 e h2 rfl he
    rw [(hq (ht e (by simp))).2] at he
    cases he
  have once : ∀ {pt cache S} {u : List Ev}, Guarded (Once pt cache S) u → ∀ h1 e h2, u = h1 ++ e :: h2 → Op.handsOut e.1 = true →
      ∃ ns j d m, HandsOut h1 e ns j d m ∧ ∀ g1 f g2 ns' m', h1 = g1 ++ f :: g2 → ¬ HandsOut g1 f ns' j d m' := by
    intro pt cache S u hg h1 e h2 hh ho
    obtain ⟨dev, _, ns, m, _, h3, h4, _⟩ := hg h1 e h2 hh ho
    exact ⟨ns, _, _, m, h3, h4⟩
  have sof : ∀ {o : Op}, Op.sendsOrFields o = true → Op.storesSession o = false := by
    intro o; cases o <;> simp [Op.sendsOrFields, Op.sends, Op.storesSession]
  have nostore : ∀ {t1 t2 t4 order devices cache infos out v1 v2 v3 tm}, Prep M jids prio t1 order devices cache infos →
      Agreed M devices i t1 t2 out v1 v2 tm → (∀ e ∈ t4, Op.sendsOrFields e.1 = true) →
      ∀ e ∈ t1 ++ t2 ++ evals (M.O.iter out) v3 ++ t4, Op.storesSession e.1 = false := by
    intro t1 t2 t4 order devices cache infos out v1 v2 v3 tm hp ha ht e hem
    simp only [List.mem_append] at hem
    rcases hem with ((hem | hem) | hem) | hem
    · exact (hq (hp.no_encrypts e hem)).1
    · exact (hq (ha.no_encrypts hdec e hem)).1
    · obtain ⟨d, _, rfl⟩ := mem_evals.1 hem
      rfl
    · exact sof (ht e hem)
  have sends : ∀ {t4 : List Ev} {bs}, (∀ e ∈ t4, Op.sends e.1 = true) → ∀ e ∈ (⟨.getBackends, .ok bs⟩ : Ev) :: t4, Op.sendsOrFields e.1 = true := by
    intro t4 bs h e he
    rcases List.mem_cons.1 he with rfl | he
    · rfl
    · exact sendsOrFields_of_sends (h e he)
  cases encrypt_run hdec jids pt prio i hx hb with
  | prep hq' => exact silent fun e he => not_encrypts (hq' e he)
  | decide hp hd => exact silent (quiet_append hp.no_encrypts (hd.no_encrypts hdec))
  | third hp ha ht => exact silent (quiet_append (quiet_append hp.no_encrypts (ha.no_encrypts hdec)) (evalOnly_quiet ht))
  | loop hp ha ht hg => exact ⟨_, [], (List.append_nil _).symm, nostore hp ha ht, by simp, once hg⟩
  | missing hp ha ht ho _ => exact ⟨_, [], (List.append_nil _).symm, nostore hp ha (sends ht), by simp, once ho.guard'⟩
  | store hp ha ht ho _ h5 _ =>
    refine ⟨_, _, rfl, nostore hp ha (sends ht), fun e he => ?_, once ho.guard'⟩
    obtain ⟨ns, s, h1, h2⟩ := h5 e he
    rw [ho.sessions, ← ho.given] at h1
    exact ⟨ns, s, h1, h2⟩
  | done hp ha ht ho _ =>
    refine ⟨_, _, rfl, nostore hp ha (sends ht), fun e he => ?_, once ho.guard'⟩
    obtain ⟨p, h1, rfl⟩ := List.mem_map.1 he
    rw [SetOrder.mem_iter, ho.sessions, ← ho.given] at h1
    exact ⟨p.1, p.2, h1, rfl⟩

/-- Appending interactions that store no session. -/
theorem latest_append (ht : ∀ e ∈ t, Op.storesSession e.1 = false) : Latest (h ++ t) ns j d s ↔ Latest h ns j d s := by
  induction t generalizing h with
  | nil => simp
  | cons e t ih =>
    have := ih (h := h ++ [e]) fun x hx => ht x (by simp [hx])
    rw [List.append_assoc, List.singleton_append] at this
    rw [this, latest_snoc]
    rintro ns s rfl
    have := ht _ List.mem_cons_self
    cases this

/-- A session is the last one stored for a device after further sessions were stored. -/
theorem latest_split {w : List Ev} (hl : Latest (h ++ w) ns j d s) :
    (⟨.storeSession ns s, .ok ()⟩ : Ev) ∈ w ∨ Latest h ns j d s ∧ ∀ s', s'.bareJid = j → s'.deviceId = d → (⟨.storeSession ns s', .ok ()⟩ : Ev) ∉ w := by
  obtain ⟨hj, hd, h1, h2, hh, hn⟩ := hl
  rcases List.append_eq_append_iff.1 hh with ⟨a, rfl, ha⟩ | ⟨a, rfl, ha⟩
  · exact .inl (by rw [ha]; simp)
  · cases a with
    | nil => exact .inl (by rw [← List.nil_append w, ← ha]; simp)
    | cons x a =>
      simp only [List.cons_append, List.cons.injEq] at ha
      obtain ⟨rfl, rfl⟩ := ha
      exact .inr ⟨⟨hj, hd, h1, a, rfl, fun s' h3 h4 h5 => hn s' h3 h4 (by simp [h5])⟩, fun s' h3 h4 h5 => hn s' h3 h4 (by simp [h5])⟩

theorem mem_given {u : List Ev} {p : Ns × Session} (hp : p ∈ given u) : ∃ h1 e h2 k, u = h1 ++ e :: h2 ∧ Op.handsOut e.1 = true ∧
    ((∃ j d b m, e = ⟨.buildActive p.1 j d b m, .ok (p.2, k)⟩) ∨ ∃ s0 m, e = ⟨.encryptKM p.1 s0 m, .ok (k, p.2)⟩) := by
  obtain ⟨e, he, hh⟩ := List.mem_filterMap.1 hp
  obtain ⟨h1, h2, rfl⟩ := List.append_of_mem he
  split at hh
  · cases hh
    exact ⟨h1, _, h2, _, rfl, rfl, .inl ⟨_, _, _, _, rfl⟩⟩
  · cases hh
    exact ⟨h1, _, h2, _, rfl, rfl, .inr ⟨_, _, rfl⟩⟩
  · cases hh

/-- A session used by `encrypt`. -/
structure UsedFor (h h1 : List Ev) (ns : Ns) (s : Session) (k : EncKM) (s' : Session) : Prop where
  latest : Latest h ns s.bareJid s.deviceId s
  loaded : h1.getLast? = some ⟨.loadSession ns s.bareJid s.deviceId, .ok (some s)⟩
  fresh : ∀ g1 f g2 ns' m', h1 = g1 ++ f :: g2 → ¬ HandsOut g1 f ns' s.bareJid s.deviceId m'
  jid : s'.bareJid = s.bareJid
  device : s'.deviceId = s.deviceId

theorem used {u w h1 h2 : List Ev} {m k s'} (hg : Guarded Ratchets (h ++ (u ++ w))) (hs : Shape u w)
    (hu : u = h1 ++ ⟨.encryptKM ns s m, .ok (k, s')⟩ :: h2) : UsedFor h h1 ns s k s' := by
  obtain ⟨ns', j, d, m', hh, hfr⟩ := hs.hands _ _ _ hu rfl
  rcases hh with ⟨b, hb⟩ | ⟨s0, hs0, hl⟩
  · cases hb
  · cases hs0
    obtain ⟨⟨ha1, ha2⟩, _⟩ := (hg (h ++ h1) ⟨.encryptKM ns s m, .ok (k, s')⟩ (h2 ++ w) (by rw [hu]; simp)).addressed.encrypt _ _ _ _ _
      (List.mem_singleton.2 rfl)
    rcases List.eq_nil_or_concat h1 with rfl | ⟨h0, x, rfl⟩
    · cases hl
    · rw [List.concat_eq_append] at *
      have hl' := hl
      rw [List.getLast?_concat] at hl
      cases hl
      have := (hg (h ++ h0) ⟨.loadSession ns j d, .ok (some s)⟩ (⟨.encryptKM ns s m, .ok (k, s')⟩ :: h2 ++ w) (by rw [hu]; simp)).load _ _ _ _ rfl
      rw [latest_append fun e he => hs.first e (by rw [hu]; simp [he])] at this
      obtain ⟨rfl, rfl, _⟩ := id this
      exact ⟨this, hl', hfr, ha1, ha2⟩

/-- A session returned in `encrypt` and everything that is encrypted in the end. -/
theorem given_unused {u w : List Ev} (hg : Guarded Ratchets (h ++ (u ++ w))) (hs : Shape u w) (hm : (ns, s) ∈ given u) :
    ∀ e ∈ h ++ (u ++ w), ∀ m k s', e ≠ ⟨.encryptKM ns s m, .ok (k, s')⟩ := by
  obtain ⟨h1, e0, h2, k0, hu, ho, hc⟩ := mem_given hm
  obtain ⟨ns1, j, d, m1, hh, hfr⟩ := hs.hands _ _ _ hu ho
  have hr := hg (h ++ h1) e0 (h2 ++ w) (by rw [hu]; simp)
  have haddr : s.bareJid = j ∧ s.deviceId = d ∧ Unused (h ++ h1 ++ [e0]) s := by
    rcases hc with ⟨j', d', b, m', rfl⟩ | ⟨s0, m', rfl⟩
    · obtain ⟨h3, _⟩ := hr.addressed.build _ _ _ _ _ _ _ (List.mem_singleton.2 rfl)
      rcases hh with ⟨b', hb⟩ | ⟨s1, hs1, _⟩
      · cases hb
        refine ⟨h3.1, h3.2, fun e he => ?_⟩
        rcases List.mem_append.1 he with he | he
        · exact (hr.active _ _ _ _ _ _ _ rfl).1 e he
        · cases List.mem_singleton.1 he
          exact nofun
      · cases hs1
    · have h3 := used hg hs hu
      rcases hh with ⟨b', hb⟩ | ⟨s1, hs1, hl⟩
      · cases hb
      · cases hs1
        rw [h3.loaded] at hl
        cases hl
        exact ⟨h3.jid, h3.device, (hr.encrypt _ _ _ _ _ rfl).1⟩
  rintro e he m k s' rfl
  simp only [← List.append_assoc] at he
  rcases List.mem_append.1 he with he | he
  · rcases List.mem_append.1 he with he | he
    · exact haddr.2.2 ⟨.encryptKM ns s m, .ok (k, s')⟩ (by simp [he]) _ _ rfl
    · rw [hu] at he
      rcases List.mem_append.1 he with he | he
      · exact haddr.2.2 ⟨.encryptKM ns s m, .ok (k, s')⟩ (by simp [he]) _ _ rfl
      · rcases List.mem_cons.1 he with he | he
        · exact haddr.2.2 ⟨.encryptKM ns s m, .ok (k, s')⟩ (by simp [he]) _ _ rfl
        · obtain ⟨g1, g2, rfl⟩ := List.append_of_mem he
          have h3 := used (h1 := h1 ++ e0 :: g1) (h2 := g2) (ns := ns) (s := s) (m := m) (k := k) (s' := s') hg hs (by rw [hu]; simp)
          rw [← haddr.1, ← haddr.2.1] at hh
          exact h3.fresh h1 e0 g1 _ _ rfl hh
  · obtain ⟨_, _, _, h4⟩ := hs.last _ he
    cases h4

theorem addressed {t : List Ev} (hg : Guarded Ratchets (h ++ t)) : Addressed t := by
  have : ∀ e ∈ t, Addressed [e] := fun e he => by
    obtain ⟨t1, t2, rfl⟩ := List.append_of_mem he
    exact (hg (h ++ t1) e t2 (by simp)).addressed
  exact ⟨fun _ _ _ _ he => (this _ he).load _ _ _ _ (List.mem_singleton.2 rfl), fun _ _ _ _ _ _ _ he => (this _ he).build _ _ _ _ _ _ _ (List.mem_singleton.2 rfl),
    fun _ _ _ _ _ he => (this _ he).encrypt _ _ _ _ _ (List.mem_singleton.2 rfl)⟩

theorem gives_new {e : Ev} {k : EncKM} (hr : Ratchets h e) (hg : Gives e k s) : KeyNew h k := by
  rcases hg with ⟨_, _, _, _, _, rfl⟩ | ⟨_, _, _, rfl⟩
  · exact (hr.active _ _ _ _ _ _ _ rfl).2
  · exact (hr.encrypt _ _ _ _ _ rfl).2

theorem pairwise_of_split {R : Ev → Ev → Prop} {u : List Ev} (H : ∀ h1 e h2, u = h1 ++ e :: h2 → ∀ a ∈ h1, R a e) : u.Pairwise R := by
  induction u with
  | nil => exact .nil
  | cons x u ih =>
    refine .cons (fun a ha => ?_) (ih fun h1 e h2 hu a ha => H (x :: h1) e h2 (by rw [hu]; rfl) a (by simp [ha]))
    obtain ⟨g1, g2, rfl⟩ := List.append_of_mem ha
    exact H (x :: g1) a g2 rfl x (by simp)

theorem encrypt_fine {M : Mgr} {jids pt prio i} {r} (hf : Fine h L) (hA : Apart M) (hg : Guarded Ratchets (h ++ t))
    (hx : Exec (SM.encrypt M jids pt prio i) t r) (hb : BackendsOnce t) : Fine (h ++ t) (L ++ returnedKeys r) := by
  have hdec : CallbackQuiet M.decide := fun ds i t r hx e he => by
    have := (hA ds i).exec hx e he
    exact ⟨this.1, this.2.2⟩
  obtain ⟨u, w, rfl, hs⟩ := shape hdec hx hb
  -- keys returned
  have hret : ∀ k ∈ returnedKeys r, KeyNew h k ∧ ¬ KeyNew (h ++ (u ++ w)) k ∧ ∀ p ∈ given u, (⟨.storeSession p.1 p.2, .ok ()⟩ : Ev) ∈ w := by
    intro k hk
    match r, hx, hk with
    | .ok (msgs, errs), hx, hk =>
      obtain ⟨x, hx1, hk⟩ := List.mem_flatMap.1 hk
      obtain ⟨k', hk', rfl⟩ := List.mem_map.1 hk
      obtain ⟨j, d, s, ⟨h1, e, h2, ht, _, hgv⟩, _⟩ := C35_encrypt M jids pt prio i _ msgs errs hdec hx hb x hx1 k' hk'
      rw [ht] at hg ⊢
      refine ⟨keyNew_of_append (gives_new (hg (h ++ h1) e h2 (by simp)) hgv), fun hn => hn e (by simp) s hgv, fun p hp => ?_⟩
      rw [← ht] at hg
      have hperm := (C34_all_stored M jids pt prio i _ msgs errs hdec hx hb (addressed hg)).1
      have : p ∈ stored (u ++ w) := hperm.mem_iff.2 (by rw [given_append]; exact List.mem_append_left _ hp)
      obtain ⟨e', he', hp'⟩ := List.mem_filterMap.1 this
      split at hp'
      · cases hp'
        rcases List.mem_append.1 he' with he' | he'
        · exact absurd (hs.first _ he') (by simp [Op.storesSession])
        · exact he'
      · cases hp'
    | .raised _, _, hk => cases hk
    | .crashed, _, hk => cases hk
  -- uses in this call
  have huse : ∀ {ns s m k s'}, (⟨.encryptKM ns s m, .ok (k, s')⟩ : Ev) ∈ u ++ w →
      ∃ h1 h2, u = h1 ++ ⟨.encryptKM ns s m, .ok (k, s')⟩ :: h2 ∧ UsedFor h h1 ns s k s' ∧ k ∉ L := by
    intro ns s m k s' he
    rcases List.mem_append.1 he with he | he
    · obtain ⟨h1, h2, hu⟩ := List.append_of_mem he
      refine ⟨h1, h2, hu, used hg hs hu, fun hk => hf.known k hk ?_⟩
      exact keyNew_of_append ((hg (h ++ h1) ⟨.encryptKM ns s m, .ok (k, s')⟩ (h2 ++ w) (by rw [hu]; simp)).encrypt _ _ _ _ _ rfl).2
    · obtain ⟨_, _, _, h4⟩ := hs.last _ he
      cases h4
  refine ⟨?_, ?_, ?_⟩
  · refine List.pairwise_append.2 ⟨?_, ?_, ?_⟩
    · refine List.Pairwise.imp_of_mem (fun {a b} ha hb hab => ?_) hf.once
      intro ns' s0 m1 k1 s1 m2 k2 s2 h1 h2 hk1
      rcases List.mem_append.1 hk1 with hk1 | hk1
      · exact hab _ _ _ _ _ _ _ _ h1 h2 hk1
      · subst h1
        exact not_keyNew ha (hret _ hk1).1
    · have hw : ∀ e ∈ w, ∀ ns s m k s', e ≠ ⟨.encryptKM ns s m, .ok (k, s')⟩ := by
        rintro _ he ns s m k s' rfl
        obtain ⟨_, _, _, h4⟩ := hs.last _ he
        cases h4
      refine List.pairwise_append.2 ⟨pairwise_of_split ?_, pairwise_of_split ?_, ?_⟩
      · intro g1 e g2 hug a ha ns s m1 k1 s1 m2 k2 s2 h1 h2
        subst h1 h2
        obtain ⟨f1, f2, rfl⟩ := List.append_of_mem ha
        have hu1 := used hg hs (h1 := f1) (h2 := f2 ++ ⟨.encryptKM ns s m2, .ok (k2, s2)⟩ :: g2) (ns := ns) (s := s) (m := m1) (k := k1) (s' := s1)
          (by rw [hug]; simp)
        exact absurd (.inr ⟨s, rfl, hu1.loaded⟩) ((used hg hs hug).fresh f1 _ f2 ns m1 rfl)
      · intro g1 e g2 hug a ha ns s m1 k1 s1 m2 k2 s2 h1 h2
        exact absurd h2 (hw e (by rw [hug]; simp) _ _ _ _ _)
      · intro a ha b hb ns s m1 k1 s1 m2 k2 s2 h1 h2
        exact absurd h2 (hw b hb _ _ _ _ _)
    · intro a ha b hb ns s m1 k1 s1 m2 k2 s2 h1 h2 hk1
      subst h1 h2
      obtain ⟨h1, h2, _, hu, _⟩ := huse hb
      rcases List.mem_append.1 hk1 with hk1 | hk1
      · exact hf.latest _ _ _ _ hu.latest _ _ _ ha hk1
      · exact not_keyNew ha (hret _ hk1).1
  · intro k hk
    rcases List.mem_append.1 hk with hk | hk
    · exact fun hn => hf.known k hk (keyNew_of_append hn)
    · exact (hret k hk).2.1
  · intro ns j d s hl m k s' hm hk
    rw [← List.append_assoc] at hl
    rcases latest_split hl with hl | ⟨hl, hno⟩
    · obtain ⟨_, _, h4, h5⟩ := hs.last _ hl
      cases h5
      exact given_unused hg hs h4 _ hm _ _ _ rfl
    · rw [latest_append hs.first] at hl
      rcases List.mem_append.1 hm with hm | hm
      · rcases List.mem_append.1 hk with hk | hk
        · exact hf.latest _ _ _ _ hl _ _ _ hm hk
        · exact not_keyNew hm (hret _ hk).1
      · obtain ⟨h1, h2, hu, huf, hkL⟩ := huse hm
        rcases List.mem_append.1 hk with hk | hk
        · exact hkL hk
        · refine hno s' (huf.jid.trans hl.1) (huf.device.trans hl.2.1) ((hret k hk).2.2 (ns, s') ?_)
          rw [hu, given_append]
          exact List.mem_append_right _ (by simp [given])

theorem talk_fine (ht : Talk StoresSent h L) (hg : Guarded Ratchets h) : Fine h L := by
  induction ht with
  | start => exact ⟨.nil, by simp, fun _ _ _ _ _ _ _ _ he => by cases he⟩
  | call _ _ hc hx hs ih => exact call_fine (ih hg.left) hc hg hx hs
  | encrypt _ hA hx hb ih => exact encrypt_fine (ih hg.left) hA hg hx hb

end Ratchet

/-- C77, if the session of a message that was sent is stored.  What is missing: `__send_empty_message` and `replace_sessions` send the
message first and store the session afterwards; see `C77_refuted`. -/
theorem C77_partial (h : List Ev) (L : List EncKM) (ht : Talk StoresSent h L) (hg : Guarded Ratchets h) : OneUse h L := (Ratchet.talk_fine ht hg).once

/-! ### Concrete runs -/

namespace Ratchet

/-- The session stored last. -/
def lastStored (h : List Ev) (ns : Ns) (j : Jid) (d : DevId) : Option Session :=
  h.foldl (fun o e => match e with
    | ⟨.storeSession ns' s, .ok ()⟩ => if ns' = ns ∧ s.bareJid = j ∧ s.deviceId = d then some s else o
    | _ => o) none

theorem lastStored_snoc (h : List Ev) (e : Ev) (ns j d) : lastStored (h ++ [e]) ns j d = match e with
    | ⟨.storeSession ns' s, .ok ()⟩ => if ns' = ns ∧ s.bareJid = j ∧ s.deviceId = d then some s else lastStored h ns j d
    | _ => lastStored h ns j d := by
  simp only [lastStored, List.foldl_append, List.foldl_cons, List.foldl_nil]

/-- Session of the example run, from the log. -/
def ratcheting : World → (o : Op) → Except Exn o.Ret
  | w, .loadSession ns j d => .ok (lastStored w.log ns j d)
  | w, .buildActive ns j d b _ => .ok (⟨ns, j, d, .active, false, ⟨b.identityKey, 0⟩, none, 1, w.log.length⟩, ⟨j, d, w.log.length⟩)
  | w, .buildPassive ns j d x e => .ok (⟨ns, j, d, .passive, true, x, some 1, 0, w.log.length⟩, ⟨e.blob⟩)
  | w, .encryptKM _ s _ => .ok (⟨s.bareJid, s.deviceId, w.log.length⟩, { s with sendingChainLength := s.sendingChainLength + 1, blob := w.log.length })
  | w, .decryptKM _ s e => .ok (⟨e.blob⟩, { s with confirmed := true, blob := w.log.length })
  | w, o => friendly w o

theorem latest_of_lastStored (h : List Ev) (ns j d s) (hl : lastStored h ns j d = some s) : Latest h ns j d s := by
  generalize hn : h.length = n
  induction n generalizing h s with
  | zero => cases List.length_eq_zero_iff.1 hn; cases hl
  | succ n ih0 =>
    rcases List.eq_nil_or_concat h with rfl | ⟨h, e, rfl⟩
    · cases hn
    rw [List.concat_eq_append] at hl hn ⊢
    have ih := fun s hl => ih0 h s hl (by simpa using hn)
    clear hn
    rw [lastStored_snoc] at hl
    split at hl
    · rename_i ns' s'
      split at hl
      · rename_i hh
        obtain ⟨rfl, rfl, rfl⟩ := hh
        cases hl
        exact latest_stored _ _ _
      · rename_i hh
        obtain ⟨h1, h2, g1, g2, rfl, hn⟩ := ih _ hl
        refine ⟨h1, h2, g1, g2 ++ [⟨.storeSession ns' s', .ok ()⟩], by simp, fun s1 a b c => ?_⟩
        rcases List.mem_append.1 c with c | c
        · exact hn s1 a b c
        · cases List.mem_singleton.1 c
          exact hh ⟨rfl, a, b⟩
    · rename_i hne
      exact (latest_snoc fun ns' s' he => hne ns' s' he).2 (ih _ hl)

def freshB (h : List Ev) (s : Session) : Bool := h.all fun e => match e.1 with
  | .encryptKM _ s0 _ => decide (s0 ≠ s)
  | _ => true

theorem unused_of_freshB {h : List Ev} {s : Session} (hf : freshB h s = true) : Unused h s := by
  intro e he ns m hh
  have := List.all_eq_true.1 hf e he
  rw [hh] at this
  simp at this

def newB (h : List Ev) (k : EncKM) : Bool := h.all fun e => match e with
  | ⟨.buildActive .., .ok (_, k0)⟩ => decide (k0 ≠ k)
  | ⟨.encryptKM .., .ok (k0, _)⟩ => decide (k0 ≠ k)
  | _ => true

theorem keyNew_of_newB {h : List Ev} {k : EncKM} (hf : newB h k = true) : KeyNew h k := by
  intro e he s hg
  have := List.all_eq_true.1 hf e he
  rcases hg with ⟨_, _, _, _, _, rfl⟩ | ⟨_, _, _, rfl⟩ <;> simp at this

def okB (h : List Ev) (e : Ev) : Bool := match e with
  | ⟨.loadSession ns j d, .ok (some s)⟩ => decide (lastStored h ns j d = some s)
  | ⟨.encryptKM ns s m, .ok (k, s')⟩ => freshB (h ++ [⟨.encryptKM ns s m, .ok (k, s')⟩]) s' && newB h k &&
      decide ((s'.bareJid = s.bareJid ∧ s'.deviceId = s.deviceId) ∧ k.bareJid = s.bareJid ∧ k.deviceId = s.deviceId)
  | ⟨.decryptKM _ _ _, .ok (_, s')⟩ => freshB h s'
  | ⟨.buildActive _ j d _ _, .ok (s, k)⟩ => freshB h s && newB h k &&
      decide ((s.bareJid = j ∧ s.deviceId = d) ∧ k.bareJid = j ∧ k.deviceId = d)
  | ⟨.buildPassive .., .ok (s, _)⟩ => freshB h s
  | _ => true

theorem ratchets_of_okB {h : List Ev} {e : Ev} (hb : okB h e = true) : Ratchets h e where
  load ns j d s he := by
    subst he
    exact latest_of_lastStored _ _ _ _ _ (of_decide_eq_true hb)
  addressed := by
    refine ⟨fun ns j d s he => ?_, fun ns j d b m s k he => ?_, fun ns s m k s' he => ?_⟩ <;> cases List.mem_singleton.1 he
    · have := latest_of_lastStored _ _ _ _ _ (of_decide_eq_true hb)
      exact ⟨this.1, this.2.1⟩
    · simp only [okB, Bool.and_eq_true, decide_eq_true_eq] at hb
      exact hb.2
    · simp only [okB, Bool.and_eq_true, decide_eq_true_eq] at hb
      exact hb.2
  encrypt ns s m k s' he := by
    subst he
    simp only [okB, Bool.and_eq_true, decide_eq_true_eq] at hb
    exact ⟨unused_of_freshB hb.1.1, keyNew_of_newB hb.1.2⟩
  decrypt ns s k m s' he := by
    subst he
    exact unused_of_freshB hb
  active ns j d b m s k he := by
    subst he
    simp only [okB, Bool.and_eq_true, decide_eq_true_eq] at hb
    exact ⟨unused_of_freshB hb.1.1, keyNew_of_newB hb.1.2⟩
  passive ns j d x k s m he := by
    subst he
    exact unused_of_freshB hb

def allOk (h : List Ev) : Bool := (List.range h.length).all fun i => match h[i]? with
  | some e => okB (h.take i) e
  | none => true

theorem guarded_of_allOk {h : List Ev} (hb : allOk h = true) : Guarded Ratchets h := by
  rintro h1 e h2 rfl
  have := List.all_eq_true.1 hb h1.length (by simp)
  simp at this
  exact ratchets_of_okB this

/-- Device 7 of "a" sends a message with a key exchange; it is decrypted and answered with an empty message. -/
def answered (n : Nat) := runProg (Lib.env ratcheting) Lib.next n (Call.run Mgr.ex (.decrypt kexMessage)) World.chat

/-- Then a message for "a" is encrypted. -/
def continued (n : Nat) := runProg (Lib.env ratcheting) Lib.next 200 (encrypt Mgr.ex ["a"] [("n", [1]), ("o", [1, 2])] none none) (answered n).2.2

/-- The whole story. -/
def story (n : Nat) : List Ev := (answered n).1 ++ (continued n).1

theorem once_of_all {t : List Ev} (h : (t.all fun e => match e with
    | ⟨.getBackends, .ok bs⟩ => decide bs.Nodup
    | _ => true) = true) : BackendsOnce t := fun _ hm => of_decide_eq_true (List.all_eq_true.1 h _ hm)

def sentB : Option Ev → Bool
  | some ⟨.sendMessage _ _, .ok ()⟩ => true
  | _ => false

theorem sentB_of (t : List Ev) (h : SentLast t) : sentB t.getLast? = true := by
  obtain ⟨m, j, h⟩ := h
  rw [h]
  rfl

def sentStored (t : List Ev) : Bool := (List.range t.length).all fun i => match t[i]? with
  | some ⟨.storeSession _ _, .error _⟩ => !sentB (t.take i).getLast?
  | _ => true

theorem storesSent_of {t : List Ev} {died : Prop} (h1 : sentStored t = true) (h2 : sentB t.getLast? = false) : StoresSent t died where
  stored := by
    rintro t1 t2 ns s x rfl hl
    have := List.all_eq_true.1 h1 t1.length (by simp)
    cases x with
    | ok => rfl
    | error e =>
      simp [sentB_of t1 hl] at this
  alive _ hl := by
    rw [sentB_of t hl] at h2
    cases h2

theorem story_talk {P : List Ev → Prop → Prop} (n : Nat) (hP : P (answered n).1 ((answered n).2.1 = .crashed)) (hb : BackendsOnce (continued n).1) :
    Talk P (story n) (sentKeys (answered n).1 ++ returnedKeys (continued n).2.1) := by
  have hA : Apart Mgr.ex := fun _ _ => trivial
  have h1 : Talk P ([] ++ (answered n).1) ([] ++ sentKeys (answered n).1) := .call .start hA rfl (runProg_exec ..) hP
  exact .encrypt h1 hA (runProg_exec ..) hb

end Ratchet

/-- The full statement of C77 is wrong: the process dies after the empty message was sent and before the session is stored.  Then the next
message is encrypted with the session in the state that was already used. -/
theorem C77_refuted : ¬ C77_Claim := by
  intro hc
  have h1 := hc _ _ (Ratchet.story_talk 29 trivial (Ratchet.once_of_all (by decide +kernel))) (Ratchet.guarded_of_allOk (by decide +kernel))
  have h2 := List.pairwise_iff_getElem.1 h1 27 64 (by decide +kernel) (by decide +kernel) (by decide)
  exact h2 "n" ⟨"n", "a", 7, .passive, true, ⟨[7], 0⟩, some 1, 0, _⟩ _ ⟨"a", 7, _⟩ _ _ _ _ rfl rfl (by decide +kernel)

/-- The hypotheses of C77 are met: the same story without the crash.  Two messages are made with two states of the session. -/
theorem C77_example : Talk StoresSent (Ratchet.story 200) (sentKeys (Ratchet.answered 200).1 ++ returnedKeys (Ratchet.continued 200).2.1) ∧
    Guarded Ratchets (Ratchet.story 200) ∧ (sentKeys (Ratchet.answered 200).1).length = 1 ∧ (returnedKeys (Ratchet.continued 200).2.1).length = 2 := by
  refine ⟨Ratchet.story_talk 200 (Ratchet.storesSent_of (by decide +kernel) (by decide +kernel)) (Ratchet.once_of_all (by decide +kernel)),
    Ratchet.guarded_of_allOk (by decide +kernel), by decide +kernel, by decide +kernel⟩

end Verif
