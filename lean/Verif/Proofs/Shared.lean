import Verif.Proofs.UpdateList
import Verif.Proofs.Preserve
import Verif.Proofs.Base64
import Verif.Spec.Devices
import Verif.Base.Par
/-
What each library call guarantees to others using the same storage, and what it relies on: the basis for all statements about
interleaved calls, and about histories.
-/
namespace Verif
open Spec

/-- Facts that hold when the calls start and that nobody destroys: known devices and known identity keys; and whether `ValueError` may be raised. -/
structure Pin where
  own : Jid
  known : Jid → DevId → Prop
  key : Jid → DevId → Option Bytes
  value : Prop

namespace Shared

/-- Places that are never emptied again: data of listed devices, own device id. -/
def Perm (k : Key) : Prop := (∃ j d, Upd.Of j d k) ∨ k = .ownDeviceId

/-- The places a call knows to be filled. -/
abbrev Filled := Key → Prop

def PinOk (pin : Pin) (k : Key) (v : Option JVal) : Prop := match k with
  | .devList j => ∀ d, pin.known j d → ∃ lst, v = some (.ofInts lst) ∧ d ∈ lst
  | .devIdentityKey j d => ∀ b, pin.key j d = some b → v = some (.str (Base64.encode b))
  | _ => True

/-- What a call learns from an interaction. -/
def Learn (pin : Pin) : Ev → Key → Prop
  | ⟨.load (.devList j), .ok (some v)⟩, k => ∃ lst d, v = .ofInts lst ∧ d ∈ lst ∧ Upd.Of j d k
  | ⟨.load .ownDeviceId, .ok (some v)⟩, k => ∃ d, v = .int d ∧ Upd.Of pin.own d k
  | ⟨.store k' _, .ok _⟩, k => k = k' ∧ Perm k
  | _, _ => False

/-- What a call relies on. -/
def Sh (pin : Pin) : Sem LibSig Exn Filled where
  ok l
    | ⟨.load k, .ok v⟩ => (∀ x, v = some x → Form k x) ∧ (l k → v ≠ none) ∧ PinOk pin k v
    | ⟨_, .error e⟩ => e.isInternal = false
    | _ => True
  next l e := fun k => l k ∨ Learn pin e k

def StoreOk (pin : Pin) (l : Filled) (k : Key) (v : JVal) : Prop := match k with
  | .devList j => ∀ lst, v = .ofInts lst → (∀ d ∈ lst, ∀ k', Upd.Of j d k' → l k') ∧ ∀ d, pin.known j d → d ∈ lst
  | .ownDeviceId => ∀ d, v = .int d → ∀ k', Upd.Of pin.own d k' → l k'
  | .devIdentityKey j d => ∀ b, pin.key j d = some b → v = .str (Base64.encode b)
  | _ => True

/-- What a call guarantees. -/
def Allowed (pin : Pin) (l : Filled) : Op → Prop
  | .store k v => Form k v ∧ StoreOk pin l k v
  | .delete k => (∃ ns, k = .queue ns) ∨ ∃ ns j, k = .queueJid ns j
  | _ => True

/-- The invariant of the storage. -/
structure Inv (pin : Pin) (w : World) : Prop where
  typed : Typed w.disk
  present : ∀ j d, Known w.disk j d → ∀ k, Upd.Of j d k → w.disk k ≠ none
  own : ∀ d, w.disk .ownDeviceId = some (.int d) → ∀ k, Upd.Of pin.own d k → w.disk k ≠ none
  known : ∀ j d, pin.known j d → Known w.disk j d
  key : ∀ j d b, pin.key j d = some b → HasKey w.disk j d b

/-- The knowledge of a call is true. -/
def True_ (l : Filled) (w : World) : Prop := ∀ k, l k → Perm k ∧ w.disk k ≠ none

theorem perm_of {j : Jid} {d : DevId} {k : Key} (h : Upd.Of j d k) : Perm k := .inl ⟨j, d, h⟩

theorem form_inj_ints {v : JVal} {a b : List Int} (h1 : v = .ofInts a) (h2 : v = .ofInts b) : a = b := by
  subst h1
  have := congrArg chkInts h2; simpa using this

/-- Writing an allowed value keeps the invariant. -/
theorem inv_store {pin : Pin} {w : World} {l : Filled} {k : Key} {v : JVal} (hJ : Inv pin w) (hl : True_ l w)
    (hf : Form k v) (hs : StoreOk pin l k v) : Inv pin { w with disk := w.disk.upd k (some v) } := by
  have hne : ∀ k', w.disk k' ≠ none → w.disk.upd k (some v) k' ≠ none := by
    intro k' h
    by_cases hk : k' = k
    · subst hk; simp
    · rw [Disk.upd_of_ne hk]; exact h
  constructor
  · intro k' v' h'
    by_cases hk : k' = k
    · subst hk; simp at h'; cases h'; exact hf
    · exact hJ.typed k' v' ((Disk.upd_of_ne hk).symm.trans h')
  · rintro j d ⟨lst, hlst, hd⟩ k' hk'
    by_cases hk : Key.devList j = k
    · subst hk
      simp at hlst
      exact hne k' (hl k' ((hs lst hlst).1 d hd k' hk')).2
    · exact hne k' (hJ.present j d ⟨lst, (Disk.upd_of_ne hk).symm.trans hlst, hd⟩ k' hk')
  · intro d hd k' hk'
    by_cases hk : Key.ownDeviceId = k
    · subst hk
      simp at hd
      exact hne k' (hl k' (hs d hd k' hk')).2
    · exact hne k' (hJ.own d ((Disk.upd_of_ne hk).symm.trans hd) k' hk')
  · intro j d hd
    obtain ⟨lst, hlst, hm⟩ := hJ.known j d hd
    by_cases hk : Key.devList j = k
    · subst hk
      obtain ⟨lst', rfl⟩ := hf
      exact ⟨lst', by simp, (hs lst' rfl).2 d hd⟩
    · exact ⟨lst, (Disk.upd_of_ne hk).trans hlst, hm⟩
  · intro j d b hb
    by_cases hk : Key.devIdentityKey j d = k
    · subst hk
      have := hs b hb
      subst this
      show Disk.upd _ _ _ _ = _
      simp
    · exact (Disk.upd_of_ne hk).trans (hJ.key j d b hb)

theorem inv_delete {pin : Pin} {w : World} {k : Key} (hJ : Inv pin w)
    (hd : (∃ ns, k = .queue ns) ∨ ∃ ns j, k = .queueJid ns j) : Inv pin { w with disk := w.disk.upd k none } := by
  have hne : ∀ k', (∀ ns, k' ≠ .queue ns) → (∀ ns j, k' ≠ .queueJid ns j) → w.disk.upd k none k' = w.disk k' := by
    intro k' h1 h2
    refine Disk.upd_of_ne ?_
    rintro rfl
    rcases hd with ⟨ns, rfl⟩ | ⟨ns, j, rfl⟩
    · exact h1 ns rfl
    · exact h2 ns j rfl
  have hl : ∀ j, w.disk.upd k none (.devList j) = w.disk (.devList j) := fun j => hne _ (by simp) (by simp)
  constructor
  · intro k' v' h'
    by_cases hk : k' = k
    · subst hk; simp at h'
    · exact hJ.typed k' v' ((Disk.upd_of_ne hk).symm.trans h')
  · rintro j d ⟨lst, hlst, hm⟩ k' hk'
    have := hJ.present j d ⟨lst, (hl j).symm.trans hlst, hm⟩ k' hk'
    rcases hk' with rfl | rfl | rfl <;> exact fun h => this ((hne _ (by simp) (by simp)).symm.trans h)
  · intro d hd' k' hk'
    have := hJ.own d ((hne .ownDeviceId (by simp) (by simp)).symm.trans hd') k' hk'
    rcases hk' with rfl | rfl | rfl <;> exact fun h => this ((hne _ (by simp) (by simp)).symm.trans h)
  · intro j d hd'
    obtain ⟨lst, hlst, hm⟩ := hJ.known j d hd'
    exact ⟨lst, (hl j).trans hlst, hm⟩
  · intro j d b hb
    exact (hne _ (by simp) (by simp)).trans (hJ.key j d b hb)

/-- One step of one call: what it relies on is true, and nobody is harmed. -/
theorem step {pin : Pin} (w : World) (l : Filled) (e : Ev) (hJ : Inv pin w) (hl : True_ l w) (ha : Allowed pin l e.1)
    (hok : Lib.ok w e) : (Sh pin).ok l e ∧ Inv pin (Lib.next w e) ∧ True_ ((Sh pin).next l e) (Lib.next w e) ∧
      ∀ l2, True_ l2 w → True_ l2 (Lib.next w e) := by
  obtain ⟨o, r⟩ := e
  by_cases hext : o.isExternal = true
  · have hn := Lib.next_ext (w := w) (r := r) hext
    have hi := (Lib.ok_ext (w := w) (r := r) hext).1 hok
    rw [hn]
    have hsh : (Sh pin).ok l ⟨o, r⟩ := by
      cases r with
      | ok a => cases o <;> first | trivial | (cases hext; done)
      | error e => cases o <;> exact hi e rfl
    have hle : ∀ k, ¬ Learn pin ⟨o, r⟩ k := by
      intro k hk
      cases o <;> first | (cases hext; done) | exact hk
    refine ⟨hsh, ⟨hJ.typed, hJ.present, hJ.own, hJ.known, hJ.key⟩, ?_, fun l2 h2 => h2⟩
    rintro k (hk | hk)
    · exact hl k hk
    · exact absurd hk (hle k)
  · cases o <;> first | (exact absurd rfl hext) | skip
    case load k =>
      cases r with
      | error e =>
        refine ⟨Exn.not_internal_of_failure hok, hJ, ?_, fun l2 h2 => h2⟩
        rintro k' (hk | hk)
        · exact hl k' hk
        · exact absurd hk (by cases k <;> exact id)
      | ok v =>
        cases (show v = w.disk k from hok)
        refine ⟨⟨fun x hx => hJ.typed k x hx, fun h => (hl k h).2, ?_⟩, hJ, ?_, fun l2 h2 => h2⟩
        · cases k <;> first | trivial | skip
          case devList j => exact fun d hd => hJ.known j d hd
          case devIdentityKey j d => exact fun b hb => hJ.key j d b hb
        · rintro k' (hk | hk)
          · exact hl k' hk
          · show Perm k' ∧ w.disk k' ≠ none
            cases k <;> first | exact hk.elim | skip
            case devList j =>
              generalize hv : w.disk (.devList j) = v at hk
              cases v with
              | none => exact hk.elim
              | some v =>
                obtain ⟨lst, d, rfl, hd, hof⟩ := hk
                exact ⟨perm_of hof, hJ.present j d ⟨lst, hv, hd⟩ k' hof⟩
            case ownDeviceId =>
              generalize hv : w.disk .ownDeviceId = v at hk
              cases v with
              | none => exact hk.elim
              | some v =>
                obtain ⟨d, rfl, hof⟩ := hk
                exact ⟨perm_of hof, hJ.own d hv k' hof⟩
    case store k v =>
      cases r with
      | error e =>
        refine ⟨Exn.not_internal_of_failure hok, hJ, ?_, fun l2 h2 => h2⟩
        rintro k' (hk | hk)
        · exact hl k' hk
        · exact absurd hk id
      | ok u =>
        have hmono : ∀ l2, True_ l2 w → True_ l2 (Lib.next w ⟨.store k v, .ok u⟩) := by
          intro l2 h2 k' hk'
          refine ⟨(h2 k' hk').1, ?_⟩
          show w.disk.upd k (some v) k' ≠ none
          by_cases hkk : k' = k
          · subst hkk; simp
          · rw [Disk.upd_of_ne hkk]; exact (h2 k' hk').2
        refine ⟨trivial, inv_store hJ hl ha.1 ha.2, ?_, hmono⟩
        rintro k' (hk | hk)
        · exact hmono l hl k' hk
        · obtain ⟨rfl, hp⟩ := hk
          exact ⟨hp, by show w.disk.upd _ _ _ ≠ none; simp⟩
    case delete k =>
      cases r with
      | error e =>
        refine ⟨Exn.not_internal_of_failure hok, hJ, ?_, fun l2 h2 => h2⟩
        rintro k' (hk | hk)
        · exact hl k' hk
        · exact absurd hk id
      | ok u =>
        have hmono : ∀ l2, True_ l2 w → True_ l2 (Lib.next w ⟨.delete k, .ok u⟩) := by
          intro l2 h2 k' hk'
          refine ⟨(h2 k' hk').1, ?_⟩
          show w.disk.upd k none k' ≠ none
          rw [Disk.upd_of_ne]
          · exact (h2 k' hk').2
          · rintro rfl
            rcases (h2 k' hk').1 with ⟨j, d, h⟩ | h
            · rcases ha with ⟨ns, rfl⟩ | ⟨ns, j, rfl⟩ <;> rcases h with h | h | h <;> cases h
            · rcases ha with ⟨ns, rfl⟩ | ⟨ns, j, rfl⟩ <;> cases h
        refine ⟨trivial, inv_delete hJ ha, ?_, hmono⟩
        rintro k' (hk | hk)
        · exact hmono l hl k' hk
        · exact absurd hk id
    case getBackends =>
      cases (show r = .ok w.backends from hok)
      exact ⟨trivial, hJ, fun k hk => hl k (hk.resolve_right id), fun l2 h2 => h2⟩
    case getSync =>
      cases (show r = .ok w.sync from hok)
      exact ⟨trivial, hJ, fun k hk => hl k (hk.resolve_right id), fun l2 h2 => h2⟩
    case setBackends bs =>
      cases r with
      | error e => exact False.elim hok
      | ok u => exact ⟨trivial, ⟨hJ.typed, hJ.present, hJ.own, hJ.known, hJ.key⟩, fun k hk => hl k (hk.resolve_right id), fun l2 h2 => h2⟩
    case setSync b =>
      cases r with
      | error e => exact False.elim hok
      | ok u => exact ⟨trivial, ⟨hJ.typed, hJ.present, hJ.own, hJ.known, hJ.key⟩, fun k hk => hl k (hk.resolve_right id), fun l2 h2 => h2⟩

/-! ### Combinators -/

/-- Not an exception for missing or ill-typed data. -/
def NoMiss (pin : Pin) (e : Exn) : Prop := e ≠ .nothingException ∧ e ≠ .typeError ∧ (e = .valueError → pin.value)

theorem NoMiss.of {pin : Pin} {e : Exn} (h : e.isInternal = false) : NoMiss pin e := by
  refine ⟨?_, ?_, ?_⟩ <;> (rintro rfl; cases h)

/-- Relying on `Sh` and on the places `A` being filled, `p` keeps its guarantees; `Q` holds if it returns, `X` if it raises. -/
def SafeX {α : Type} (pin : Pin) (A : Filled) (p : P α) (Q : α → Filled → Prop) (X : Exn → Prop) : Prop :=
  ∀ l : Filled, (∀ k, A k → l k) → guar (Sh pin) (Allowed pin) p (fun r l' => (∀ k, l k → l' k) ∧ match r with
    | .ok a => Q a l'
    | .raised e => X e
    | .crashed => True) l

/-- ... with no exception for missing data. -/
abbrev Safe {α : Type} (pin : Pin) (A : Filled) (p : P α) : Prop := SafeX pin A p (fun _ _ => True) (NoMiss pin)

section comb
variable {α β γ : Type} {pin : Pin} {A : Filled} {Q : α → Filled → Prop} {Q' : β → Filled → Prop} {X X' : Exn → Prop}

theorem SafeX.weaken {A' : Filled} {p : P α} (h : SafeX pin A p Q X) (ha : ∀ k, A k → A' k) : SafeX pin A' p Q X :=
  fun l hl => h l fun k hk => hl k (ha k hk)

theorem SafeX.mono {p : P α} {R : α → Filled → Prop} (h : SafeX pin A p Q X)
    (hq : ∀ a l', (∀ k, A k → l' k) → Q a l' → R a l') (hx : ∀ e, X e → X' e) : SafeX pin A p R X' := by
  intro l hl
  refine guar_mono (h l hl) fun r l' hr => ⟨hr.1, ?_⟩
  cases r with
  | ok a => exact hq a l' (fun k hk => hr.1 k (hl k hk)) hr.2
  | raised e => exact hx e hr.2
  | crashed => trivial

theorem SafeX.ret {a : α} (h : ∀ l', (∀ k, A k → l' k) → Q a l') : SafeX pin A (.ret a : P α) Q X :=
  fun l hl => ⟨fun _ hk => hk, h l hl⟩

theorem SafeX.raise {e : Exn} (h : X e) : SafeX pin A (.raise e : P α) Q X :=
  fun _ _ => ⟨fun _ hk => hk, h⟩

theorem SafeX.bind {p : P α} {f : α → P β} (h : SafeX pin A p Q X)
    (hf : ∀ a l', (∀ k, A k → l' k) → Q a l' → SafeX pin l' (f a) Q' X) : SafeX pin A (p >>= f) Q' X := by
  intro l hl
  rw [guar_bind]
  refine guar_mono (h l hl) fun r l' hr => ?_
  cases r with
  | ok a =>
    refine guar_mono (hf a l' (fun k hk => hr.1 k (hl k hk)) hr.2 l' fun _ hk => hk) fun r' l'' hr' => ⟨fun k hk => hr'.1 k (hr.1 k hk), hr'.2⟩
  | raised e => exact ⟨hr.1, hr.2⟩
  | crashed => exact ⟨hr.1, trivial⟩

theorem SafeX.bind' {p : P α} {f : α → P β} (h : SafeX pin A p Q X)
    (hf : ∀ a l', (∀ k, A k → l' k) → Q a l' → SafeX pin l' (f a) Q' X) : SafeX pin A (p.bind f) Q' X := SafeX.bind h hf

theorem SafeX.tryElse {p : P α} {h : Exn → P β} {f : α → P β} (hp : SafeX pin A p Q X')
    (hh : ∀ e l', (∀ k, A k → l' k) → X' e → SafeX pin l' (h e) Q' X)
    (hf : ∀ a l', (∀ k, A k → l' k) → Q a l' → SafeX pin l' (f a) Q' X) : SafeX pin A (p.tryElse h f) Q' X := by
  intro l hl
  rw [guar_tryElse]
  refine guar_mono (hp l hl) fun r l' hr => ?_
  cases r with
  | ok a =>
    refine guar_mono (hf a l' (fun k hk => hr.1 k (hl k hk)) hr.2 l' fun _ hk => hk) fun r' l'' hr' => ⟨fun k hk => hr'.1 k (hr.1 k hk), hr'.2⟩
  | raised e =>
    refine guar_mono (hh e l' (fun k hk => hr.1 k (hl k hk)) hr.2 l' fun _ hk => hk) fun r' l'' hr' => ⟨fun k hk => hr'.1 k (hr.1 k hk), hr'.2⟩
  | crashed => exact ⟨hr.1, trivial⟩

theorem SafeX.tryCatch {p : P α} {h : Exn → P α} (hp : SafeX pin A p Q X')
    (hh : ∀ e l', (∀ k, A k → l' k) → X' e → SafeX pin l' (h e) Q X) : SafeX pin A (p.tryCatch h) Q X := by
  intro l hl
  rw [guar_tryCatch]
  refine guar_mono (hp l hl) fun r l' hr => ?_
  cases r with
  | ok a => exact ⟨hr.1, hr.2⟩
  | raised e =>
    refine guar_mono (hh e l' (fun k hk => hr.1 k (hl k hk)) hr.2 l' fun _ hk => hk) fun r' l'' hr' => ⟨fun k hk => hr'.1 k (hr.1 k hk), hr'.2⟩
  | crashed => exact ⟨hr.1, trivial⟩

theorem SafeX.onNothing {N : Prop} {p h : P α} (hp : SafeX pin A p Q (fun e => e ≠ .typeError ∧ (e = .valueError → pin.value) ∧ (e = .nothingException → N)))
    (hh : N → SafeX pin A h Q (NoMiss pin)) : SafeX pin A (onNothing p h) Q (NoMiss pin) := by
  unfold Verif.onNothing
  refine hp.tryCatch fun e l' hl he => ?_
  split
  · exact (hh (he.2.2 ‹_›)).weaken hl
  · exact .raise ⟨‹_›, he.1, he.2.1⟩

theorem Safe.bind {p : P α} {f : α → P β} (h : Safe pin A p) (hf : ∀ a, Safe pin A (f a)) : Safe pin A (p >>= f) :=
  SafeX.bind h fun a _ hl _ => (hf a).weaken hl

theorem Safe.bind' {p : P α} {f : α → P β} (h : Safe pin A p) (hf : ∀ a, Safe pin A (f a)) : Safe pin A (p.bind f) :=
  SafeX.bind h fun a _ hl _ => (hf a).weaken hl

theorem Safe.ret {a : α} : Safe pin A (.ret a : P α) := SafeX.ret fun _ _ => trivial
theorem Safe.pure {a : α} : Safe pin A (Pure.pure a : P α) := SafeX.ret fun _ _ => trivial

theorem Safe.tryElse {p : P α} {h : Exn → P β} {f : α → P β} (hp : Safe pin A p)
    (hh : ∀ e, NoMiss pin e → Safe pin A (h e)) (hf : ∀ a, Safe pin A (f a)) : Safe pin A (p.tryElse h f) :=
  SafeX.tryElse hp (fun e _ hl he => (hh e he).weaken hl) fun a _ hl _ => (hf a).weaken hl

theorem Safe.when {c : Prop} [Decidable c] {p : P Unit} (h : c → Safe pin A p) : Safe pin A (Prog.when c p) := by
  unfold Prog.when
  split
  · exact h ‹_›
  · exact .ret

theorem Safe.forEach {xs : List β} {f : β → P Unit} (h : ∀ x ∈ xs, Safe pin A (f x)) : Safe pin A (Prog.forEach xs f) := by
  induction xs with
  | nil => exact .ret
  | cons x xs ih => exact .bind' (h x (by simp)) fun _ => ih fun y hy => h y (by simp [hy])

theorem Safe.fold {xs : List β} {b : γ} {f : γ → β → P γ} (h : ∀ b, ∀ x ∈ xs, Safe pin A (f b x)) :
    Safe pin A (Prog.fold xs b f) := by
  induction xs generalizing b with
  | nil => exact .ret
  | cons x xs ih => exact .bind' (h b x (by simp)) fun _ => ih fun b y hy => h b y (by simp [hy])

theorem Safe.mapAll {xs : List β} {f : β → P γ} (h : ∀ x ∈ xs, Safe pin A (f x)) : Safe pin A (Prog.mapAll xs f) := by
  induction xs with
  | nil => exact .ret
  | cons x xs ih => exact .bind' (h x (by simp)) fun _ => .bind' (ih fun y hy => h y (by simp [hy])) fun _ => .ret

theorem Safe.filterAll {xs : List β} {f : β → P Bool} (h : ∀ x ∈ xs, Safe pin A (f x)) : Safe pin A (Prog.filterAll xs f) := by
  induction xs with
  | nil => exact .ret
  | cons x xs ih => exact .bind' (h x (by simp)) fun _ => .bind' (ih fun y hy => h y (by simp [hy])) fun _ => .ret

/-- A loop whose rounds establish something that stays true. -/
theorem SafeX.forEach {xs : List β} {f : β → P Unit} {R : β → Filled → Prop}
    (hR : ∀ x l l', (∀ k, l k → l' k) → R x l → R x l') (h : ∀ x ∈ xs, SafeX pin A (f x) (fun _ l' => R x l') (NoMiss pin)) :
    SafeX pin A (Prog.forEach xs f) (fun _ l' => ∀ x ∈ xs, R x l') (NoMiss pin) := by
  induction xs generalizing A with
  | nil => exact .ret fun _ _ => nofun
  | cons x xs ih =>
    refine SafeX.bind' (h x (by simp)) fun _ l' hl hq => ?_
    refine (ih fun y hy => (h y (by simp [hy])).weaken hl).mono (fun _ l'' hl'' h'' => ?_) fun _ h => h
    intro y hy
    rcases List.mem_cons.1 hy with rfl | hy
    · exact hR y l' l'' hl'' hq
    · exact h'' y hy

/-! #### Interactions -/

/-- An interaction that is not access to the storage. -/
theorem Safe.call {o : Op} (h : o.isStorage = false) : Safe pin A (call o) := by
  intro l hl
  refine ⟨?_, ⟨fun _ h => h, trivial⟩, fun r hr => ?_⟩
  · cases o <;> first | trivial | (cases h; done)
  · cases r with
    | ok a => exact ⟨fun k hk => .inl hk, trivial⟩
    | error e =>
      refine ⟨fun k hk => .inl hk, NoMiss.of ?_⟩
      cases o <;> first | exact hr | (cases h; done)

theorem Safe.delete {k : Key} (h : (∃ ns, k = .queue ns) ∨ ∃ ns j, k = .queueJid ns j) : Safe pin A (Verif.call (.delete k)) := by
  intro l hl
  refine ⟨h, ⟨fun _ h => h, trivial⟩, fun r hr => ?_⟩
  cases r with
  | ok a => exact ⟨fun k hk => .inl hk, trivial⟩
  | error e => exact ⟨fun k hk => .inl hk, NoMiss.of hr⟩

theorem StoreOk.mono {l l' : Filled} {k : Key} {v : JVal} (h : StoreOk pin l k v) (hl : ∀ k, l k → l' k) : StoreOk pin l' k v := by
  cases k <;> first | trivial | skip
  case devList j => exact fun lst hv => ⟨fun d hd k' hk' => hl k' ((h lst hv).1 d hd k' hk'), (h lst hv).2⟩
  case ownDeviceId => exact fun d hv k' hk' => hl k' (h d hv k' hk')

theorem SafeX.store {k : Key} {v : JVal} (hf : Form k v) (hs : StoreOk pin A k v) :
    SafeX pin A (Verif.call (.store k v)) (fun _ l' => Perm k → l' k) (NoMiss pin) := by
  intro l hl
  refine ⟨⟨hf, hs.mono hl⟩, ⟨fun _ h => h, trivial⟩, fun r hr => ?_⟩
  cases r with
  | ok a => exact ⟨fun k hk => .inl hk, fun hp => .inr ⟨rfl, hp⟩⟩
  | error e => exact ⟨fun k hk => .inl hk, NoMiss.of hr⟩

theorem Safe.store {k : Key} {v : JVal} (hf : Form k v) (hs : StoreOk pin A k v) : Safe pin A (Verif.call (.store k v)) :=
  (SafeX.store hf hs).mono (fun _ _ _ _ => trivial) fun _ h => h

theorem SafeX.load {k : Key} : SafeX pin A (Verif.call (.load k)) (fun v l' => (∀ x, v = some x → Form k x) ∧ (A k → v ≠ none) ∧
    PinOk pin k v ∧ ∀ k', Learn pin ⟨.load k, .ok v⟩ k' → l' k') (NoMiss pin) := by
  intro l hl
  refine ⟨trivial, ⟨fun _ h => h, trivial⟩, fun r hr => ?_⟩
  cases r with
  | ok a => exact ⟨fun k hk => .inl hk, hr.1, fun h => hr.2.1 (hl k h), hr.2.2, fun k' hk' => .inr hk'⟩
  | error e => exact ⟨fun k hk => .inl hk, NoMiss.of hr⟩

/-- A typed load that also records what it learned. -/
theorem SafeX.typed {k : Key} {f : JVal → Except Exn β} (hf : ∀ v, Form k v → ∃ b, f v = .ok b) :
    SafeX pin A (Verif.call (.load k) >>= fun v => Maybe.fmap f v) (fun o l' => ∃ v, o = (v.map f).bind Except.toOption ∧
      (∀ x, v = some x → Form k x) ∧ (A k → v ≠ none) ∧ PinOk pin k v ∧ ∀ k', Learn pin ⟨.load k, .ok v⟩ k' → l' k') (NoMiss pin) := by
  refine SafeX.bind SafeX.load fun v l' hl hv => ?_
  cases v with
  | none => exact SafeX.ret fun l'' hl'' => ⟨none, rfl, hv.1, hv.2.1, hv.2.2.1, fun k' hk' => hl'' k' (hv.2.2.2 k' hk')⟩
  | some x =>
    obtain ⟨b, hb⟩ := hf x (hv.1 x rfl)
    simp only [Maybe.fmap, hb]
    exact SafeX.ret fun l'' hl'' => ⟨some x, by simp [hb, Except.toOption], hv.1, hv.2.1, hv.2.2.1, fun k' hk' => hl'' k' (hv.2.2.2 k' hk')⟩

theorem Safe.typed {k : Key} {f : JVal → Except Exn β} (hf : ∀ v, Form k v → ∃ b, f v = .ok b) :
    Safe pin A (Verif.call (.load k) >>= fun v => Maybe.fmap f v) :=
  (SafeX.typed hf).mono (fun _ _ _ _ => trivial) fun _ h => h

theorem Safe.typedJust {k : Key} {f : JVal → Except Exn β} {g : β → P α} (hf : ∀ v, Form k v → ∃ b, f v = .ok b) (hA : A k)
    (h : ∀ b, Safe pin A (g b)) :
    Safe pin A ((Verif.call (.load k) >>= fun v => Maybe.fmap f v) >>= fun o => Maybe.fromJust o >>= g) := by
  refine SafeX.bind (SafeX.typed hf) fun o l' hl ho => ?_
  obtain ⟨v, rfl, h1, h2, _⟩ := ho
  cases v with
  | none => exact absurd rfl (h2 hA)
  | some x =>
    obtain ⟨b, hb⟩ := hf x (h1 x rfl)
    simp only [Option.map, hb, Option.bind, Except.toOption]
    exact (h b).weaken hl

end comb

end Shared
end Verif
