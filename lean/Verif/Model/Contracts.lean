import Verif.Model.Storage
/-
Contracts on the surroundings of the library, used as hypotheses where a property needs them.
Everything not constrained here is arbitrary.
-/
namespace Verif

/-- The content of a key-value storage. -/
abbrev Disk := Key → Option JVal

/-- The map after `m[k] = v` (or deletion for `none`). -/
def Disk.upd (m : Disk) (k : Key) (v : Option JVal) : Disk := fun k' => if k' = k then v else m k'

@[simp] theorem Disk.upd_self {m : Disk} {k : Key} {v : Option JVal} : m.upd k v k = v := by simp [Disk.upd]
theorem Disk.upd_of_ne {m : Disk} {k k' : Key} {v : Option JVal} (h : k' ≠ k) : m.upd k v k' = m k' := by
  simp [Disk.upd, h]

/-- The exceptions a storage raises: `StorageException` (storage.py:203-204, 216-217, 229-230), or something outside
the library's hierarchy, such as the cancellation of the task. -/
def Exn.isFailure : Exn → Bool
  | .storageException | .app _ => true
  | _ => false

/-- Contract of a storage object (storage.py:192-231, "Writing (and deletion) operations must be performed right
away"): a load that returns, returns the current value; a write that returns has taken effect; an operation that raises
has had no effect.  Operations may raise at any time, but not the exceptions the library uses internally, see `Exn.isFailure`. -/
def KV : Sem LibSig Exn Disk where
  ok m
    | ⟨.load k, .ok v⟩ => v = m k
    | ⟨.load _, .error e⟩ => e.isFailure
    | ⟨.store _ _, .error e⟩ => e.isFailure
    | ⟨.delete _, .error e⟩ => e.isFailure
    | _ => True
  next m
    | ⟨.store k v, .ok _⟩ => m.upd k (some v)
    | ⟨.delete k, .ok _⟩ => m.upd k none
    | _ => m

/-- Whether an interaction is access to the storage object. -/
def Op.isStorage : Op → Bool
  | .load _ | .store _ _ | .delete _ => true
  | _ => false

theorem KV.ok_other {m : Disk} {o : Op} {r : Except Exn o.Ret} (h : o.isStorage = false) : KV.ok m ⟨o, r⟩ := by
  cases o <;> first | trivial | cases h

theorem KV.next_other {m : Disk} {o : Op} {r : Except Exn o.Ret} (h : o.isStorage = false) : KV.next m ⟨o, r⟩ = m := by
  cases o <;> first | rfl | cases h

/-! ### One process using the library -/

/-- The exceptions the library uses internally or by mistake, and which nothing it calls is supposed to raise. -/
def Exn.isInternal : Exn → Bool
  | .nothingException | .typeError | .keyError | .valueError | .runtimeError | .outOfFuel => true
  | _ => false

/-- What the library works on: the storage, the two shared fields of the session manager (session_manager.py:240-249), and the record
of all its other interactions, i.e. with backends, server and application. -/
structure World where
  disk : Disk
  backends : List Ns
  sync : Bool
  log : List Ev

/-- Record an interaction. -/
def World.push (w : World) (e : Ev) : World := { w with log := w.log ++ [e] }

/-- Whether an interaction is access to the fields of the session manager. -/
def Op.isField : Op → Bool
  | .getBackends | .setBackends _ | .getSync | .setSync _ => true
  | _ => false

/-- Contract of the surroundings when calls are made one after the other: storage as in `KV`, fields behave like variables,
everything else answers arbitrarily but does not raise internal exceptions of the library. -/
def Lib : Sem LibSig Exn World where
  ok w
    | ⟨.load k, .ok v⟩ => v = w.disk k
    | ⟨.load _, .error e⟩ => e.isFailure
    | ⟨.store _ _, .error e⟩ => e.isFailure
    | ⟨.delete _, .error e⟩ => e.isFailure
    | ⟨.getBackends, r⟩ => r = .ok w.backends
    | ⟨.getSync, r⟩ => r = .ok w.sync
    | ⟨.setBackends _, .error _⟩ => False
    | ⟨.setSync _, .error _⟩ => False
    | ⟨_, .error e⟩ => e.isInternal = false
    | _ => True
  next w
    | ⟨.load _, _⟩ => w
    | ⟨.store k v, .ok _⟩ => { w with disk := w.disk.upd k (some v) }
    | ⟨.store _ _, .error _⟩ => w
    | ⟨.delete k, .ok _⟩ => { w with disk := w.disk.upd k none }
    | ⟨.delete _, .error _⟩ => w
    | ⟨.getBackends, _⟩ => w
    | ⟨.getSync, _⟩ => w
    | ⟨.setBackends bs, _⟩ => { w with backends := bs }
    | ⟨.setSync b, _⟩ => { w with sync := b }
    | e => w.push e

/-- Interactions with backends, server, application, random source and clock. -/
def Op.isExternal (o : Op) : Bool := !o.isStorage && !o.isField

theorem Lib.ok_ext {w : World} {o : Op} {r : Except Exn o.Ret} (h : o.isExternal = true) :
    Lib.ok w ⟨o, r⟩ ↔ ∀ e, r = .error e → e.isInternal = false := by
  cases o <;> first
    | (cases h; done)
    | (cases r with
       | ok a => simp [Lib]
       | error e => simp [Lib])

theorem Lib.next_ext {w : World} {o : Op} {r : Except Exn o.Ret} (h : o.isExternal = true) :
    Lib.next w ⟨o, r⟩ = w.push ⟨o, r⟩ := by
  cases o <;> first | rfl | (cases h; done)

theorem Exn.not_internal_of_failure {e : Exn} (h : e.isFailure = true) : e.isInternal = false := by
  cases e <;> first | rfl | cases h

/-- `Lib` refines `KV`. -/
theorem Lib.kv {w : World} {e : Ev} (h : Lib.ok w e) : KV.ok w.disk e ∧ KV.next w.disk e = (Lib.next w e).disk := by
  obtain ⟨o, r⟩ := e
  cases o <;> cases r <;> first | exact ⟨h, rfl⟩ | exact ⟨trivial, rfl⟩

theorem Lib.runs_kv {w w' : World} {t : List Ev} (h : Lib.Runs w t w') : KV.Runs w.disk t w'.disk := by
  induction t generalizing w with
  | nil => cases h; rfl
  | cons e t ih =>
    obtain ⟨h1, h2⟩ := Lib.kv h.1
    exact ⟨h1, h2 ▸ ih h.2⟩

/-- What holds on every key-value storage holds under `Lib`. -/
theorem Lib.wp_of_kv {α : Type} {p : P α} {Q : Res Exn α → Disk → Prop} {w : World} (h : wp KV p Q w.disk) :
    wp Lib p (fun r w' => Q r w'.disk) w :=
  wp_iff.2 fun _ _ _ he hr => wp_sound h he (Lib.runs_kv hr)

/-- State of a `Storage` instance: what `_load`/`_store`/`_delete` work on, and the private cache dictionary. -/
structure RawW where
  disk : Disk
  cache : Key → Option (Option JVal)

/-- Contract of the abstract storage methods (as for `KV`) and of a Python dictionary (the cache). -/
def RawKV : Sem RawSig Exn RawW where
  ok w
    | ⟨.rawLoad k, .ok v⟩ => v = w.disk k
    | ⟨.rawLoad _, .error e⟩ => e.isFailure
    | ⟨.rawStore _ _, .error e⟩ => e.isFailure
    | ⟨.rawDelete _, .error e⟩ => e.isFailure
    | ⟨.cacheGet k, .ok v⟩ => v = w.cache k
    | ⟨.cacheGet _, .error _⟩ => False
    | ⟨.cacheSet _ _, .error _⟩ => False
    | _ => True
  next w
    | ⟨.rawStore k v, .ok _⟩ => { w with disk := w.disk.upd k (some v) }
    | ⟨.rawDelete k, .ok _⟩ => { w with disk := w.disk.upd k none }
    | ⟨.cacheSet k m, .ok _⟩ => { w with cache := fun k' => if k' = k then some m else w.cache k' }
    | _ => w

namespace Storage

/-- One library interaction carried out on the raw storage. -/
def impl (cached : Bool) : (o : Op) → R o.Ret
  | .load k => Storage.load cached k
  | .store k v => Storage.store cached k v
  | .delete k => Storage.delete cached k
  | o => rcall (.other o)

/-- The library running on a `Storage` with its cache: each `load`/`store`/`delete` is replaced by the code of
`Storage.load`/`store`/`delete`. -/
def compile (cached : Bool) {α : Type} : P α → R α
  | .ret a => .ret a
  | .raise e => .raise e
  | .op o k => Prog.tryElse (impl cached o) (fun e => compile cached (k (.error e))) (fun a => compile cached (k (.ok a)))

end Storage

/-! ### Concrete environments for examples and refutations -/

/-- A storage that answers every call, together with arbitrary fixed answers `f` of everything else. -/
def KV.env (f : (o : Op) → Except Exn o.Ret) (m : Disk) : (o : Op) → Except Exn o.Ret
  | .load k => .ok (m k)
  | .store _ _ => .ok ()
  | .delete _ => .ok ()
  | o => f o

theorem KV.env_ok (f : (o : Op) → Except Exn o.Ret) (m : Disk) (o : Op) : KV.ok m ⟨o, KV.env f m o⟩ := by
  cases o <;> first | trivial | rfl

/-- A world that answers every storage call, together with answers `f` of backends, server and application. -/
def Lib.env (f : World → (o : Op) → Except Exn o.Ret) (w : World) : (o : Op) → Except Exn o.Ret
  | .load k => .ok (w.disk k)
  | .store _ _ => .ok ()
  | .delete _ => .ok ()
  | .getBackends => .ok w.backends
  | .getSync => .ok w.sync
  | .setBackends _ => .ok ()
  | .setSync _ => .ok ()
  | o => f w o

theorem Lib.env_ok (f : World → (o : Op) → Except Exn o.Ret) (hf : ∀ w o e, f w o = .error e → e.isInternal = false)
    (w : World) (o : Op) : Lib.ok w ⟨o, Lib.env f w o⟩ := by
  by_cases h : o.isExternal = true
  · rw [Lib.ok_ext h]
    intro e he
    refine hf w o e ?_
    cases o <;> first | exact he | (cases h; done)
  · cases o <;> first | trivial | rfl | exact absurd rfl h

/-- A raw storage and a cache that answer every call. -/
def RawKV.env (f : (o : Op) → Except Exn o.Ret) (w : RawW) : (o : ROp) → Except Exn o.Ret
  | .rawLoad k => .ok (w.disk k)
  | .cacheGet k => .ok (w.cache k)
  | .rawStore _ _ => .ok ()
  | .rawDelete _ => .ok ()
  | .cacheSet _ _ => .ok ()
  | .other o => f o

theorem RawKV.env_ok (f : (o : Op) → Except Exn o.Ret) (w : RawW) (o : ROp) : RawKV.ok w ⟨o, RawKV.env f w o⟩ := by
  cases o <;> first | trivial | rfl

end Verif
