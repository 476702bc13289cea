import Verif.Model.SessionManager
import Verif.Model.Contracts
import Verif.Proofs.Base64
/-
Weakest preconditions of storage access under the key-value contract.
-/
namespace Verif

theorem KV.wp_load {k : Key} {Q : Res Exn (Option JVal) → Disk → Prop} {m : Disk} :
    wp KV (call (.load k)) Q m ↔ Q .crashed m ∧ Q (.ok (m k)) m ∧ ∀ e, e.isFailure → Q (.raised e) m := by
  simp only [Prog.perform, wp_op, forall_except, wp_ret, wp_raise, KV]
  constructor
  · rintro ⟨h1, h2, h3⟩; exact ⟨h1, h2 _ rfl, h3⟩
  · rintro ⟨h1, h2, h3⟩; exact ⟨h1, fun a ha => ha ▸ h2, h3⟩

theorem KV.wp_store {k : Key} {v : JVal} {Q : Res Exn Unit → Disk → Prop} {m : Disk} :
    wp KV (call (.store k v)) Q m ↔ Q .crashed m ∧ Q (.ok ()) (m.upd k (some v)) ∧ ∀ e, e.isFailure → Q (.raised e) m := by
  simp only [Prog.perform, wp_op, forall_except, wp_ret, wp_raise, KV]
  constructor
  · rintro ⟨h1, h2, h3⟩; exact ⟨h1, h2 _ trivial, h3⟩
  · rintro ⟨h1, h2, h3⟩; exact ⟨h1, fun a ha => h2, h3⟩

theorem KV.wp_delete {k : Key} {Q : Res Exn Unit → Disk → Prop} {m : Disk} :
    wp KV (call (.delete k)) Q m ↔ Q .crashed m ∧ Q (.ok ()) (m.upd k none) ∧ ∀ e, e.isFailure → Q (.raised e) m := by
  simp only [Prog.perform, wp_op, forall_except, wp_ret, wp_raise, KV]
  constructor
  · rintro ⟨h1, h2, h3⟩; exact ⟨h1, h2 _ trivial, h3⟩
  · rintro ⟨h1, h2, h3⟩; exact ⟨h1, fun a ha => h2, h3⟩

theorem KV.wp_other {o : Op} {Q : Res Exn o.Ret → Disk → Prop} {m : Disk} (ho : o.isStorage = false) :
    wp KV (call o) Q m ↔ Q .crashed m ∧ (∀ a, Q (.ok a) m) ∧ ∀ e, Q (.raised e) m := by
  have h1 : ∀ r, KV.ok m ⟨o, r⟩ := fun r => KV.ok_other ho
  have h2 : ∀ r, KV.next m ⟨o, r⟩ = m := fun r => KV.next_other ho
  rw [wp_perform]
  constructor
  · rintro ⟨h3, h4, h5⟩
    exact ⟨h3, fun a => h2 (.ok a) ▸ h4 a (h1 _), fun e => h2 (.error e) ▸ h5 e (h1 _)⟩
  · rintro ⟨h3, h4, h5⟩
    exact ⟨h3, fun a _ => (h2 (.ok a)).symm ▸ h4 a, fun e _ => (h2 (.error e)).symm ▸ h5 e⟩

section generic
variable {S : Sig} {W α β : Type} {N : Sem S Exn W}

/-- The result of a `fmap` with a function that may raise. -/
def fmapRes (f : α → Except Exn β) : Option α → Res Exn (Option β)
  | none => .ok none
  | some a => match f a with
    | .ok b => .ok (some b)
    | .error e => .raised e

theorem wp_fmap {f : α → Except Exn β} {o : Option α} {Q : Res Exn (Option β) → W → Prop} {w : W} :
    wp N (Maybe.fmap f o : Prog S Exn (Option β)) Q w ↔ Q (fmapRes f o) w := by
  cases o with
  | none => exact Iff.rfl
  | some a => simp only [Maybe.fmap, fmapRes]; cases f a <;> exact Iff.rfl

theorem wp_fromJust {o : Option α} {Q : Res Exn α → W → Prop} {w : W} :
    wp N (Maybe.fromJust o : Prog S Exn α) Q w ↔
      (∀ a, o = some a → Q (.ok a) w) ∧ (o = none → Q (.raised .nothingException) w) := by
  cases o with
  | none => simp [Maybe.fromJust]
  | some a => simp [Maybe.fromJust]

end generic

section lib
variable {W α : Type} {N : Sem LibSig Exn W}

theorem wp_onNothing {p h : P α} {Q : Res Exn α → W → Prop} {w : W} :
    wp N (onNothing p h) Q w ↔
      wp N p (handled Q fun e w' => (e = .nothingException → wp N h Q w') ∧ (e ≠ .nothingException → Q (.raised e) w')) w := by
  unfold onNothing
  simp only [wp_tryCatch, wp_ite, wp_raise]

theorem wp_liftE {x : Except Exn α} {Q : Res Exn α → W → Prop} {w : W} :
    wp N (liftE x) Q w ↔ (∀ a, x = .ok a → Q (.ok a) w) ∧ (∀ e, x = .error e → Q (.raised e) w) := by
  cases x <;> simp [liftE]

theorem wp_next {x : Option α} {Q : Res Exn α → W → Prop} {w : W} :
    wp N (nextOrRuntimeError x) Q w ↔ (∀ a, x = some a → Q (.ok a) w) ∧ (x = none → Q (.raised .runtimeError) w) := by
  cases x <;> simp [nextOrRuntimeError]

end lib

/-! ### Typed values -/

theorem read_ofStrs (l : List String) : (checkList .str (.ofStrs l)).map (List.map JVal.asStr) = .ok l := by
  have h : (l.map JVal.str).all (isInstance · .str) = true := by
    rw [List.all_eq_true]; intro x hx; obtain ⟨s, _, rfl⟩ := List.mem_map.1 hx; rfl
  simp only [checkList, JVal.ofStrs, h, if_true, Except.map, List.map_map]
  congr 1
  clear h
  induction l with
  | nil => rfl
  | cons x xs ih => simp only [List.map_cons, Function.comp]; rw [ih]; rfl

theorem read_ofInts (l : List Int) : (checkList .int (.ofInts l)).map (List.map JVal.asInt) = .ok l := by
  have h : (l.map JVal.int).all (isInstance · .int) = true := by
    rw [List.all_eq_true]; intro x hx; obtain ⟨s, _, rfl⟩ := List.mem_map.1 hx; rfl
  simp only [checkList, JVal.ofInts, h, if_true, Except.map, List.map_map]
  congr 1
  clear h
  induction l with
  | nil => rfl
  | cons x xs ih => simp only [List.map_cons, Function.comp]; rw [ih]; rfl

theorem read_ofBools (d : Dict String Bool) :
    (checkDict .bool (.ofBools d)).map (List.map fun x => (x.1, x.2.asBool)) = .ok d := by
  have h : (d.map fun x => (x.1, JVal.bool x.2)).all (fun x => isInstance x.2 .bool) = true := by
    rw [List.all_eq_true]; intro x hx; obtain ⟨s, _, rfl⟩ := List.mem_map.1 hx; rfl
  simp only [checkDict, JVal.ofBools, h, if_true, Except.map, List.map_map]
  congr 1
  clear h
  induction d with
  | nil => rfl
  | cons x xs ih => simp only [List.map_cons, Function.comp]; rw [ih]; rfl

theorem read_ofOptStr (l : Option String) : (checkOptional .str (.ofOptStr l)).map JVal.asOptStr = .ok l := by
  cases l <;> rfl

theorem read_str (s : String) : (checkPrimitive .str (.str s)).map JVal.asStr = .ok s := rfl
theorem read_int (i : Int) : (checkPrimitive .int (.int i)).map JVal.asInt = .ok i := rfl
theorem read_bool (b : Bool) : (checkPrimitive .bool (.bool b)).map JVal.asBool = .ok b := rfl
theorem read_bytes (b : Bytes) : checkBytes (.str (Base64.encode b)) = .ok b := by
  simp [checkBytes, Base64.decode_encode]

/-! ### Typed loads of typed values -/
section typed
variable {m : Disk} {k : Key}

theorem KV.wp_typed {β : Type} {f : JVal → Except Exn β} {Q : Res Exn (Option β) → Disk → Prop} :
    wp KV (call (.load k) >>= fun v => Maybe.fmap f v) Q m ↔ Q .crashed m ∧ (∀ e, e.isFailure → Q (.raised e) m) ∧
      Q (fmapRes f (m k)) m := by
  rw [wp_bind]
  refine KV.wp_load.trans ?_
  simp only [andThen_ok, andThen_crashed, andThen_raised, wp_fmap]
  grind

theorem KV.wp_loadInt {Q : Res Exn (Option Int) → Disk → Prop} :
    wp KV (Sto.loadInt k) Q m ↔ Q .crashed m ∧ (∀ e, e.isFailure → Q (.raised e) m) ∧
      Q (fmapRes (fun v => (checkPrimitive .int v).map JVal.asInt) (m k)) m := KV.wp_typed
theorem KV.wp_loadStr {Q : Res Exn (Option String) → Disk → Prop} :
    wp KV (Sto.loadStr k) Q m ↔ Q .crashed m ∧ (∀ e, e.isFailure → Q (.raised e) m) ∧
      Q (fmapRes (fun v => (checkPrimitive .str v).map JVal.asStr) (m k)) m := KV.wp_typed
theorem KV.wp_loadBool {Q : Res Exn (Option Bool) → Disk → Prop} :
    wp KV (Sto.loadBool k) Q m ↔ Q .crashed m ∧ (∀ e, e.isFailure → Q (.raised e) m) ∧
      Q (fmapRes (fun v => (checkPrimitive .bool v).map JVal.asBool) (m k)) m := KV.wp_typed
theorem KV.wp_loadBytes {Q : Res Exn (Option Bytes) → Disk → Prop} :
    wp KV (Sto.loadBytes k) Q m ↔ Q .crashed m ∧ (∀ e, e.isFailure → Q (.raised e) m) ∧ Q (fmapRes checkBytes (m k)) m := KV.wp_typed
theorem KV.wp_loadOptStr {Q : Res Exn (Option (Option String)) → Disk → Prop} :
    wp KV (Sto.loadOptStr k) Q m ↔ Q .crashed m ∧ (∀ e, e.isFailure → Q (.raised e) m) ∧
      Q (fmapRes (fun v => (checkOptional .str v).map JVal.asOptStr) (m k)) m := KV.wp_typed
theorem KV.wp_loadInts {Q : Res Exn (Option (List Int)) → Disk → Prop} :
    wp KV (Sto.loadInts k) Q m ↔ Q .crashed m ∧ (∀ e, e.isFailure → Q (.raised e) m) ∧
      Q (fmapRes (fun v => (checkList .int v).map (List.map JVal.asInt)) (m k)) m := KV.wp_typed
theorem KV.wp_loadStrs {Q : Res Exn (Option (List String)) → Disk → Prop} :
    wp KV (Sto.loadStrs k) Q m ↔ Q .crashed m ∧ (∀ e, e.isFailure → Q (.raised e) m) ∧
      Q (fmapRes (fun v => (checkList .str v).map (List.map JVal.asStr)) (m k)) m := KV.wp_typed
theorem KV.wp_loadBools {Q : Res Exn (Option (Dict String Bool)) → Disk → Prop} :
    wp KV (Sto.loadBools k) Q m ↔ Q .crashed m ∧ (∀ e, e.isFailure → Q (.raised e) m) ∧
      Q (fmapRes (fun v => (checkDict .bool v).map (List.map fun x => (x.1, x.2.asBool))) (m k)) m := KV.wp_typed
theorem KV.wp_storeBytes {b : Bytes} {Q : Res Exn Unit → Disk → Prop} :
    wp KV (Sto.storeBytes k b) Q m ↔ Q .crashed m ∧ Q (.ok ()) (m.upd k (some (.str (Base64.encode b)))) ∧ ∀ e, e.isFailure → Q (.raised e) m :=
  KV.wp_store

end typed

end Verif
