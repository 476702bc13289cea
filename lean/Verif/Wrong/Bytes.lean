import Verif.Props.Typed
import Verif.Wrong.Basics
/-
Wrong programs in place of `store_bytes` and `load_bytes`, and the claim that rejects them (C03).  See Wrong/Encrypt.lean for the method.
-/
namespace Verif
namespace Wrong
open SM Spec

/-- `store_bytes` and `load_bytes`. -/
structure ByteSto where
  store : Bool → Key → Bytes → R Unit
  load : Bool → Key → R (Option Bytes)

/-- The methods as they are in the code. -/
def rightBytes : ByteSto := ⟨Storage.storeBytes, Storage.loadBytes⟩

/-- C03 for a pair of programs: what is stored is loaded. -/
def C03 (S : ByteSto) : Prop :=
  ∀ (cached : Bool) (k : Key) (b : Bytes) (w w' : RawW) (t : List (Event RawSig Exn)) (r : Res Exn (Option Bytes)), Coherent cached w →
    Exec ((S.store cached k b).bind fun _ => S.load cached k) t r → RawKV.Runs w t w' →
    r = .crashed ∨ (∃ e, ((∃ v, ⟨ROp.rawStore k v, .error e⟩ ∈ t) ∨ ⟨ROp.rawLoad k, .error e⟩ ∈ t) ∧ r = .raised e) ∨ r = .ok (some b)

/-- C03, second half, for a program: characters. -/
def C03' (store : Bool → Key → Bytes → R Unit) : Prop :=
  ∀ (cached : Bool) (k : Key) (b : Bytes) (t : List (Event RawSig Exn)) (r : Res Exn Unit), Exec (store cached k b) t r →
    ∀ (k' : Key) (v : JVal) (x : Except Exn Unit), (⟨.rawStore k' v, x⟩ : Event RawSig Exn) ∈ t →
    k' = k ∧ ∃ s : String, v = .str s ∧ ∀ c ∈ s.toList, c ∈ "ABCDEFGHIJKLMNOPQRSTUVWXYZabcdefghijklmnopqrstuvwxyz0123456789-_=".toList

theorem C03_real : C03 rightBytes := fun cached k b w w' t r hc he hr => C03_outcome cached k b w w' t r hc he hr
theorem C03'_real : C03' Storage.storeBytes := fun cached k b t r he k' v x hm => C03_url_safe cached k b t r he k' v x hm

def bytesRun (S : ByteSto) (k : Key) (b : Bytes) (w : RawW) :=
  runProg (RawKV.env fun _ => .error (.app 0)) RawKV.next 100 ((S.store true k b).bind fun _ => S.load true k) w

theorem C03_not {S : ByteSto} (k : Key) (b : Bytes) (w : RawW) (hc : Coherent true w)
    (ht : (bytesRun S k b w).1.all (fun e => match e.2 with | .ok _ => true | .error _ => false) = true)
    (hr : (match (bytesRun S k b w).2.1 with | .crashed => false | .raised _ => true | .ok o => decide (o ≠ some b)) = true) : ¬ C03 S := by
  intro h
  rcases h true k b w _ _ _ hc (runProg_exec (RawKV.env fun _ => .error (.app 0)) RawKV.next 100 _ w)
    (runProg_runs RawKV _ (RawKV.env_ok _) 100 _ w) with h | ⟨e, ⟨v, h⟩ | h, -⟩ | h
  · unfold bytesRun at hr; rw [h] at hr; cases hr
  · cases List.all_eq_true.1 ht _ h
  · cases List.all_eq_true.1 ht _ h
  · unfold bytesRun at hr; rw [h] at hr; exact of_decide_eq_true hr rfl

/-- Nothing cached, nothing stored. -/
def blank : RawW := ⟨fun _ => none, fun _ => none⟩

theorem blank_coherent : Coherent true blank := nofun

/-- The padding is removed when bytes are stored (storage.py:301), but not restored when they are loaded. -/
def unpadded : ByteSto := { rightBytes with store := fun cached k b => Storage.store cached k (.str (String.ofList ((Base64.encodeChars b).filter (· ≠ '=')))) }

theorem C03_unpadded : ¬ C03 unpadded := C03_not .ikpKey [255] blank blank_coherent (by decide +kernel) (by decide +kernel)

/-- The bytes are loaded as they are, without decoding (storage.py:341 forgotten). -/
def undecoded : ByteSto := { rightBytes with load := fun cached k => do
  Maybe.fmap (fun v => match v with | .str s => .ok (s.toList.map fun c => UInt8.ofNat c.toNat) | _ => .error .typeError) (← Storage.load cached k) }

theorem C03_undecoded : ¬ C03 undecoded := C03_not .ikpKey [255] blank blank_coherent (by decide +kernel) (by decide +kernel)

/-- Bytes are stored without the cache (storage.py:301: the abstract method in place of `store`). -/
def behindCache : ByteSto := { rightBytes with store := fun _ k b => rcall (.rawStore k (.str (Base64.encode b))) }

theorem C03_behindCache : ¬ C03 behindCache :=
  C03_not .ikpKey [255] ⟨fun _ => none, fun _ => some none⟩ (fun _ _ _ h => by cases h; rfl) (by decide +kernel) (by decide +kernel)

/-- No bytes are taken for nothing stored (storage.py:340: `if not value`). -/
def falsy : ByteSto := { rightBytes with load := fun cached k => do
  let b ← Storage.loadBytes cached k
  pure (b.filter fun b => b ≠ []) }

theorem C03_falsy : ¬ C03 falsy := C03_not .ikpKey [] blank blank_coherent (by decide +kernel) (by decide +kernel)

/-- The alphabet with a slash is used (storage.py:301: `b64encode`). -/
def slashed (cached : Bool) (k : Key) (b : Bytes) : R Unit :=
  Storage.store cached k (.str (String.ofList ((Base64.encodeChars b).map fun c => if c = '_' then '/' else if c = '-' then '+' else c)))

theorem C03_slashed : ¬ C03' slashed := by
  intro h
  obtain ⟨-, s, hs, hc⟩ := h false .ikpKey [255] _ _ (rawTrial_exec (slashed false .ikpKey [255]) fun _ => none) .ikpKey (.str "/w==") (.ok ()) (.head _)
  cases hs
  exact absurd (hc '/' (by decide +kernel)) (by decide +kernel)

/-- Reading the bytes back does not notice the alphabet, so the second half is needed. -/
theorem slashed_loads : (match (bytesRun { rightBytes with store := slashed } .ikpKey [255] blank).2.1 with | .ok o => decide (o = some [255]) | _ => false) = true := by
  decide +kernel

end Wrong
end Verif
