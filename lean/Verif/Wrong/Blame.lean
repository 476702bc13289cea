import Verif.Props.Intact
import Verif.Wrong.Life
/-
Wrong programs for the claims about loads and stores that overlap (C06) and about failures because of stored data (C24).  See Wrong/Encrypt.lean
for the method.
-/
namespace Verif
namespace Wrong
open SM Spec

/-! ### C06: loads and stores that overlap in time -/

/-- C06, what holds of it, for programs in place of `store` and `load`: without cache, and with cache for loads of other keys. -/
def C06 (store : Bool → Key → JVal → R Unit) (load : Bool → Key → R (Option JVal)) : Prop :=
  ∀ (cached : Bool) (k : Key) (v : JVal) (w w1 w2 : RawW) (ts t t' : List (Event RawSig Exn)) (loads : List (List (Event RawSig Exn))) (a : Option JVal),
    Coherent cached w → Exec (store cached k v) ts (.ok ()) →
    (∀ u ∈ loads, ∃ k' r, (cached = true → k' ≠ k) ∧ Exec (load cached k') u (.ok r)) → Shuffle (ts :: loads) t → RawKV.Runs w t w1 →
    Exec (load cached k) t' (.ok a) → RawKV.Runs w1 t' w2 → a = some v

theorem C06_real : C06 Storage.store Storage.load := by
  intro cached k v w w1 w2 ts t t' loads a hc hs hl hsh hr he hr'
  cases cached with
  | false => exact C06_uncached_partial k v w w1 w2 ts t t' loads a hc hs (fun u hu => let ⟨k', r, _, h⟩ := hl u hu; ⟨k', r, h⟩) hsh hr he hr'
  | true => exact C06_other_keys_partial k v w w1 w2 ts t t' loads a hs (fun u hu => let ⟨k', r, hk, h⟩ := hl u hu; ⟨k', r, hk rfl, h⟩) hsh hr he hr'

/-- A load writes what it found back to the storage. -/
def writingBack (cached : Bool) (k : Key) : R (Option JVal) := do
  match ← Storage.load cached k with
  | none => pure none
  | some v => do
    rcall (.rawStore k v)
    pure (some v)

theorem C06_writingBack : ¬ C06 Storage.store writingBack := by
  intro hc
  let k : Key := .ownDeviceId
  let e : ∀ o : ROp, o.Ret → Event RawSig Exn := fun o r => ⟨o, .ok r⟩
  have := hc false k (.int 2) ⟨fun _ => some (.int 1), fun _ => none⟩ _ _
    [e (.rawStore k (.int 2)) ()]
    [e (.rawLoad k) (some (.int 1)), e (.rawStore k (.int 2)) (), e (.rawStore k (.int 1)) ()]
    [e (.rawLoad k) (some (.int 1)), e (.rawStore k (.int 1)) ()]
    [[e (.rawLoad k) (some (.int 1)), e (.rawStore k (.int 1)) ()]]
    (some (.int 1))
    (fun _ _ _ h => by cases h)
    (.op _ (.ret _))
    (by
      intro u hu
      rw [List.mem_singleton] at hu
      subst hu
      exact ⟨k, some (.int 1), nofun, .op _ (.op _ (.ret _))⟩)
    (by
      refine .cons (pre := [_]) (post := []) (.cons (pre := []) (post := [_]) ?_)
      exact .cons (pre := [_]) (post := []) (.nil (by simp)))
    ⟨rfl, trivial, trivial, rfl⟩
    (.op _ (.op _ (.ret _)))
    ⟨by simp [RawKV, e, k], trivial, rfl⟩
  cases this

/-- A store leaves the cache as it is. -/
def uncachedStore (_ : Bool) (k : Key) (v : JVal) : R Unit := rcall (.rawStore k v)

theorem C06_uncachedStore : ¬ C06 uncachedStore Storage.load := by
  intro hc
  let k : Key := .ownDeviceId
  let e : ∀ o : ROp, o.Ret → Event RawSig Exn := fun o r => ⟨o, .ok r⟩
  have := hc true k (.int 2) ⟨fun _ => none, fun _ => some none⟩ _ _
    [e (.rawStore k (.int 2)) ()] [e (.rawStore k (.int 2)) ()] [e (.cacheGet k) (some none)] [] none
    (fun _ _ _ h => by cases h; rfl)
    (.op _ (.ret _)) nofun (.cons (pre := []) (post := []) (.nil (by simp))) ⟨trivial, rfl⟩ (.op _ (.ret _)) ⟨rfl, rfl⟩
  cases this

/-! ### C24: no call fails because of stored data -/

/-- C24, what holds of it, for another method that is called after a life with the methods of the code. -/
def C24 (K : Code) : Prop :=
  ∀ (own : Jid) (x : XEdDSA) (s0 s : Use) (M : Mgr) (c : Call) (t : List Ev) (e : Exn) (w' : World), New s0 → Typed s0.world.disk →
    Course own x s0 s [] → NextCall own x s M c → Polite M → Exec (K.run M c) t (.raised e) → Lib.Runs s.world t w' → Blames e →
    e = .keyError ∧ PlaintextMissing w' c

theorem C24_real : C24 real := fun own x s0 s M c t e w' hnew ht h hc hM he hr hb =>
  C24_partial own x s0 s M c t e w' hnew ht h hc hM (real_run M c ▸ he) hr hb

theorem C24_not {K : Code} {c : Call} {e : Exn} (hc : ∀ bs l f, c ≠ .create bs l f) (hp : ∀ w, ¬ PlaintextMissing w c) (hb : Blames e)
    (h : (Friendly.genuine.run (K.run Mgr.ex c) Use.remet.world).2.1 = .raised e) : ¬ C24 K := by
  intro h'
  have hM : Mgr.ex ∈ Use.remet.mgrs := by simp [Use.remet, Use.cutPurge, Friendly.useCut, Use.met, Friendly.use, Use.started]
  exact hp _ (h' "me" Mgr.ex.x Use.fresh Use.remet Mgr.ex c _ e _ fresh_new nofun remet_course (.call Mgr.ex _ hM hc) polite_ex
    (h ▸ Friendly.genuine.exec _ _) (Friendly.genuine.runs _ _) hb).2

/-- An identity key that is not stored yet is not expected (sm:1419 forgotten). -/
def unguarded : Inf := fun M jid => do
  let known := Maybe.maybe (← Sto.loadInts (.devList jid)) []
  Prog.forEach known fun d => do
    let _ ← Maybe.fromJust (← Sto.loadBytes (.devIdentityKey jid d))
    pure ()
  getDeviceInformation M jid

/-- Whether a device that is not on the list supports the namespace is not checked (sm:1086 forgotten). -/
def unqualified : Upd := updateBy { rightUpd with known := fun M ns jid dl d => do
  let active ← Maybe.fromJust (← Sto.loadBools (.devActive jid d))
  match dl.get d with
  | some _ => updateKnownDevice M ns jid dl d
  | none =>
    match active.get ns with
    | none => throwE .keyError
    | some b => Prog.when (b = true) (call (.store (.devActive jid d) (.ofBools (active.set ns false)))) }

theorem C24_unguarded : ¬ C24 (.informing unguarded) :=
  C24_not (c := .getDeviceInformation "a") (e := .nothingException) nofun (fun _ h => nomatch h) (.inl rfl) (by decide +kernel)

theorem C24_unqualified : ¬ C24 (.updating unqualified) :=
  C24_not (c := .updateDeviceList "o" "a" []) (e := .keyError) nofun (fun _ h => nomatch h) (.inr (.inr rfl)) (by decide +kernel)

end Wrong
end Verif
