import Verif.Proofs.StorageCache
/-
C01, C06: the cache of `Storage`.
-/
namespace Verif
open Spec

/-! ### C01: the storage cache is transparent -/

/-- C01. Any sequence of calls on a `Storage`, with any pattern of failures of the underlying storage and
with or without cache, gives results explained by a plain map.  (`cache := fun _ => none`: a freshly
created instance.) -/
theorem C01_cache_transparent (cached : Bool) (cs : List StCall) (m : Key → Option JVal)
    (t : List (Event RawSig Exn)) (h : List Observed) (w' : RawW)
    (hexec : Exec (runCalls cached cs) t (.ok h))
    (hruns : RawKV.Runs ⟨m, fun _ => none⟩ t w') :
    Explains m h ∧ h.map (·.1) = cs :=
  wp_sound (wp_runCalls cached cs ⟨m, fun _ => none⟩ (fun _ _ _ h => by cases h)) hexec hruns h rfl

/-- C01 for every program using the storage, in particular all of the library: what it returns, what it raises and
all its other interactions are those of an execution on a plain key-value map, and the data ends up the
same.  The cache may be warm.  For a crash, the persistent data is that of some plain execution. -/
theorem C01_library_on_storage (cached : Bool) {α : Type} (p : P α) (w w' : RawW) (t : List (Event RawSig Exn))
    (r : Res Exn α) (hc : Coherent cached w)
    (hexec : Exec (Storage.compile cached p) t r) (hruns : RawKV.Runs w t w') :
    (r ≠ .crashed → Coherent cached w') ∧
    ∃ u r', Exec p u r' ∧ KV.Runs w.disk u w'.disk ∧ rawOther t = libOther u ∧ (r ≠ .crashed → r' = r) := by
  have h := wp_sound (compile_spec cached p w [] hc) hexec (w' := (w', t))
    (Sem.runs_prod.2 ⟨hruns, Sem.runs_hist.2 (by simp)⟩)
  exact h


/-- The hypotheses of C01 are met by a run that stores, loads, deletes and loads again. -/
example : ∃ t h w', Exec (runCalls true [.load .ownDeviceId, .store .ownDeviceId (.int 7), .load .ownDeviceId,
      .delete .ownDeviceId, .load .ownDeviceId]) t (.ok h) ∧
    RawKV.Runs ⟨fun _ => none, fun _ => none⟩ t w' ∧
    h.map (·.2) = [.ok none, .ok none, .ok (some (.int 7)), .ok none, .ok none] :=
  let f := fun o : Op => (.error (.app 0) : Except Exn o.Ret)
  ⟨_, _, _, runProg_exec (RawKV.env f) RawKV.next 20 _ ⟨fun _ => none, fun _ => none⟩,
    runProg_runs RawKV (RawKV.env f) (RawKV.env_ok f) 20 _ ⟨fun _ => none, fun _ => none⟩, rfl⟩

/-! ### C06: loads and stores that overlap in time -/

/-- C06 in full: `store(k, v)` runs concurrently with any number of loads; once all have returned,
a load of `k` yields `v`. -/
def C06_Claim (cached : Bool) : Prop :=
  ∀ (k : Key) (v : JVal) (w w1 w2 : RawW) (ts t t' : List (Event RawSig Exn)) (loads : List (List (Event RawSig Exn)))
    (a : Option JVal),
    Coherent cached w →
    Exec (Storage.store cached k v) ts (.ok ()) →
    (∀ u ∈ loads, ∃ k' r, Exec (Storage.load cached k') u (.ok r)) →
    Shuffle (ts :: loads) t → RawKV.Runs w t w1 →
    Exec (Storage.load cached k) t' (.ok a) → RawKV.Runs w1 t' w2 →
    a = some v

/-- C06 is false of the code: a load that was in flight when the store ran overwrites the cache with
the old value, and from then on the stored value is invisible. -/
theorem C06_refuted : ¬ C06_Claim true := by
  intro h
  let k : Key := .ownDeviceId
  let e : ∀ o : ROp, o.Ret → Event RawSig Exn := fun o r => ⟨o, .ok r⟩
  have := h k .null ⟨fun _ => none, fun _ => none⟩ _ _
    [e (.rawStore k .null) (), e (.cacheSet k (some .null)) ()]
    [e (.cacheGet k) none, e (.rawLoad k) none, e (.rawStore k .null) (), e (.cacheSet k (some .null)) (),
      e (.cacheSet k none) ()]
    [e (.cacheGet k) (some none)]
    [[e (.cacheGet k) none, e (.rawLoad k) none, e (.cacheSet k none) ()]]
    none
    (fun _ _ _ h => by cases h)
    (.op _ (.op _ (.ret _)))
    (by
      intro u hu
      rw [List.mem_singleton] at hu
      subst hu
      exact ⟨k, none, .op _ (.op _ (.op _ (.ret _)))⟩)
    (by
      refine .cons (pre := [_]) (post := []) (.cons (pre := [_]) (post := []) ?_)
      refine .cons (pre := []) (post := [_]) (.cons (pre := []) (post := [_]) ?_)
      exact .cons (pre := [_]) (post := []) (.nil (by simp)))
    (by
      refine ⟨rfl, rfl, trivial, trivial, trivial, rfl⟩)
    (.op _ (.ret _))
    (by refine ⟨by simp [RawKV, e], rfl⟩)
  cases this

/-- The events of a load without cache. -/
theorem exec_load_uncached {k : Key} {t r} (h : Exec (Storage.load false k) t r) :
    ∀ e ∈ t, ∃ x, e = ⟨.rawLoad k, x⟩ := by
  cases h with
  | crash => simp
  | op x h =>
    have : ∀ (p : R (Option JVal)), (∀ o k, p ≠ .op o k) → ∀ u r, Exec p u r → u = [] := by
      intro p hp u r hu; cases hu <;> first | rfl | exact absurd rfl (hp _ _)
    have := this _ (by intro o k; cases x <;> simp) _ _ h
    subst this
    simp

/-- What does hold of C06 (1): without the cache the claim is true, for any number of concurrent loads. -/
theorem C06_uncached_partial : C06_Claim false := by
  intro k v w w1 w2 ts t t' loads a _ hs hl hsh hr he hr'
  have hts : ts = [⟨.rawStore k v, .ok ()⟩] := by
    cases hs with
    | op x h =>
      cases x with
      | ok u => cases h; rfl
      | error e => cases h
  have hdisk : w1.disk k = some v := by
    refine Sem.runs_set (fun w : RawW => w.disk k) (some v) hr ?_ (.inr ⟨⟨.rawStore k v, .ok ()⟩, ?_, ?_⟩)
    · intro e he
      obtain ⟨u, hu, he⟩ := (hsh.mem_iff e).1 he
      rcases List.mem_cons.1 hu with rfl | hu
      · rw [hts] at he
        simp only [List.mem_singleton] at he
        subst he
        exact .inl fun w => by simp [RawKV]
      · obtain ⟨k', r, hx⟩ := hl u hu
        obtain ⟨x, rfl⟩ := exec_load_uncached hx e he
        exact .inr fun w => by simp [RawKV]
    · exact (hsh.mem_iff _).2 ⟨ts, by simp, by simp [hts]⟩
    · intro w; simp [RawKV]
  cases he with
  | op x h =>
    cases x with
    | error e => cases h
    | ok b => cases h; rw [← hdisk]; exact hr'.1

/-- The events of a load with cache. -/
theorem exec_load_cached {k : Key} {t r} (h : Exec (Storage.load true k) t r) :
    ∀ e ∈ t, (∃ x, e = ⟨.cacheGet k, x⟩) ∨ (∃ x, e = ⟨.rawLoad k, x⟩) ∨ ∃ m x, e = ⟨.cacheSet k m, x⟩ := by
  have := wp_sound (M := .hist RawSig Exn) (w := []) (w' := t) (Q := fun _ h => ∀ e ∈ h,
    (∃ x, e = ⟨.cacheGet k, x⟩) ∨ (∃ x, e = ⟨.rawLoad k, x⟩) ∨ ∃ m x, e = ⟨.cacheSet k m, x⟩) ?_ h
    (Sem.runs_hist.2 (by simp))
  · exact this
  · unfold Storage.load
    simp only [if_true]; wpsimp
    refine ⟨by simp, fun a _ => ?_, by simp [Sem.hist]⟩
    cases a with
    | some m => simp [Sem.hist]
    | none => wpsimp; simp [Sem.hist]

/-- What does hold of C06 (2): with the cache the claim is true if the concurrent loads are for other keys. -/
theorem C06_other_keys_partial (k : Key) (v : JVal) (w w1 w2 : RawW) (ts t t' : List (Event RawSig Exn))
    (loads : List (List (Event RawSig Exn))) (a : Option JVal)
    (hs : Exec (Storage.store true k v) ts (.ok ()))
    (hl : ∀ u ∈ loads, ∃ k' r, k' ≠ k ∧ Exec (Storage.load true k') u (.ok r))
    (hsh : Shuffle (ts :: loads) t) (hr : RawKV.Runs w t w1)
    (he : Exec (Storage.load true k) t' (.ok a)) (hr' : RawKV.Runs w1 t' w2) :
    a = some v := by
  have hts : ts = [⟨.rawStore k v, .ok ()⟩, ⟨.cacheSet k (some v), .ok ()⟩] := by
    cases hs with
    | op x h =>
      cases x with
      | error e => cases h
      | ok u =>
        cases h with
        | op y h =>
          cases y with
          | error e => cases h
          | ok u => cases h; rfl
  have hcache : w1.cache k = some (some v) := by
    refine Sem.runs_set (fun w : RawW => w.cache k) _ hr ?_ (.inr ⟨⟨.cacheSet k (some v), .ok ()⟩, ?_, ?_⟩)
    · intro e he
      obtain ⟨u, hu, he⟩ := (hsh.mem_iff e).1 he
      rcases List.mem_cons.1 hu with rfl | hu
      · rw [hts] at he
        simp only [List.mem_cons, List.not_mem_nil, or_false] at he
        rcases he with rfl | rfl
        · exact .inr fun w => by simp [RawKV]
        · exact .inl fun w => by simp [RawKV]
      · obtain ⟨k', r, hk, hx⟩ := hl u hu
        rcases exec_load_cached hx e he with ⟨x, rfl⟩ | ⟨x, rfl⟩ | ⟨m, x, rfl⟩
        · exact .inr fun w => by simp [RawKV]
        · exact .inr fun w => by simp [RawKV]
        · right; intro w
          cases x with
          | ok u => simp [RawKV, Ne.symm hk]
          | error e => simp [RawKV]
    · exact (hsh.mem_iff _).2 ⟨ts, by simp, by simp [hts]⟩
    · intro w; simp [RawKV]
  cases he with
  | op x h =>
    cases x with
    | error e => cases h
    | ok b =>
      have hb : b = some (some v) := by rw [← hcache]; exact hr'.1
      subst hb
      cases h
      rfl

/-- The hypotheses of `C06_other_keys_partial` are met by a store with an overlapping load of another key. -/
example : ∃ w1 w2 ts t t' loads a,
    Exec (Storage.store true .ownDeviceId .null) ts (.ok ()) ∧
    (∀ u ∈ loads, ∃ k' r, k' ≠ Key.ownDeviceId ∧ Exec (Storage.load true k') u (.ok r)) ∧
    Shuffle (ts :: loads) t ∧ loads ≠ [] ∧ RawKV.Runs ⟨fun _ => none, fun _ => none⟩ t w1 ∧
    Exec (Storage.load true .ownDeviceId) t' (.ok a) ∧ RawKV.Runs w1 t' w2 := by
  let k : Key := .ownDeviceId
  let k' : Key := .ikpKey
  let e : ∀ o : ROp, o.Ret → Event RawSig Exn := fun o r => ⟨o, .ok r⟩
  refine ⟨_, _, [e (.rawStore k .null) (), e (.cacheSet k (some .null)) ()],
    [e (.cacheGet k') none, e (.rawLoad k') none, e (.rawStore k .null) (), e (.cacheSet k (some .null)) (),
      e (.cacheSet k' none) ()],
    [e (.cacheGet k) (some (some .null))],
    [[e (.cacheGet k') none, e (.rawLoad k') none, e (.cacheSet k' none) ()]],
    _, .op _ (.op _ (.ret _)), ?_, ?_, by simp, ⟨rfl, rfl, trivial, trivial, trivial, rfl⟩, .op _ (.ret _), ?_, rfl⟩
  · intro u hu
    rw [List.mem_singleton] at hu
    subst hu
    exact ⟨k', none, by simp [k'], .op _ (.op _ (.op _ (.ret _)))⟩
  · refine .cons (pre := [_]) (post := []) (.cons (pre := [_]) (post := []) ?_)
    refine .cons (pre := []) (post := [_]) (.cons (pre := []) (post := [_]) ?_)
    exact .cons (pre := [_]) (post := []) (.nil (by simp))
  · simp [RawKV, e, k, k']

end Verif
