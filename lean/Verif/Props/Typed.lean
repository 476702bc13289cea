import Verif.Proofs.StorageCache
import Verif.Proofs.Base64
import Verif.Spec.Typed
/-
C02, C03: typed loads, bytes.
-/
namespace Verif
open Spec

/-! ### C02: typed loads return only values of the requested type -/

theorem isInstance_iff (v : JVal) (ty : PyType) : isInstance v ty = true ↔ HasType ty v := by
  constructor
  · cases v <;> cases ty <;> intro h <;> first | (cases h; done) | constructor
  · intro h; cases h <;> rfl

/-- Any load followed by a check of the value. -/
theorem typed_load {β : Type} (cached : Bool) (k : Key) (w w' : RawW) (t : List (Event RawSig Exn))
    (f : JVal → Except Exn β) (r : Res Exn (Option β)) (hc : Coherent cached w)
    (hexec : Exec ((Storage.load cached k).bind (Maybe.fmap f)) t r) (hruns : RawKV.Runs w t w') :
    r = .crashed ∨ (∃ e, ⟨ROp.rawLoad k, .error e⟩ ∈ t ∧ r = .raised e) ∨
      (w.disk k = none ∧ r = .ok none) ∨
      (∃ v, w.disk k = some v ∧ ∃ b, f v = .ok b ∧ r = .ok (some b)) ∨
      (∃ v, w.disk k = some v ∧ ∃ e, f v = .error e ∧ r = .raised e) := by
  have hfm : ∀ o : Option JVal, o = w.disk k → ∀ r (u : List (Event RawSig Exn)), Exec (Maybe.fmap f o) u r →
      (w.disk k = none ∧ r = .ok none) ∨
      (∃ v, w.disk k = some v ∧ ∃ b, f v = .ok b ∧ r = .ok (some b)) ∨
      (∃ v, w.disk k = some v ∧ ∃ e, f v = .error e ∧ r = .raised e) := by
    intro o ho r u he
    cases o with
    | none => cases he; exact .inl ⟨ho.symm, rfl⟩
    | some v =>
      simp only [Maybe.fmap] at he
      cases hf : f v with
      | ok b => rw [hf] at he; cases he; exact .inr (.inl ⟨v, ho.symm, b, hf, rfl⟩)
      | error e => rw [hf] at he; cases he; exact .inr (.inr ⟨v, ho.symm, e, hf, rfl⟩)
  rcases exec_bind_iff.1 hexec with ⟨t1, a, t2, rfl, h1, h2⟩ | ⟨e, h1, rfl⟩ | ⟨h1, rfl⟩
  · obtain ⟨w1, hr1, _⟩ := Sem.runs_append.1 hruns
    have ha : a = w.disk k := wp_sound (Q := fun r _ => ∀ a, r = .ok a → a = w.disk k)
      (wp_load hc (fun _ _ _ a h => by cases h; rfl) (fun _ _ _ h => by cases h) (fun _ _ _ h => by cases h)) h1 hr1 a rfl
    exact .inr (.inr (hfm a ha _ _ h2))
  · refine .inr (.inl ⟨e, ?_, rfl⟩)
    clear hexec hfm
    unfold Storage.load at h1
    cases cached with
    | false =>
      cases h1 with
      | op x h =>
        cases x with
        | ok a => cases h
        | error e' => cases h; simp
    | true =>
      cases h1 with
      | op x h =>
        cases x with
        | error e' => exact absurd hruns.1 (by simp [RawKV])
        | ok c =>
          cases c with
          | some m => cases h
          | none =>
            cases h with
            | op x h =>
              cases x with
              | error e' => cases h; simp
              | ok a =>
                cases h with
                | op x h =>
                  cases x with
                  | error e' => exact absurd hruns.2.2.1 (by simp [RawKV])
                  | ok a => cases h
  · exact .inl rfl

/-- A check that is exact for `good` and raises `TypeError` otherwise gives a typed load. -/
theorem typed_load_spec {β : Type} (cached : Bool) (k : Key) (w w' : RawW) (t : List (Event RawSig Exn))
    (f : JVal → Except Exn β) (good : JVal → β → Prop) (r : Res Exn (Option β)) (hc : Coherent cached w)
    (hf : ∀ v, (∃ b, f v = .ok b ∧ good v b) ∨ (f v = .error .typeError ∧ ∀ b, ¬ good v b))
    (hexec : Exec ((Storage.load cached k).bind (Maybe.fmap f)) t r) (hruns : RawKV.Runs w t w') :
    r = .crashed ∨ (∃ e, ⟨ROp.rawLoad k, .error e⟩ ∈ t ∧ r = .raised e) ∨ TypedLoad good (w.disk k) r := by
  rcases typed_load cached k w w' t f r hc hexec hruns with h | h | ⟨h, rfl⟩ | ⟨v, h, b, hb, rfl⟩ | ⟨v, h, e, he, rfl⟩
  · exact .inl h
  · exact .inr (.inl h)
  · exact .inr (.inr (h ▸ .nothing))
  · rcases hf v with ⟨b', hb', hg⟩ | ⟨hb', _⟩
    · rw [hb] at hb'; cases hb'; exact .inr (.inr (h ▸ .value hg))
    · rw [hb] at hb'; cases hb'
  · rcases hf v with ⟨b', hb', hg⟩ | ⟨hb', hg⟩
    · rw [he] at hb'; cases hb'
    · rw [he] at hb'; cases hb'; exact .inr (.inr (h ▸ .bad hg))

/-- C02 for `load_primitive`: for every content of the storage, every state of the cache and every requested
type.  An exception of the underlying storage is passed on. -/
theorem C02_load_primitive (cached : Bool) (k : Key) (ty : PyType) (w w' : RawW) (t : List (Event RawSig Exn))
    (r : Res Exn (Option JVal)) (hc : Coherent cached w)
    (hexec : Exec (Storage.loadPrimitive cached k ty) t r) (hruns : RawKV.Runs w t w') :
    r = .crashed ∨ (∃ e, ⟨ROp.rawLoad k, .error e⟩ ∈ t ∧ r = .raised e) ∨
      TypedLoad (fun v b => b = v ∧ HasType ty v) (w.disk k) r := by
  refine typed_load_spec cached k w w' t (checkPrimitive ty) _ r hc (fun v => ?_) hexec hruns
  unfold checkPrimitive
  by_cases h : isInstance v ty = true
  · exact .inl ⟨v, by simp [h], rfl, (isInstance_iff v ty).1 h⟩
  · exact .inr ⟨by simp [h], fun b hb => h ((isInstance_iff v ty).2 hb.2)⟩

/-- C02 for `load_optional`: additionally a stored `None` is returned as such, which is different from `Nothing`. -/
theorem C02_load_optional (cached : Bool) (k : Key) (ty : PyType) (w w' : RawW) (t : List (Event RawSig Exn))
    (r : Res Exn (Option JVal)) (hc : Coherent cached w)
    (hexec : Exec (Storage.loadOptional cached k ty) t r) (hruns : RawKV.Runs w t w') :
    r = .crashed ∨ (∃ e, ⟨ROp.rawLoad k, .error e⟩ ∈ t ∧ r = .raised e) ∨
      TypedLoad (fun v b => b = v ∧ (v = .null ∨ HasType ty v)) (w.disk k) r := by
  refine typed_load_spec cached k w w' t (checkOptional ty) _ r hc (fun v => ?_) hexec hruns
  by_cases hn : v = .null
  · subst hn; exact .inl ⟨.null, rfl, rfl, .inl rfl⟩
  · have hd : checkOptional ty v = if isInstance v ty then .ok v else .error .typeError := by
      cases v <;> first | rfl | exact absurd rfl hn
    rw [hd]
    by_cases h : isInstance v ty = true
    · exact .inl ⟨v, by simp [h], rfl, .inr ((isInstance_iff v ty).1 h)⟩
    · exact .inr ⟨by simp [h], fun b hb => hb.2.elim hn fun hb => h ((isInstance_iff v ty).2 hb)⟩

/-- C02 for `load_list`. -/
theorem C02_load_list (cached : Bool) (k : Key) (ty : PyType) (w w' : RawW) (t : List (Event RawSig Exn))
    (r : Res Exn (Option (List JVal))) (hc : Coherent cached w)
    (hexec : Exec (Storage.loadList cached k ty) t r) (hruns : RawKV.Runs w t w') :
    r = .crashed ∨ (∃ e, ⟨ROp.rawLoad k, .error e⟩ ∈ t ∧ r = .raised e) ∨
      TypedLoad (fun v l => v = .list l ∧ ∀ x ∈ l, HasType ty x) (w.disk k) r := by
  refine typed_load_spec cached k w w' t (checkList ty) _ r hc (fun v => ?_) hexec hruns
  cases v with
  | list l =>
    unfold checkList
    by_cases h : l.all (isInstance · ty) = true
    · exact .inl ⟨l, by simp only [h, if_true], rfl, fun x hx => (isInstance_iff x ty).1 (List.all_eq_true.1 h x hx)⟩
    · refine .inr ⟨by simp only [h, Bool.false_eq_true, if_false], ?_⟩
      rintro b ⟨hb, hx⟩
      cases hb
      exact h (List.all_eq_true.2 fun x hm => (isInstance_iff x ty).2 (hx x hm))
  | _ => exact .inr ⟨rfl, fun b hb => by cases hb.1⟩

/-- C02 for `load_dict`. -/
theorem C02_load_dict (cached : Bool) (k : Key) (ty : PyType) (w w' : RawW) (t : List (Event RawSig Exn))
    (r : Res Exn (Option (Dict String JVal))) (hc : Coherent cached w)
    (hexec : Exec (Storage.loadDict cached k ty) t r) (hruns : RawKV.Runs w t w') :
    r = .crashed ∨ (∃ e, ⟨ROp.rawLoad k, .error e⟩ ∈ t ∧ r = .raised e) ∨
      TypedLoad (fun v l => v = .dict l ∧ ∀ x ∈ l, HasType ty x.2) (w.disk k) r := by
  refine typed_load_spec cached k w w' t (checkDict ty) _ r hc (fun v => ?_) hexec hruns
  cases v with
  | dict l =>
    unfold checkDict
    by_cases h : l.all (fun x => isInstance x.2 ty) = true
    · exact .inl ⟨l, by simp only [h, if_true], rfl, fun x hx => (isInstance_iff x.2 ty).1 (List.all_eq_true.1 h x hx)⟩
    · refine .inr ⟨by simp only [h, Bool.false_eq_true, if_false], ?_⟩
      rintro b ⟨hb, hx⟩
      cases hb
      exact h (List.all_eq_true.2 fun x hm => (isInstance_iff x.2 ty).2 (hx x hm))
  | _ => exact .inr ⟨rfl, fun b hb => by cases hb.1⟩

/-- C02 for `load_bytes`: nothing, the decoded bytes of a string, `TypeError` if the value is not a string, and
(not a type error) `ValueError` if it is a string that is not base64. -/
theorem C02_load_bytes (cached : Bool) (k : Key) (w w' : RawW) (t : List (Event RawSig Exn))
    (r : Res Exn (Option Bytes)) (hc : Coherent cached w)
    (hexec : Exec (Storage.loadBytes cached k) t r) (hruns : RawKV.Runs w t w') :
    r = .crashed ∨ (∃ e, ⟨ROp.rawLoad k, .error e⟩ ∈ t ∧ r = .raised e) ∨
      (w.disk k = none ∧ r = .ok none) ∨
      (∃ s b, w.disk k = some (.str s) ∧ Base64.decode s = some b ∧ r = .ok (some b)) ∨
      (∃ s, w.disk k = some (.str s) ∧ Base64.decode s = none ∧ r = .raised .valueError) ∨
      (∃ v, w.disk k = some v ∧ (¬ HasType .str v) ∧ r = .raised .typeError) := by
  rcases typed_load cached k w w' t checkBytes r hc hexec hruns with h | h | h | ⟨v, h, b, hb, rfl⟩ | ⟨v, h, e, he, rfl⟩
  · exact .inl h
  · exact .inr (.inl h)
  · exact .inr (.inr (.inl h))
  · cases v with
    | str s =>
      simp only [checkBytes] at hb
      cases hd : Base64.decode s with
      | none => rw [hd] at hb; cases hb
      | some b' => rw [hd] at hb; cases hb; exact .inr (.inr (.inr (.inl ⟨s, _, h, hd, rfl⟩)))
    | _ => cases hb
  · cases v with
    | str s =>
      simp only [checkBytes] at he
      cases hd : Base64.decode s with
      | some b' => rw [hd] at he; cases he
      | none => rw [hd] at he; cases he; exact .inr (.inr (.inr (.inr (.inl ⟨s, h, hd, rfl⟩))))
    | _ => cases he; exact .inr (.inr (.inr (.inr (.inr ⟨_, h, (fun hh => by cases hh), rfl⟩))))

/-- The hypotheses of C02 are met: a bool where an int is requested is accepted, with a cold cache. -/
example : ∃ t w', Exec (Storage.loadPrimitive true .ownDeviceId .int) t (.ok (some (.bool true))) ∧
    RawKV.Runs ⟨fun _ => some (.bool true), fun _ => none⟩ t w' :=
  let f := fun o : Op => (.error (.app 0) : Except Exn o.Ret)
  ⟨_, _, runProg_exec (RawKV.env f) RawKV.next 20 _ ⟨fun _ => some (.bool true), fun _ => none⟩,
    runProg_runs RawKV (RawKV.env f) (RawKV.env_ok f) 20 _ ⟨fun _ => some (.bool true), fun _ => none⟩⟩

/-- The hypotheses of C02 are met: a list with one wrong element is rejected. -/
example : ∃ t w', Exec (Storage.loadList true .ownDeviceId .str) t (.raised .typeError) ∧
    RawKV.Runs ⟨fun _ => some (.list [.str "a", .int 1]), fun _ => none⟩ t w' :=
  let f := fun o : Op => (.error (.app 0) : Except Exn o.Ret)
  ⟨_, _, runProg_exec (RawKV.env f) RawKV.next 20 _ ⟨fun _ => some (.list [.str "a", .int 1]), fun _ => none⟩,
    runProg_runs RawKV (RawKV.env f) (RawKV.env_ok f) 20 _ ⟨fun _ => some (.list [.str "a", .int 1]), fun _ => none⟩⟩

/-! ### C03: bytes stored are the bytes loaded -/

/-- C03.  Store bytes, then load them, with or without cache, whatever was stored before: the same bytes come
back, or the storage raised an exception. -/
theorem C03_bytes_round_trip (cached : Bool) (k : Key) (b : Bytes) (w w' : RawW) (t : List (Event RawSig Exn))
    (r : Option Bytes) (hc : Coherent cached w)
    (hexec : Exec ((Storage.storeBytes cached k b).bind fun _ => Storage.loadBytes cached k) t (.ok r))
    (hruns : RawKV.Runs w t w') : r = some b := by
  refine wp_sound (M := RawKV) (Q := fun r _ => ∀ x, r = .ok x → x = some b) ?_ hexec hruns r rfl
  simp only [wp_bind_def, Storage.storeBytes]
  refine wp_store hc (fun w1 hd hc1 => ?_) (fun e _ x h => by cases h) (fun w _ x h => by cases h)
  simp only [andThen_ok, Storage.loadBytes, wp_bind]
  refine wp_load hc1 (fun w2 hd2 hc2 => ?_) (fun e _ x h => by cases h) (fun w _ x h => by cases h)
  simp only [andThen_ok, hd, Disk.upd_self, Maybe.fmap, checkBytes, Base64.decode_encode, wp_ret]
  intro x h; cases h; rfl

/-- C03, whatever the outcome: unless the underlying storage raised an exception of its own, the bytes that come back are those stored.  In
particular what `store_bytes` writes is never rejected by `load_bytes`. -/
theorem C03_outcome (cached : Bool) (k : Key) (b : Bytes) (w w' : RawW) (t : List (Event RawSig Exn))
    (r : Res Exn (Option Bytes)) (hc : Coherent cached w)
    (hexec : Exec ((Storage.storeBytes cached k b).bind fun _ => Storage.loadBytes cached k) t r) (hruns : RawKV.Runs w t w') :
    r = .crashed ∨ (∃ e, ((∃ v, ⟨ROp.rawStore k v, .error e⟩ ∈ t) ∨ ⟨ROp.rawLoad k, .error e⟩ ∈ t) ∧ r = .raised e) ∨ r = .ok (some b) := by
  rcases exec_bind_iff.1 hexec with ⟨t1, a, t2, rfl, h1, h2⟩ | ⟨e, h1, rfl⟩ | ⟨h1, rfl⟩
  · obtain ⟨w1, hr1, hr2⟩ := Sem.runs_append.1 hruns
    have hd := wp_sound (Q := fun r w1 => r = .ok () → w1.disk k = some (.str (Base64.encode b)) ∧ Coherent cached w1)
      (wp_store hc (fun w1 hd hc1 _ => ⟨by rw [hd, Disk.upd_self], hc1⟩) (fun _ _ h => by cases h) (fun _ _ h => by cases h)) h1 hr1 rfl
    rcases C02_load_bytes cached k w1 w' t2 r hd.2 h2 hr2 with h | ⟨e, he, h⟩ | ⟨h, -⟩ | ⟨s, c, h, hs, h'⟩ | ⟨s, h, hs, -⟩ | ⟨v, h, hv, -⟩
    · exact .inl h
    · exact .inr (.inl ⟨e, .inr (List.mem_append_right _ he), h⟩)
    · rw [hd.1] at h; cases h
    · rw [hd.1] at h; cases h
      rw [Base64.decode_encode] at hs; cases hs
      exact .inr (.inr h')
    · rw [hd.1] at h; cases h
      rw [Base64.decode_encode] at hs; cases hs
    · rw [hd.1] at h; cases h
      exact absurd (.str _) hv
  · refine .inr (.inl ⟨e, .inl ?_, rfl⟩)
    clear hexec
    unfold Storage.storeBytes Storage.store at h1
    cases h1 with
    | op x h =>
      cases x with
      | error e' => cases h; exact ⟨_, by simp; rfl⟩
      | ok a =>
        cases cached with
        | false => cases h
        | true =>
          cases h with
          | op x h =>
            cases x with
            | error e' => exact absurd hruns.2.1 (by simp [RawKV])
            | ok a => cases h
  · exact .inl rfl

/-- C03, second half: every string `store_bytes` hands to the underlying storage consists of letters, digits, `-`
and `_`, and padding `=`. -/
theorem C03_url_safe (cached : Bool) (k : Key) (b : Bytes) (t : List (Event RawSig Exn)) (r : Res Exn Unit)
    (hexec : Exec (Storage.storeBytes cached k b) t r) (k' : Key) (v : JVal) (x : Except Exn Unit)
    (hmem : (⟨.rawStore k' v, x⟩ : Event RawSig Exn) ∈ t) :
    k' = k ∧ ∃ s : String, v = .str s ∧ ∀ c ∈ s.toList,
      c ∈ "ABCDEFGHIJKLMNOPQRSTUVWXYZabcdefghijklmnopqrstuvwxyz0123456789-_=".toList := by
  have : k' = k ∧ v = .str (Base64.encode b) := by
    refine wp_sound (M := .hist RawSig Exn) (w := []) (w' := t) (Q := fun _ h => ∀ k' v x,
      (⟨.rawStore k' v, x⟩ : Event RawSig Exn) ∈ h → k' = k ∧ v = .str (Base64.encode b)) ?_ hexec
      (Sem.runs_hist.2 (by simp)) k' v x hmem
    unfold Storage.storeBytes Storage.store
    cases cached <;> simp only [Bool.false_eq_true, if_false, if_true] <;> wpsimp <;>
      simp [Sem.hist]
    all_goals (repeat' apply And.intro) <;> intros <;> simp_all
  refine ⟨this.1, _, this.2, fun c hc => ?_⟩
  unfold Base64.encode at hc
  rw [String.toList_ofList] at hc
  have key : ∀ c ∈ Base64.urlSafe ++ ['='],
      c ∈ "ABCDEFGHIJKLMNOPQRSTUVWXYZabcdefghijklmnopqrstuvwxyz0123456789-_=".toList := by decide +kernel
  refine key c (List.mem_append.2 ?_)
  rcases Base64.encodeChars_urlSafe b c hc with h | h
  · exact .inl h
  · exact .inr (by simp [h])

/-- The hypotheses of C03 are met, over an existing value of another type. -/
example : ∃ t r w', Exec ((Storage.storeBytes true .ikpKey [255, 0, 7, 9]).bind fun _ => Storage.loadBytes true .ikpKey) t (.ok r) ∧
    RawKV.Runs ⟨fun _ => some .null, fun _ => none⟩ t w' :=
  let f := fun o : Op => (.error (.app 0) : Except Exn o.Ret)
  ⟨_, _, _, runProg_exec (RawKV.env f) RawKV.next 20 _ ⟨fun _ => some .null, fun _ => none⟩,
    runProg_runs RawKV (RawKV.env f) (RawKV.env_ok f) 20 _ ⟨fun _ => some .null, fun _ => none⟩⟩

end Verif
