import Verif.Model.Heap
/-
C05: in-place mutation does not reach the data kept by a storage.
-/
namespace Verif.Heap

/-- Specification.  `m k`: what the storage holds for `k` as far as known; `hs`: the contents of the `Maybe` objects in order
of creation.  The first load of an unknown key fixes it; from then on only writes change it. -/
def Isolated : (Key → Option (Option Val)) → List (Option Val) → List Obs → Prop
  | _, _, [] => True
  | m, hs, .stored k v :: t => Isolated (fun k' => if k' = k then some (some v) else m k') hs t
  | m, hs, .deleted k :: t => Isolated (fun k' => if k' = k then some none else m k') hs t
  | m, hs, .loaded k v :: t => (∀ u, m k = some u → v = u) ∧
      Isolated (fun k' => if k' = k then some v else m k') (hs ++ [v]) t
  | m, hs, .wrapped v :: t => Isolated m (hs ++ [some v]) t
  | m, hs, .unwrapped i v :: t => hs[i]? = some (some v) ∧ Isolated m hs t
  | m, hs, .silent :: t => Isolated m hs t

/-- All references lead to objects. -/
def Closed (h : Heap) : Prop := ∀ (a : Nat) (o : Obj), h[a]? = some o → ∀ c ∈ o.kids, c < h.length

theorem view_append {h h' : Heap} (hc : Closed h) (n : Nat) (a : Nat) (ha : a < h.length) :
    view (h ++ h') n a = view h n a := by
  induction n generalizing a with
  | zero => rfl
  | succ n ih =>
    simp only [view, List.getElem?_append_left ha]
    cases ho : h[a]? with
    | none => rfl
    | some o =>
      simp only [Tree.node.injEq, true_and]
      exact List.map_congr_left fun c hcm => ih c (hc a o ho c hcm)

theorem view_shift (h : Heap) (n : Nat) (a : Nat) :
    view (h ++ h.map (Obj.shift h.length)) n (a + h.length) = view h n a := by
  induction n generalizing a with
  | zero => rfl
  | succ n ih =>
    simp only [view]
    rw [List.getElem?_append_right (by omega), Nat.add_sub_cancel, List.getElem?_map]
    cases h[a]? with
    | none => rfl
    | some o =>
      simp only [Option.map_some, Obj.shift, List.map_map, Tree.node.injEq, true_and]
      exact List.map_congr_left fun c _ => ih c

theorem closed_copy {h : Heap} (hc : Closed h) : Closed (h ++ h.map (Obj.shift h.length)) := by
  intro a o ho c hcm
  rw [List.length_append, List.length_map]
  by_cases ha : a < h.length
  · rw [List.getElem?_append_left ha] at ho
    have := hc a o ho c hcm
    omega
  · rw [List.getElem?_append_right (by omega), List.getElem?_map] at ho
    cases h' : h[a - h.length]? with
    | none => simp [h'] at ho
    | some o' =>
      rw [h', Option.map_some, Option.some.injEq] at ho
      subst ho
      simp only [Obj.shift, List.mem_map] at hcm
      obtain ⟨c', hc', rfl⟩ := hcm
      have := hc _ _ h' c' hc'
      omega

/-- The invariant: there is a private part of the heap, closed under following references and not reachable from outside,
that contains everything the cache and the `Maybe` objects refer to; and these still have their recorded values. -/
structure Inv (s : St) (m : Key → Option (Option Val)) (hs : List (Option Val)) (priv : Nat → Prop) : Prop where
  closed : Closed s.heap
  privClosed : ∀ a o, s.heap[a]? = some o → priv a → ∀ c ∈ o.kids, priv c
  pubClosed : ∀ a o, s.heap[a]? = some o → ¬ priv a → ∀ c ∈ o.kids, ¬ priv c
  roots : ∀ a ∈ s.roots, ¬ priv a ∧ a < s.heap.length
  cachePriv : ∀ k a, s.cache k = some (some a) → priv a ∧ a < s.heap.length
  maybePriv : ∀ a, some a ∈ s.maybes → priv a ∧ a < s.heap.length
  cacheVal : ∀ k r, s.cache k = some r → m k = some (r.map (value s.heap))
  cacheNone : ∀ k, s.cache k = none → m k = none
  maybeVal : hs = s.maybes.reverse.map (Option.map (value s.heap))

/-- Values of private objects do not depend on public ones. -/
theorem view_private {h h' : Heap} {priv : Nat → Prop} (heq : ∀ a, priv a → h'[a]? = h[a]?)
    (hp : ∀ a o, h[a]? = some o → priv a → ∀ c ∈ o.kids, priv c) (n : Nat) (a : Nat) (ha : priv a) :
    view h' n a = view h n a := by
  induction n generalizing a with
  | zero => rfl
  | succ n ih =>
    simp only [view, heq a ha]
    cases ho : h[a]? with
    | none => rfl
    | some o =>
      simp only [Tree.node.injEq, true_and]
      exact List.map_congr_left fun c hcm => ih c (hp a o ho ha c hcm)

theorem map_value_congr {l : List MaybeRef} {h h' : Heap}
    (hv : ∀ a, some a ∈ l → value h' a = value h a) :
    l.map (Option.map (value h')) = l.map (Option.map (value h)) := by
  apply List.map_congr_left
  intro x hx
  cases x with
  | none => rfl
  | some a => simp [hv a hx]

/-- If the private part is unchanged, recorded values stay right. -/
theorem Inv.keep {s s' : St} {m hs priv} (hi : Inv s m hs priv)
    (hcache : s'.cache = s.cache) (hmay : s'.maybes = s.maybes) (hlen : s.heap.length ≤ s'.heap.length)
    (hval : ∀ a, priv a → a < s.heap.length → value s'.heap a = value s.heap a)
    (hclosed : Closed s'.heap)
    (hp : ∀ a o, s'.heap[a]? = some o → priv a → ∀ c ∈ o.kids, priv c)
    (hq : ∀ a o, s'.heap[a]? = some o → ¬ priv a → ∀ c ∈ o.kids, ¬ priv c)
    (hr : ∀ a ∈ s'.roots, ¬ priv a ∧ a < s'.heap.length) : Inv s' m hs priv where
  closed := hclosed
  privClosed := hp
  pubClosed := hq
  roots := hr
  cachePriv k a h := by rw [hcache] at h; have := hi.cachePriv k a h; exact ⟨this.1, by omega⟩
  maybePriv a h := by rw [hmay] at h; have := hi.maybePriv a h; exact ⟨this.1, by omega⟩
  cacheVal k r h := by
    rw [hcache] at h
    rw [hi.cacheVal k r h]
    cases r with
    | none => rfl
    | some a =>
      have := hi.cachePriv k a h
      simp [hval a this.1 this.2]
  cacheNone k h := hi.cacheNone k (by rw [hcache] at h; exact h)
  maybeVal := by
    rw [hi.maybeVal, hmay]
    refine (map_value_congr fun a ha => ?_).symm
    have := hi.maybePriv a (List.mem_reverse.1 ha)
    exact hval a this.1 this.2

/-- After a deep copy, with the copy counted as private or as public (`b`). -/
def privCopy (priv : Nat → Prop) (n : Nat) (b : Prop) : Nat → Prop := fun a => (a < n ∧ priv a) ∨ (n ≤ a ∧ b)

theorem Inv.copy {s : St} {m hs priv} (hi : Inv s m hs priv) (b : Prop) :
    Inv { s with heap := s.heap ++ s.heap.map (Obj.shift s.heap.length) } m hs (privCopy priv s.heap.length b) := by
  have hrest : ∀ a, a < s.heap.length → (privCopy priv s.heap.length b a ↔ priv a) := by
    intro a ha; unfold privCopy; constructor
    · rintro (h | h)
      · exact h.2
      · omega
    · exact fun h => .inl ⟨ha, h⟩
  have hnew : ∀ a, s.heap.length ≤ a → (privCopy priv s.heap.length b a ↔ b) := by
    intro a ha; unfold privCopy; constructor
    · rintro (h | h)
      · omega
      · exact h.2
    · exact fun h => .inr ⟨ha, h⟩
  have hkids : ∀ a o, (s.heap ++ s.heap.map (Obj.shift s.heap.length))[a]? = some o →
      (a < s.heap.length ∧ s.heap[a]? = some o) ∨ (s.heap.length ≤ a ∧ ∀ c ∈ o.kids, s.heap.length ≤ c) := by
    intro a o ho
    by_cases ha : a < s.heap.length
    · rw [List.getElem?_append_left ha] at ho; exact .inl ⟨ha, ho⟩
    · rw [List.getElem?_append_right (by omega), List.getElem?_map] at ho
      refine .inr ⟨by omega, ?_⟩
      cases h' : s.heap[a - s.heap.length]? with
      | none => simp [h'] at ho
      | some o' =>
        rw [h', Option.map_some, Option.some.injEq] at ho
        subst ho
        intro c hc
        simp only [Obj.shift, List.mem_map] at hc
        obtain ⟨c', _, rfl⟩ := hc
        omega
  have hlen : s.heap.length ≤ (s.heap ++ s.heap.map (Obj.shift s.heap.length)).length := by simp
  have hval : ∀ a, a < s.heap.length → value (s.heap ++ s.heap.map (Obj.shift s.heap.length)) a = value s.heap a :=
    fun a ha => funext fun n => view_append hi.closed n a ha
  constructor
  · exact closed_copy hi.closed
  · intro a o ho hp c hc
    rcases hkids a o ho with ⟨ha, ho⟩ | ⟨ha, hk⟩
    · rw [hrest a ha] at hp
      exact (hrest c (hi.closed a o ho c hc)).2 (hi.privClosed a o ho hp c hc)
    · rw [hnew a ha] at hp
      exact (hnew c (hk c hc)).2 hp
  · intro a o ho hp c hc
    rcases hkids a o ho with ⟨ha, ho⟩ | ⟨ha, hk⟩
    · rw [hrest a ha] at hp
      rw [hrest c (hi.closed a o ho c hc)]
      exact hi.pubClosed a o ho hp c hc
    · rw [hnew a ha] at hp
      rw [hnew c (hk c hc)]
      exact hp
  · intro a ha
    have := hi.roots a ha
    rw [hrest a this.2]
    exact ⟨this.1, Nat.lt_of_lt_of_le this.2 hlen⟩
  · intro k a h
    have := hi.cachePriv k a h
    rw [hrest a this.2]
    exact ⟨this.1, Nat.lt_of_lt_of_le this.2 hlen⟩
  · intro a h
    have := hi.maybePriv a h
    rw [hrest a this.2]
    exact ⟨this.1, Nat.lt_of_lt_of_le this.2 hlen⟩
  · intro k r h
    rw [hi.cacheVal k r h]
    cases r with
    | none => rfl
    | some a => simp [hval a (hi.cachePriv k a h).2]
  · exact hi.cacheNone
  · rw [hi.maybeVal]
    exact (map_value_congr fun a ha => hval a (hi.maybePriv a (List.mem_reverse.1 ha)).2).symm

/-- Put a private reference into the cache. -/
theorem Inv.setCache {s : St} {m hs priv} (hi : Inv s m hs priv) (k : Key) (r : MaybeRef) (v : Option Val)
    (hr : ∀ a, r = some a → priv a ∧ a < s.heap.length) (hv : v = r.map (value s.heap)) :
    Inv { s with cache := fun k' => if k' = k then some r else s.cache k' }
      (fun k' => if k' = k then some v else m k') hs priv := by
  refine { hi with cachePriv := ?_, cacheVal := ?_, cacheNone := ?_ }
  · intro k' a h
    simp only at h
    split at h
    · cases h; exact hr a rfl
    · exact hi.cachePriv k' a h
  · intro k' r' h
    simp only at h ⊢
    split at h
    · next hk => cases h; rw [if_pos hk, hv]
    · next hk => rw [if_neg hk]; exact hi.cacheVal k' r' h
  · intro k' h
    simp only at h ⊢
    split at h
    · cases h
    · next hk => rw [if_neg hk]; exact hi.cacheNone k' h

/-- Hand out a `Maybe` object with a private reference. -/
theorem Inv.addMaybe {s : St} {m hs priv} (hi : Inv s m hs priv) (r : MaybeRef) (v : Option Val)
    (hr : ∀ a, r = some a → priv a ∧ a < s.heap.length) (hv : v = r.map (value s.heap)) :
    Inv { s with maybes := r :: s.maybes } m (hs ++ [v]) priv := by
  refine { hi with maybePriv := ?_, maybeVal := ?_ }
  · intro a h
    simp only [List.mem_cons] at h
    rcases h with h | h
    · exact hr a h.symm
    · exact hi.maybePriv a h
  · rw [hi.maybeVal, hv]; simp

/-- The invariant is maintained by every step, and the step is as specified. -/
theorem step_inv {s s' : St} {o : Obs} (hst : Step s o s') {m hs priv} (hi : Inv s m hs priv) (t : List Obs)
    (ht : ∀ m hs priv, Inv s' m hs priv → Isolated m hs t) : Isolated m hs (o :: t) := by
  cases hst with
  | alloc o ho =>
    refine ht m hs (privCopy priv s.heap.length False) ?_
    have hrest : ∀ a, (privCopy priv s.heap.length False a ↔ a < s.heap.length ∧ priv a) := by
      intro a; simp [privCopy]
    have get : ∀ a o', (s.heap ++ [o])[a]? = some o' →
        (a < s.heap.length ∧ s.heap[a]? = some o') ∨ (a = s.heap.length ∧ o' = o) := by
      intro a o' h
      rw [List.getElem?_append] at h
      split at h
      · next hl => exact .inl ⟨hl, h⟩
      · next hl =>
        rw [List.getElem?_singleton] at h
        split at h
        · next h0 => cases h; exact .inr ⟨by omega, rfl⟩
        · cases h
    have hi2 : Inv s m hs (privCopy priv s.heap.length False) := by
      constructor
      · exact hi.closed
      · intro a o ho hp c hc
        rw [hrest] at hp ⊢
        exact ⟨hi.closed a o ho c hc, hi.privClosed a o ho hp.2 c hc⟩
      · intro a o' ho hp c hc
        rw [hrest] at hp ⊢
        have ha : a < s.heap.length := by
          rw [List.getElem?_eq_some_iff] at ho; exact ho.1
        exact fun h => hi.pubClosed a o' ho (fun h => hp ⟨ha, h⟩) c hc h.2
      · intro a ha; rw [hrest]; exact ⟨fun h => (hi.roots a ha).1 h.2, (hi.roots a ha).2⟩
      · intro k a h; rw [hrest]; have := hi.cachePriv k a h; exact ⟨⟨this.2, this.1⟩, this.2⟩
      · intro a h; rw [hrest]; have := hi.maybePriv a h; exact ⟨⟨this.2, this.1⟩, this.2⟩
      · exact hi.cacheVal
      · exact hi.cacheNone
      · exact hi.maybeVal
    refine hi2.keep rfl rfl (by simp) ?_ ?_ ?_ ?_ ?_
    · intro a _ hl; exact funext fun n => view_append hi.closed n a hl
    · intro a o' h c hc
      rw [List.length_append, List.length_singleton]
      rcases get a o' h with ⟨_, h⟩ | ⟨_, rfl⟩
      · have := hi.closed a o' h c hc; omega
      · have := (hi.roots c (ho c hc)).2; omega
    · intro a o' h hp c hc
      rcases get a o' h with ⟨_, h⟩ | ⟨rfl, rfl⟩
      · exact hi2.privClosed a o' h hp c hc
      · rw [hrest] at hp; omega
    · intro a o' h hp c hc
      rcases get a o' h with ⟨_, h⟩ | ⟨rfl, rfl⟩
      · exact hi2.pubClosed a o' h hp c hc
      · exact (hi2.roots c (ho c hc)).1
    · intro a ha
      simp only [List.mem_cons] at ha
      rcases ha with rfl | ha
      · rw [hrest]; simp
      · have := hi2.roots a ha; exact ⟨this.1, by simp; omega⟩
  | deref a c o ha ho hc =>
    refine ht m hs priv (hi.keep rfl rfl (Nat.le_refl _) (fun _ _ _ => rfl) hi.closed hi.privClosed hi.pubClosed ?_)
    intro b hb
    simp only [List.mem_cons] at hb
    rcases hb with rfl | hb
    · exact ⟨hi.pubClosed a o ho (hi.roots a ha).1 _ hc, hi.closed a o ho _ hc⟩
    · exact hi.roots b hb
  | mutate a o ha ho =>
    have hpa := (hi.roots a ha).1
    have get : ∀ b o', (s.heap.set a o)[b]? = some o' → (b = a ∧ o' = o) ∨ (b ≠ a ∧ s.heap[b]? = some o') := by
      intro b o' h
      rw [List.getElem?_set] at h
      split at h
      · split at h
        · next h1 _ => cases h; exact .inl ⟨h1.symm, rfl⟩
        · cases h
      · next h1 => exact .inr ⟨fun h => h1 h.symm, h⟩
    refine ht m hs priv (hi.keep rfl rfl (by simp) ?_ ?_ ?_ ?_ ?_)
    · intro b hb _
      refine funext fun n => view_private (fun b hb => ?_) hi.privClosed n b hb
      rw [List.getElem?_set_ne]
      rintro rfl; exact hpa hb
    · intro b o' h c hc
      rw [List.length_set]
      rcases get b o' h with ⟨_, rfl⟩ | ⟨_, h⟩
      · exact (hi.roots c (ho c hc)).2
      · exact hi.closed b o' h c hc
    · intro b o' h hp c hc
      rcases get b o' h with ⟨rfl, rfl⟩ | ⟨_, h⟩
      · exact absurd hp hpa
      · exact hi.privClosed b o' h hp c hc
    · intro b o' h hp c hc
      rcases get b o' h with ⟨rfl, rfl⟩ | ⟨_, h⟩
      · exact (hi.roots c (ho c hc)).1
      · exact hi.pubClosed b o' h hp c hc
    · intro b hb; rw [List.length_set]; exact hi.roots b hb
  | store k a ha =>
    refine ht _ hs _ ((hi.copy True).setCache k (some (a + s.heap.length)) _ ?_ ?_)
    · intro b hb
      cases hb
      have := (hi.roots a ha).2
      exact ⟨.inr ⟨by omega, trivial⟩, by simp; omega⟩
    · simp only [Option.map_some, Option.some.injEq]
      exact funext fun n => (view_shift s.heap n a).symm
  | delete k => exact ht _ hs priv (hi.setCache k none none (by simp) rfl)
  | load k raw hraw =>
    cases hcache : s.cache k with
    | some r =>
      have hm := hi.cacheVal k r hcache
      simp only [load, hcache] at ht ⊢
      refine ⟨fun u hu => ?_, ?_⟩
      · rw [hm] at hu; exact Option.some.inj hu
      · have : (fun k' => if k' = k then some (Option.map (value s.heap) r) else m k') = m := by
          funext k'; split
          · next h => rw [h, hm]
          · rfl
        rw [this]
        exact ht _ _ _ (hi.addMaybe r _ (fun a ha => by subst ha; exact hi.cachePriv k a hcache) rfl)
    | none =>
      have hm := hi.cacheNone k hcache
      cases raw with
      | none =>
        simp only [load, hcache] at ht ⊢
        refine ⟨fun u hu => (by rw [hm] at hu; cases hu), ?_⟩
        exact ht _ _ _ ((hi.setCache k none none (by simp) rfl).addMaybe none none (by simp) rfl)
      | some a =>
        have ha := hraw a rfl
        simp only [load, hcache, just, deepcopy] at ht ⊢
        refine ⟨fun u hu => (by rw [hm] at hu; cases hu), ?_⟩
        have hb : ∀ b, some (a + s.heap.length) = some b → privCopy priv s.heap.length True b ∧
            b < (s.heap ++ s.heap.map (Obj.shift s.heap.length)).length := by
          intro b hb
          cases hb
          have := (hi.roots a ha).2
          exact ⟨.inr ⟨by omega, trivial⟩, by simp; omega⟩
        exact ht _ _ _ (((hi.copy True).setCache k (some (a + s.heap.length)) _ hb rfl).addMaybe
          (some (a + s.heap.length)) _ hb rfl)
  | wrap a ha =>
    simp only [just, deepcopy] at ht
    refine ht m _ _ ((hi.copy True).addMaybe (some (a + s.heap.length)) _ ?_ ?_)
    · intro b hb
      cases hb
      have := (hi.roots a ha).2
      exact ⟨.inr ⟨by omega, trivial⟩, by simp; omega⟩
    · simp only [Option.map_some, Option.some.injEq]
      exact funext fun n => (view_shift s.heap n a).symm
  | unwrap i a h =>
    have ha := hi.maybePriv a (List.mem_reverse.1 (List.mem_of_getElem? h))
    refine ⟨?_, ht m hs (privCopy priv s.heap.length False) ?_⟩
    · rw [hi.maybeVal, List.getElem?_map, h]
      simp only [Option.map_some, Option.some.injEq, fromJust, deepcopy]
      exact funext fun n => (view_shift s.heap n a).symm
    · refine (hi.copy False).keep rfl rfl (Nat.le_refl _) (fun _ _ _ => rfl) (hi.copy False).closed
        (hi.copy False).privClosed (hi.copy False).pubClosed ?_
      intro b hb
      simp only [fromJust, deepcopy, List.mem_cons] at hb ⊢
      rcases hb with rfl | hb
      · exact ⟨by simp only [privCopy, and_false, or_false, not_and]; omega, by simp; omega⟩
      · exact (hi.copy False).roots b hb

/-- C05.  In every history of object creation, dereferencing, in-place mutation, stores, deletes, loads and reads of what was
loaded, of any length: loads return the value last stored (or first loaded), and a loaded `Maybe` keeps
the value it was loaded with. -/
theorem C05_isolation (t : List Obs) (s : St) (h : Steps init t s) : Isolated (fun _ => none) [] t := by
  suffices H : ∀ s0 s t, Steps s0 t s → ∀ m hs priv, Inv s0 m hs priv → Isolated m hs t by
    refine H init s t h _ _ (fun _ => False) ?_
    constructor <;> simp [init, Closed]
  intro s0 s t h
  induction h with
  | nil => intros; trivial
  | cons hst _ ih => intro m hs priv hi; exact step_inv hst hi _ ih

/-- A history to which C05 applies: a list is stored, then changed in place, then loaded; a copy read from the
storage is changed as well, and it is read again. -/
example : ∃ t s, Steps init t s ∧ Obs.silent ∈ t ∧ t.length = 9 := by
  refine ⟨_, _, .cons (.alloc _ ⟨.list, []⟩ (by simp)) (.cons (.store _ .ownDeviceId 0 ?_)
    (.cons (.mutate _ 0 ⟨.list, [0]⟩ ?_ ?_) (.cons (.load _ .ownDeviceId none (by simp))
    (.cons (.unwrap _ 0 1 rfl) (.cons (.mutate _ 3 ⟨.list, [0, 0]⟩ ?_ ?_) (.cons (.unwrap _ 0 1 rfl)
    (.cons (.load _ .ownDeviceId none (by simp)) (.cons (.delete _ .ownDeviceId) (.nil _))))))))), by simp, rfl⟩
  all_goals simp [init, store, just, deepcopy, load, fromJust, Obj.shift]

/-- `Isolated` is not trivial: it rejects a load that sees a mutation. -/
example : ¬ Isolated (fun _ => none) [] [.stored .ownDeviceId (value [⟨.list, []⟩] 0),
    .loaded .ownDeviceId (some (value [⟨.list, [0]⟩] 0))] := by
  intro h
  have := congrFun (Option.some.inj (h.1 _ rfl)) 1
  simp [value, view] at this

end Verif.Heap
