import Verif.Proofs.StorageCache
/-
Overlapping programs on `Storage` with its cache: what one raw interaction of a program means on a plain map.
-/
namespace Verif

/-- The surroundings of the library, with the cache of its storage. -/
structure RawWorld where
  world : World
  cache : Key → Option (Option JVal)

/-- Contract at the level of the abstract storage methods: storage and cache as in `RawKV`, the rest as in `Lib`. -/
def RawLib : Sem RawSig Exn RawWorld where
  ok w
    | ⟨.rawLoad k, .ok v⟩ => v = w.world.disk k
    | ⟨.rawLoad _, .error e⟩ => e.isFailure
    | ⟨.rawStore _ _, .error e⟩ => e.isFailure
    | ⟨.rawDelete _, .error e⟩ => e.isFailure
    | ⟨.cacheGet k, .ok v⟩ => v = w.cache k
    | ⟨.cacheGet _, .error _⟩ => False
    | ⟨.cacheSet _ _, .error _⟩ => False
    | ⟨.other o, r⟩ => Lib.ok w.world ⟨o, r⟩
    | _ => True
  next w
    | ⟨.rawStore k v, .ok _⟩ => { w with world := { w.world with disk := w.world.disk.upd k (some v) } }
    | ⟨.rawDelete k, .ok _⟩ => { w with world := { w.world with disk := w.world.disk.upd k none } }
    | ⟨.cacheSet k m, .ok _⟩ => { w with cache := fun k' => if k' = k then some m else w.cache k' }
    | ⟨.other o, r⟩ => { w with world := Lib.next w.world ⟨o, r⟩ }
    | _ => w

namespace CachePar

/-- Where a program is within `Storage.load`, `store` or `delete`. -/
inductive Pend where
  | idle
  /-- found nothing in the cache -/
  | missed (k : Key)
  /-- loaded `m`, about to put it into the cache -/
  | loaded (k : Key) (m : Option JVal)
  /-- wrote `m`, about to put it into the cache -/
  | wrote (k : Key) (m : Option JVal)

/-- The continuation of `Storage.compile` after an interaction. -/
abbrev andOn (cached : Bool) {α : Type} {o : Op} (kk : Except Exn o.Ret → P α) (q : R o.Ret) : R α :=
  Prog.tryElse q (fun e => Storage.compile cached (kk (.error e))) (fun a => Storage.compile cached (kk (.ok a)))

/-- `q` is what is left to do of `p` on `Storage`. -/
inductive Left (cached : Bool) {α : Type} : R α → P α → Pend → Prop where
  | idle (p : P α) : Left cached (Storage.compile cached p) p .idle
  | missed (k : Key) (kk : Except Exn (Option JVal) → P α) (h : cached = true) :
      Left cached (andOn (o := .load k) cached kk (do let value ← rcall (.rawLoad k); rcall (.cacheSet k value); pure value))
        (.op (.load k) kk) (.missed k)
  | loaded (k : Key) (m : Option JVal) (kk : Except Exn (Option JVal) → P α) (h : cached = true) :
      Left cached (andOn (o := .load k) cached kk (do rcall (.cacheSet k m); pure m)) (.op (.load k) kk) (.loaded k m)
  | stored (k : Key) (v : JVal) (kk : Except Exn Unit → P α) (h : cached = true) :
      Left cached (andOn (o := .store k v) cached kk (rcall (.cacheSet k (some v)))) (.op (.store k v) kk) (.wrote k (some v))
  | deleted (k : Key) (kk : Except Exn Unit → P α) (h : cached = true) :
      Left cached (andOn (o := .delete k) cached kk (rcall (.cacheSet k none))) (.op (.delete k) kk) (.wrote k none)

/-- The interaction writes the key. -/
def writes (k : Key) : ROp → Prop
  | .rawStore k' _ => k' = k
  | .rawDelete k' => k' = k
  | _ => False

/-- Set an entry of the cache. -/
def RawWorld.fill (w : RawWorld) (k : Key) (m : Option JVal) : RawWorld :=
  { w with cache := fun k' => if k' = k then some m else w.cache k' }

/-- Write to the disk. -/
def RawWorld.write (w : RawWorld) (k : Key) (m : Option JVal) : RawWorld :=
  { w with world := { w.world with disk := w.world.disk.upd k m } }

/-- The library interaction that writes `m`. -/
inductive IsWrite (k : Key) : Option JVal → Op → Prop where
  | store (v : JVal) : IsWrite k (some v) (.store k v)
  | delete : IsWrite k none (.delete k)

/-- What one raw interaction does: to the world, to the position within `Storage`, and which library interaction it completes. -/
inductive Move (cached : Bool) (w : RawWorld) : ROp → RawWorld → Pend → Pend → Option Ev → Prop where
  | other (o : Op) (x : Except Exn o.Ret) (h : o.isStorage = false) (hok : Lib.ok w.world ⟨o, x⟩) :
      Move cached w (.other o) { w with world := Lib.next w.world ⟨o, x⟩ } .idle .idle (some ⟨o, x⟩)
  | plainLoad (k : Key) (h : cached = false) : Move cached w (.rawLoad k) w .idle .idle (some ⟨.load k, .ok (w.world.disk k)⟩)
  | plainLoadFails (k : Key) (e : Exn) (h : cached = false) (he : e.isFailure = true) : Move cached w (.rawLoad k) w .idle .idle (some ⟨.load k, .error e⟩)
  | plainStore (k : Key) (v : JVal) (h : cached = false) : Move cached w (.rawStore k v) (RawWorld.write w k (some v)) .idle .idle (some ⟨.store k v, .ok ()⟩)
  | plainDelete (k : Key) (h : cached = false) : Move cached w (.rawDelete k) (RawWorld.write w k none) .idle .idle (some ⟨.delete k, .ok ()⟩)
  | hit (k : Key) (m : Option JVal) (h : cached = true) (hc : w.cache k = some m) : Move cached w (.cacheGet k) w .idle .idle (some ⟨.load k, .ok m⟩)
  | miss (k : Key) (h : cached = true) (hc : w.cache k = none) : Move cached w (.cacheGet k) w .idle (.missed k) none
  | fetch (k : Key) (h : cached = true) : Move cached w (.rawLoad k) w (.missed k) (.loaded k (w.world.disk k)) none
  | fetchFails (k : Key) (e : Exn) (h : cached = true) (he : e.isFailure = true) : Move cached w (.rawLoad k) w (.missed k) .idle (some ⟨.load k, .error e⟩)
  | fill (k : Key) (m : Option JVal) (h : cached = true) : Move cached w (.cacheSet k m) (RawWorld.fill w k m) (.loaded k m) .idle (some ⟨.load k, .ok m⟩)
  | storeFails (k : Key) (v : JVal) (e : Exn) (he : e.isFailure = true) : Move cached w (.rawStore k v) w .idle .idle (some ⟨.store k v, .error e⟩)
  | deleteFails (k : Key) (e : Exn) (he : e.isFailure = true) : Move cached w (.rawDelete k) w .idle .idle (some ⟨.delete k, .error e⟩)
  | store (k : Key) (v : JVal) (h : cached = true) : Move cached w (.rawStore k v) (RawWorld.write w k (some v)) .idle (.wrote k (some v)) none
  | delete (k : Key) (h : cached = true) : Move cached w (.rawDelete k) (RawWorld.write w k none) .idle (.wrote k none) none
  | setStored (k : Key) (v : JVal) (h : cached = true) : Move cached w (.cacheSet k (some v)) (RawWorld.fill w k (some v)) (.wrote k (some v)) .idle (some ⟨.store k v, .ok ()⟩)
  | setDeleted (k : Key) (h : cached = true) : Move cached w (.cacheSet k none) (RawWorld.fill w k none) (.wrote k none) .idle (some ⟨.delete k, .ok ()⟩)

/-- One step of a library program, or none. -/
def Takes {α : Type} (p : P α) : Option Ev → P α → Prop
  | none, p' => p' = p
  | some e, p' => ∃ kk, p = .op e.1 kk ∧ p' = kk e.2

theorem exec_op {S : Sig} {E α : Type} {o : S.Op} {k : Except E (S.Ret o) → Prog S E α} {e : Event S E} {t : List (Event S E)} {r : Res E α}
    (h : Exec (.op o k) (e :: t) r) : ∃ x, e = ⟨o, x⟩ ∧ Exec (k x) t r := by
  cases h with
  | op x h => exact ⟨x, rfl, h⟩

theorem step {cached : Bool} {α : Type} {q : R α} {p : P α} {s : Pend} (hl : Left cached q p s) {w : RawWorld}
    {e : Event RawSig Exn} {t : List (Event RawSig Exn)} {r : Res Exn α} (he : Exec q (e :: t) r) (hok : RawLib.ok w e) :
    ∃ q' p' s' a, Exec q' t r ∧ Left cached q' p' s' ∧ Move cached w e.1 (RawLib.next w e) s s' a ∧ Takes p a p' := by
  cases hl with
  | idle p =>
    cases p with
    | ret a => cases he
    | raise e => cases he
    | op o kk =>
      by_cases ho : o.isStorage = false
      · have : Storage.compile cached (.op o kk) = .op (.other o) fun x => Storage.compile cached (kk x) := by
          cases o <;> first | (cases ho; done) | exact congrArg (Prog.op (S := RawSig) _) (funext fun x => by cases x <;> rfl)
        rw [this] at he
        obtain ⟨x, rfl, h⟩ := exec_op he
        exact ⟨_, _, _, some ⟨o, x⟩, h, .idle _, .other o x ho hok, kk, rfl, rfl⟩
      · cases o with
        | load k =>
          cases cached with
          | false =>
            obtain ⟨x, rfl, h⟩ := exec_op he
            cases x with
            | ok v =>
              have hv : v = w.world.disk k := hok
              subst hv
              exact ⟨_, _, _, some ⟨.load k, .ok _⟩, h, .idle _, .plainLoad k rfl, kk, rfl, rfl⟩
            | error e => exact ⟨_, _, _, some ⟨.load k, .error e⟩, h, .idle _, .plainLoadFails k e rfl hok, kk, rfl, rfl⟩
          | true =>
            obtain ⟨x, rfl, h⟩ := exec_op he
            cases x with
            | error e => exact absurd hok id
            | ok c =>
              have hc : c = w.cache k := hok
              cases c with
              | some m => exact ⟨_, _, _, some ⟨.load k, .ok m⟩, h, .idle _, .hit k m rfl hc.symm, kk, rfl, rfl⟩
              | none => exact ⟨_, _, _, none, h, .missed k kk rfl, .miss k rfl hc.symm, rfl⟩
        | store k v =>
          cases cached with
          | false =>
            obtain ⟨x, rfl, h⟩ := exec_op he
            cases x with
            | ok u => exact ⟨_, _, _, some ⟨.store k v, .ok ()⟩, h, .idle _, .plainStore k v rfl, kk, rfl, rfl⟩
            | error e => exact ⟨_, _, _, some ⟨.store k v, .error e⟩, h, .idle _, .storeFails k v e hok, kk, rfl, rfl⟩
          | true =>
            obtain ⟨x, rfl, h⟩ := exec_op he
            cases x with
            | ok u => exact ⟨_, _, _, none, h, .stored k v kk rfl, .store k v rfl, rfl⟩
            | error e => exact ⟨_, _, _, some ⟨.store k v, .error e⟩, h, .idle _, .storeFails k v e hok, kk, rfl, rfl⟩
        | delete k =>
          cases cached with
          | false =>
            obtain ⟨x, rfl, h⟩ := exec_op he
            cases x with
            | ok u => exact ⟨_, _, _, some ⟨.delete k, .ok ()⟩, h, .idle _, .plainDelete k rfl, kk, rfl, rfl⟩
            | error e => exact ⟨_, _, _, some ⟨.delete k, .error e⟩, h, .idle _, .deleteFails k e hok, kk, rfl, rfl⟩
          | true =>
            obtain ⟨x, rfl, h⟩ := exec_op he
            cases x with
            | ok u => exact ⟨_, _, _, none, h, .deleted k kk rfl, .delete k rfl, rfl⟩
            | error e => exact ⟨_, _, _, some ⟨.delete k, .error e⟩, h, .idle _, .deleteFails k e hok, kk, rfl, rfl⟩
        | _ => exact absurd rfl ho
  | missed k kk hc =>
    obtain ⟨x, rfl, h⟩ := exec_op he
    cases x with
    | ok v =>
      have hv : v = w.world.disk k := hok
      subst hv
      exact ⟨_, _, _, none, h, .loaded k _ kk hc, .fetch k hc, rfl⟩
    | error e => exact ⟨_, _, _, some ⟨.load k, .error e⟩, h, .idle _, .fetchFails k e hc hok, kk, rfl, rfl⟩
  | loaded k m kk hc =>
    obtain ⟨x, rfl, h⟩ := exec_op he
    cases x with
    | ok u => exact ⟨_, _, _, some ⟨.load k, .ok m⟩, h, .idle _, .fill k m hc, kk, rfl, rfl⟩
    | error e => exact absurd hok id
  | stored k v kk hc =>
    obtain ⟨x, rfl, h⟩ := exec_op he
    cases x with
    | ok u => exact ⟨_, _, _, some ⟨.store k v, .ok ()⟩, h, .idle _, .setStored k v hc, kk, rfl, rfl⟩
    | error e => exact absurd hok id
  | deleted k kk hc =>
    obtain ⟨x, rfl, h⟩ := exec_op he
    cases x with
    | ok u => exact ⟨_, _, _, some ⟨.delete k, .ok ()⟩, h, .idle _, .setDeleted k hc, kk, rfl, rfl⟩
    | error e => exact absurd hok id

/-- What has ended on `Storage` has ended on the map. -/
theorem stop {cached : Bool} {α : Type} {q : R α} {p : P α} {s : Pend} (hl : Left cached q p s) {r : Res Exn α} (he : Exec q [] r) :
    Exec p [] r ∧ (r ≠ .crashed → s = .idle) := by
  cases hl with
  | idle p =>
    refine ⟨?_, fun _ => rfl⟩
    cases p with
    | ret a => cases he; exact .ret a
    | raise e => cases he; exact .raise e
    | op o kk =>
      have : ∃ o' k', Storage.compile cached (.op o kk) = .op o' k' := by
        cases o <;> cases cached <;> exact ⟨_, _, rfl⟩
      obtain ⟨o', k', h⟩ := this
      rw [h] at he
      cases he
      exact .crash o kk
  | missed k kk hc => cases he; exact ⟨.crash _ _, fun h => absurd rfl h⟩
  | loaded k m kk hc => cases he; exact ⟨.crash _ _, fun h => absurd rfl h⟩
  | stored k v kk hc => cases he; exact ⟨.crash _ _, fun h => absurd rfl h⟩
  | deleted k kk hc => cases he; exact ⟨.crash _ _, fun h => absurd rfl h⟩

/-- What a load finds. -/
def look (cached : Bool) (w : RawWorld) : Disk := fun k => if cached then (w.cache k).getD (w.world.disk k) else w.world.disk k

/-- The world as it looks through the cache. -/
def seen (cached : Bool) (w : RawWorld) : World := { w.world with disk := look cached w }

/-- Keys that are written (`W`) are cached, and for other keys the cache is right. -/
def Warm (cached : Bool) (W : Key → Prop) (w : RawWorld) : Prop :=
  cached = true → (∀ k, W k → w.cache k ≠ none) ∧ ∀ k, ¬ W k → ∀ m, w.cache k = some m → m = w.world.disk k

/-- What is known in the middle of `Storage.load`, `store` and `delete`. -/
def Knows (W : Key → Prop) (w : RawWorld) : Pend → Prop
  | .idle => True
  | .missed k => ¬ W k
  | .loaded k m => ¬ W k ∧ m = w.world.disk k
  | .wrote k _ => W k

theorem lib_other {o : Op} {x : Except Exn o.Ret} (h : o.isStorage = false) (w : World) (d : Disk) :
    (Lib.ok { w with disk := d } ⟨o, x⟩ ↔ Lib.ok w ⟨o, x⟩) ∧ Lib.next { w with disk := d } ⟨o, x⟩ = { Lib.next w ⟨o, x⟩ with disk := d } ∧
      (Lib.next w ⟨o, x⟩).disk = w.disk := by
  cases o <;> first | (cases h; done) | (cases x <;> exact ⟨Iff.rfl, rfl, rfl⟩)

variable {cached : Bool} {W : Key → Prop}

/-- A write to the disk that the cache hides. -/
theorem seen_write {w : RawWorld} {k : Key} {m : Option JVal} (hc : cached = true) (h : w.cache k ≠ none) :
    seen cached (RawWorld.write w k m) = seen cached w := by
  subst hc
  have : look true (RawWorld.write w k m) = look true w := by
    funext k'
    simp only [look, RawWorld.write, if_true]
    by_cases hk : k' = k
    · subst hk
      cases hw : w.cache k' with
      | none => exact absurd hw h
      | some m => rfl
    · rw [Disk.upd_of_ne hk]
  simp only [seen, this]
  rfl

theorem seen_fill {w : RawWorld} {k : Key} {m : Option JVal} (hc : cached = true) :
    seen cached (RawWorld.fill w k m) = { seen cached w with disk := (seen cached w).disk.upd k m } := by
  subst hc
  have : look true (RawWorld.fill w k m) = (look true w).upd k m := by
    funext k'
    simp only [look, RawWorld.fill, if_true, Disk.upd]
    by_cases hk : k' = k
    · simp [hk]
    · simp [hk]
  simp only [seen, this]
  rfl

theorem seen_plain {w : RawWorld} (hc : cached = false) : seen cached w = w.world := by
  subst hc
  rfl

theorem Move.knows {w w' : RawWorld} {o : ROp} {s s' : Pend} {a : Option Ev} (h : Move cached w o w' s s' a)
    (hw : ∀ k, writes k o → W k) (hJ : Warm cached W w) (hR : Knows W w s) :
    Warm cached W w' ∧ Knows W w' s' ∧ (∀ s2, Knows W w s2 → Knows W w' s2) ∧
      match a with
      | none => seen cached w' = seen cached w
      | some e => Lib.ok (seen cached w) e ∧ seen cached w' = Lib.next (seen cached w) e := by
  have wrote : ∀ k m, W k → (∀ s2, Knows W w s2 → Knows W (RawWorld.write w k m) s2) := by
    intro k m hk s2 h2
    cases s2 with
    | loaded k2 m2 =>
      refine ⟨h2.1, ?_⟩
      have hne : k2 ≠ k := fun h => h2.1 (h ▸ hk)
      exact h2.2.trans (Disk.upd_of_ne hne).symm
    | _ => exact h2
  have filled : ∀ k m, (∀ s2, Knows W w s2 → Knows W (RawWorld.fill w k m) s2) := by
    intro k m s2 h2
    cases s2 <;> exact h2
  have warm_write : ∀ k m, W k → Warm cached W (RawWorld.write w k m) := by
    intro k m hk hc
    refine ⟨(hJ hc).1, fun k2 h2 m2 hm => ?_⟩
    have hne : k2 ≠ k := fun h => h2 (h ▸ hk)
    exact ((hJ hc).2 k2 h2 m2 hm).trans (Disk.upd_of_ne hne).symm
  have warm_fill : ∀ k m, (¬ W k → m = w.world.disk k) → Warm cached W (RawWorld.fill w k m) := by
    intro k m hk hc
    refine ⟨fun k2 h2 => ?_, fun k2 h2 m2 hm => ?_⟩
    · simp only [RawWorld.fill]
      split
      · nofun
      · exact (hJ hc).1 k2 h2
    · simp only [RawWorld.fill] at hm
      split at hm
      · rename_i he
        subst he
        cases hm
        exact hk h2
      · exact (hJ hc).2 k2 h2 m2 hm
  cases h with
  | other o x h hok =>
    obtain ⟨h1, h2, h3⟩ := lib_other (x := x) h w.world (look cached w)
    have hd : look cached ({ w with world := Lib.next w.world ⟨o, x⟩ } : RawWorld) = look cached w := by
      funext k
      simp only [look, h3]
    refine ⟨fun hc => ⟨(hJ hc).1, fun k hk m hm => by rw [h3]; exact (hJ hc).2 k hk m hm⟩, trivial, ?_, h1.2 hok, ?_⟩
    · intro s2 hs
      cases s2 with
      | loaded k m => exact ⟨hs.1, hs.2.trans (congrFun h3 k).symm⟩
      | _ => exact hs
    · simp only [seen, hd]
      exact h2.symm
  | plainLoad k h => exact ⟨hJ, trivial, fun _ h => h, by rw [seen_plain h]; rfl, rfl⟩
  | plainLoadFails k e h he => exact ⟨hJ, trivial, fun _ h => h, he, rfl⟩
  | plainStore k v h => exact ⟨warm_write k _ (hw k rfl), trivial, wrote k _ (hw k rfl), trivial, by rw [seen_plain h, seen_plain h]; rfl⟩
  | plainDelete k h => exact ⟨warm_write k _ (hw k rfl), trivial, wrote k _ (hw k rfl), trivial, by rw [seen_plain h, seen_plain h]; rfl⟩
  | hit k m h hc =>
    refine ⟨hJ, trivial, fun _ h => h, ?_, rfl⟩
    show m = look cached w k
    simp [look, h, hc]
  | miss k h hc => exact ⟨hJ, fun hk => (hJ h).1 k hk hc, fun _ h => h, rfl⟩
  | fetch k h => exact ⟨hJ, ⟨hR, rfl⟩, fun _ h => h, rfl⟩
  | fetchFails k e h he => exact ⟨hJ, trivial, fun _ h => h, he, rfl⟩
  | fill k m h =>
    have hl : m = look cached w k := by
      simp only [look, h, if_true]
      cases hc : w.cache k with
      | none => exact hR.2
      | some m2 => exact hR.2.trans ((hJ h).2 k hR.1 m2 hc).symm
    refine ⟨warm_fill k m fun _ => hR.2, trivial, filled k m, hl, ?_⟩
    rw [seen_fill h]
    have : (seen cached w).disk.upd k m = (seen cached w).disk := by
      funext k2
      by_cases hk : k2 = k
      · subst hk; rw [Disk.upd_self]; exact hl
      · rw [Disk.upd_of_ne hk]
    rw [this]
    rfl
  | storeFails k v e he => exact ⟨hJ, trivial, fun _ h => h, he, rfl⟩
  | deleteFails k e he => exact ⟨hJ, trivial, fun _ h => h, he, rfl⟩
  | store k v h => exact ⟨warm_write k _ (hw k rfl), hw k rfl, wrote k _ (hw k rfl), seen_write h ((hJ h).1 k (hw k rfl))⟩
  | delete k h => exact ⟨warm_write k _ (hw k rfl), hw k rfl, wrote k _ (hw k rfl), seen_write h ((hJ h).1 k (hw k rfl))⟩
  | setStored k v h => exact ⟨warm_fill k _ fun hk => absurd hR hk, trivial, filled k _, trivial, seen_fill h⟩
  | setDeleted k h => exact ⟨warm_fill k _ fun hk => absurd hR hk, trivial, filled k _, trivial, seen_fill h⟩

/-- A program with what is left of its execution on `Storage`; `own` are the keys it may write. -/
structure Part (cached : Bool) where
  α : Type
  q : R α
  p : P α
  s : Pend
  t : List (Event RawSig Exn)
  r : Res Exn α
  own : Key → Prop
  exec : Exec q t r
  left : Left cached q p s
  writes : ∀ e ∈ t, ∀ k, CachePar.writes k e.1 → own k
  wrote : ∀ k m, s = .wrote k m → own k

/-- A program and how it ended. -/
abbrev Did := (α : Type) × P α × Res Exn α

/-- The program of a part. -/
def Part.did (x : Part cached) : Did := ⟨x.α, x.p, x.r⟩

/-- A program with an execution on a plain map. -/
structure OnMap where
  did : Did
  trace : List Ev
  exec : Exec did.2.1 trace did.2.2

/-- One interaction of a part. -/
theorem Part.advance (x : Part cached) {e : Event RawSig Exn} {u : List (Event RawSig Exn)} (ht : x.t = e :: u) {w : RawWorld} (hok : RawLib.ok w e) :
    ∃ (y : Part cached) (a : Option Ev), y.t = u ∧ y.own = x.own ∧ Move cached w e.1 (RawLib.next w e) x.s y.s a ∧
      (∀ k, CachePar.writes k e.1 → x.own k) ∧ (x.r ≠ .crashed → y.r ≠ .crashed) ∧
      ∀ j : OnMap, j.did = y.did → ∃ i : OnMap, i.did = x.did ∧ i.trace = a.toList ++ j.trace := by
  obtain ⟨α, q, p, s, t, r, own, hx, hl, hw, hwr⟩ := x
  simp only at ht
  subst ht
  obtain ⟨q', p', s', a, h1, h2, h3, h4⟩ := step hl hx hok
  refine ⟨⟨α, q', p', s', u, r, own, h1, h2, fun e he => hw e (List.mem_cons_of_mem _ he), ?_⟩, a, rfl, rfl, h3, hw e (List.mem_cons_self ..), id, ?_⟩
  · intro k m hs
    subst hs
    generalize RawLib.next w e = w' at h3
    generalize he : e.1 = o at h3
    cases h3 with
    | store k v h => exact hw e (List.mem_cons_self ..) k (by rw [he]; rfl)
    | delete k h => exact hw e (List.mem_cons_self ..) k (by rw [he]; rfl)
  · rintro ⟨d, tr, hj⟩ hd
    simp only at hd
    subst hd
    cases a with
    | none => cases h4; exact ⟨⟨_, tr, hj⟩, rfl, rfl⟩
    | some e' =>
      obtain ⟨kk, rfl, rfl⟩ := h4
      exact ⟨⟨⟨α, .op e'.1 kk, r⟩, e' :: tr, Exec.op (S := LibSig) e'.2 hj⟩, rfl, rfl⟩

/-- Programs that overlap on `Storage` see what programs that overlap on a plain map see. -/
theorem explained {ks : List (Part cached)} {t : List (Event RawSig Exn)} {w w' : RawWorld}
    (hown : ∀ x ∈ ks, ∀ k, x.own k → W k) (hJ : Warm cached W w) (hR : ∀ x ∈ ks, Knows W w x.s)
    (hs : Shuffle (ks.map (·.t)) t) (hr : RawLib.Runs w t w') :
    ∃ (js : List OnMap) (u : List Ev), js.map (·.did) = ks.map (·.did) ∧ Shuffle (js.map (·.trace)) u ∧
      Lib.Runs (seen cached w) u (seen cached w') := by
  generalize hts : ks.map (·.t) = ts at hs
  induction hs generalizing w ks with
  | nil h =>
    cases hr
    have : ∀ x ∈ ks, ∃ j : OnMap, j.did = x.did ∧ j.trace = [] := fun x hx => by
      have ht : x.t = [] := h _ (by rw [← hts]; exact List.mem_map_of_mem hx)
      obtain ⟨α, q, p, s, t, r, own, he, hl, hw, hwr⟩ := x
      simp only at ht
      subst ht
      exact ⟨⟨⟨α, p, r⟩, [], (stop hl he).1⟩, rfl, rfl⟩
    clear hts hR hown h
    have : ∃ js : List OnMap, js.map (·.did) = ks.map (·.did) ∧ ∀ j ∈ js, j.trace = [] := by
      induction ks with
      | nil => exact ⟨[], rfl, fun _ h => absurd h List.not_mem_nil⟩
      | cons x ks ih =>
        obtain ⟨js, h1, h2⟩ := ih fun y hy => this y (List.mem_cons_of_mem _ hy)
        obtain ⟨j, h3, h4⟩ := this x (List.mem_cons_self ..)
        refine ⟨j :: js, by simp [h1, h3], fun i hi => ?_⟩
        rcases List.mem_cons.1 hi with rfl | hi
        · exact h4
        · exact h2 i hi
    obtain ⟨js, h1, h2⟩ := this
    refine ⟨js, [], h1, .nil fun t ht => ?_, rfl⟩
    obtain ⟨j, hj, rfl⟩ := List.mem_map.1 ht
    exact h2 j hj
  | @cons pre post e u t _ ih =>
    obtain ⟨ks1, ks2, rfl, hp1, hp2⟩ := List.map_eq_append_iff.1 hts
    obtain ⟨x, ks3, rfl, hx, hp3⟩ := List.map_eq_cons_iff.1 hp2
    have hxm : x ∈ ks1 ++ x :: ks3 := by simp
    obtain ⟨y, a, hy1, hy2, hm, hwr, _, hj⟩ := x.advance hx hr.1
    obtain ⟨hJ', hRy, hRo, hsee⟩ := hm.knows (W := W) (fun k hk => hown x hxm k (hwr k hk)) hJ (hR x hxm)
    obtain ⟨js, u', h1, h2, h3⟩ := ih (w := RawLib.next w e) (ks := ks1 ++ y :: ks3)
      (fun z hz => by
        rcases List.mem_append.1 hz with hz | hz
        · exact hown z (by simp [hz])
        · rcases List.mem_cons.1 hz with rfl | hz
          · rw [hy2]; exact hown x hxm
          · exact hown z (by simp [hz]))
      hJ'
      (fun z hz => by
        rcases List.mem_append.1 hz with hz | hz
        · exact hRo _ (hR z (by simp [hz]))
        · rcases List.mem_cons.1 hz with rfl | hz
          · exact hRy
          · exact hRo _ (hR z (by simp [hz])))
      hr.2 (by simp [hp1, hp3, hy1])
    rw [List.map_append, List.map_cons] at h1
    obtain ⟨js1, js2, rfl, hq1, hq2⟩ := List.map_eq_append_iff.1 h1
    obtain ⟨j, js3, rfl, hj0, hq3⟩ := List.map_eq_cons_iff.1 hq2
    obtain ⟨i, hi1, hi2⟩ := hj j hj0
    refine ⟨js1 ++ i :: js3, a.toList ++ u', by simp [hq1, hi1, hq3], ?_, ?_⟩
    · cases a with
      | none =>
        simp only [Option.toList_none, List.nil_append] at hi2 ⊢
        simpa [hi2] using h2
      | some e' =>
        simp only [Option.toList_some, List.singleton_append] at hi2 ⊢
        rw [List.map_append, List.map_cons, hi2]
        refine .cons ?_
        simpa using h2
    · cases a with
      | none => rw [← hsee]; exact h3
      | some e' => exact ⟨hsee.1, by rw [← hsee.2]; exact h3⟩

/-- A program has left the cache as the disk at its keys, except where it is about to update the cache. -/
def Tidy (own : Key → Prop) (w : RawWorld) (s : Pend) : Prop :=
  (∀ k m, s = .wrote k m → w.world.disk k = m) ∧ ∀ k, own k → ∀ m, w.cache k = some m → m = w.world.disk k ∨ ∃ m', s = .wrote k m'

theorem Move.tidy {own : Key → Prop} {w w' : RawWorld} {o : ROp} {s s' : Pend} {a : Option Ev} (h : Move cached w o w' s s' a) (hc : cached = true)
    (hw : ∀ k, writes k o → own k) (hwr : ∀ k m, s = .wrote k m → own k) (hR : Knows W w s) (ht : Tidy own w s) :
    Tidy own w' s' ∧ ∀ own2 s2, (∀ k, own2 k → W k ∧ ¬ own k) → (∀ k m, s2 = .wrote k m → own2 k) → Tidy own2 w s2 → Tidy own2 w' s2 := by
  subst hc
  have written : ∀ k m, own k → s = .idle → Tidy own (RawWorld.write w k m) (.wrote k m) ∧
      ∀ own2 s2, (∀ k, own2 k → W k ∧ ¬ own k) → (∀ k m, s2 = .wrote k m → own2 k) → Tidy own2 w s2 → Tidy own2 (RawWorld.write w k m) s2 := by
    rintro k m hk rfl
    refine ⟨⟨fun k2 m2 h => by cases h; exact Disk.upd_self, fun k2 h2 m2 hm => ?_⟩, fun own2 s2 ho hs h2 => ⟨fun k2 m2 h => ?_, fun k2 hk2 m2 hm => ?_⟩⟩
    · by_cases he : k2 = k
      · subst he; exact .inr ⟨m, rfl⟩
      · rcases ht.2 k2 h2 m2 hm with h | ⟨m', h⟩
        · exact .inl (h.trans (Disk.upd_of_ne he).symm)
        · cases h
    · have he : k2 ≠ k := fun he => (ho k2 (hs k2 m2 h)).2 (he ▸ hk)
      exact (Disk.upd_of_ne he).trans (h2.1 k2 m2 h)
    · have he : k2 ≠ k := fun he => (ho k2 hk2).2 (he ▸ hk)
      exact (h2.2 k2 hk2 m2 hm).imp (fun h => h.trans (Disk.upd_of_ne he).symm) id
  have filled : ∀ k m, m = w.world.disk k → (¬ W k ∧ (∀ k m, s ≠ .wrote k m) ∨ ∃ m, s = .wrote k m) → Tidy own (RawWorld.fill w k m) .idle ∧
      ∀ own2 s2, (∀ k, own2 k → W k ∧ ¬ own k) → (∀ k m, s2 = .wrote k m → own2 k) → Tidy own2 w s2 → Tidy own2 (RawWorld.fill w k m) s2 := by
    intro k m hm hk
    refine ⟨⟨fun _ _ h => (by cases h), fun k2 h2 m2 hm2 => .inl ?_⟩, fun own2 s2 ho hs h2 => ⟨h2.1, fun k2 hk2 m2 hm2 => ?_⟩⟩
    · by_cases he : k2 = k
      · subst he
        simp only [RawWorld.fill, if_true] at hm2
        cases hm2
        exact hm
      · simp only [RawWorld.fill, if_neg he] at hm2
        rcases ht.2 k2 h2 m2 hm2 with h | ⟨m', h⟩
        · exact h
        · rcases hk with ⟨_, hk⟩ | ⟨m3, hk⟩
          · exact absurd h (hk _ _)
          · rw [hk] at h; cases h; exact absurd rfl he
    · have he : k2 ≠ k := by
        rintro rfl
        rcases hk with ⟨hk, _⟩ | ⟨m3, hk⟩
        · exact hk (ho _ hk2).1
        · exact (ho _ hk2).2 (hwr _ _ hk)
      simp only [RawWorld.fill, if_neg he] at hm2
      exact h2.2 k2 hk2 m2 hm2
  have same : (∀ k m, s = .wrote k m ↔ s' = .wrote k m) → w' = w → Tidy own w' s' ∧
      ∀ own2 s2, (∀ k, own2 k → W k ∧ ¬ own k) → (∀ k m, s2 = .wrote k m → own2 k) → Tidy own2 w s2 → Tidy own2 w' s2 := by
    rintro hi rfl
    exact ⟨⟨fun k m h => ht.1 k m ((hi k m).2 h), fun k hk m hm => (ht.2 k hk m hm).imp id fun ⟨m', h⟩ => ⟨m', (hi k m').1 h⟩⟩, fun _ _ _ _ h => h⟩
  cases h with
  | other o x h hok =>
    have h3 := (lib_other (x := x) h w.world w.world.disk).2.2
    have : ∀ own2 s2, Tidy own2 w s2 → Tidy own2 { w with world := Lib.next w.world ⟨o, x⟩ } s2 :=
      fun own2 s2 h2 => ⟨fun k m h => by rw [h3]; exact h2.1 k m h, fun k hk m hm => by rw [h3]; exact h2.2 k hk m hm⟩
    exact ⟨this _ _ ht, fun _ _ _ _ h => this _ _ h⟩
  | plainLoad k h => cases h
  | plainLoadFails k e h he => cases h
  | plainStore k v h => cases h
  | plainDelete k h => cases h
  | hit k m h hc => exact same (fun _ _ => Iff.rfl) rfl
  | miss k h hc => exact same (fun _ _ => ⟨nofun, nofun⟩) rfl
  | fetch k h => exact same (fun _ _ => ⟨nofun, nofun⟩) rfl
  | fetchFails k e h he => exact same (fun _ _ => ⟨nofun, nofun⟩) rfl
  | fill k m h => exact filled k m hR.2 (.inl ⟨hR.1, nofun⟩)
  | storeFails k v e he => exact same (fun _ _ => Iff.rfl) rfl
  | deleteFails k e he => exact same (fun _ _ => Iff.rfl) rfl
  | store k v h => exact written k _ (hw k rfl) rfl
  | delete k h => exact written k _ (hw k rfl) rfl
  | setStored k v h => exact filled k _ (ht.1 k _ rfl).symm (.inr ⟨_, rfl⟩)
  | setDeleted k h => exact filled k _ (ht.1 k _ rfl).symm (.inr ⟨_, rfl⟩)

/-- If no key is written by two of them, programs that overlap on `Storage` leave the cache as the disk. -/
theorem tidied (hc : cached = true) {ks : List (Part cached)} {t : List (Event RawSig Exn)} {w w' : RawWorld}
    (hown : ∀ x ∈ ks, ∀ k, x.own k → W k) (hJ : Warm cached W w) (hR : ∀ x ∈ ks, Knows W w x.s)
    (hd : (ks.map (·.own)).Pairwise fun a b => ∀ k, ¬ (a k ∧ b k)) (hT : ∀ x ∈ ks, Tidy x.own w x.s)
    (hs : Shuffle (ks.map (·.t)) t) (hr : RawLib.Runs w t w') (hn : ∀ x ∈ ks, x.r ≠ .crashed) :
    ∀ k, (∃ x ∈ ks, x.own k) ∨ ¬ W k → ∀ m, w'.cache k = some m → m = w'.world.disk k := by
  generalize hts : ks.map (·.t) = ts at hs
  induction hs generalizing w ks with
  | nil h =>
    cases hr
    rintro k (⟨x, hx, hk⟩ | hk) m hm
    · have ht : x.t = [] := h _ (by rw [← hts]; exact List.mem_map_of_mem hx)
      have hi : x.s = .idle := (stop x.left (ht ▸ x.exec)).2 (hn x hx)
      rcases (hT x hx).2 k hk m hm with h | ⟨m', h⟩
      · exact h
      · rw [hi] at h; cases h
    · exact (hJ hc).2 k hk m hm
  | @cons pre post e u t _ ih =>
    obtain ⟨ks1, ks2, rfl, hp1, hp2⟩ := List.map_eq_append_iff.1 hts
    obtain ⟨x, ks3, rfl, hx, hp3⟩ := List.map_eq_cons_iff.1 hp2
    have hxm : x ∈ ks1 ++ x :: ks3 := by simp
    obtain ⟨y, a, hy1, hy2, hm, hwr, hy3, _⟩ := x.advance hx hr.1
    obtain ⟨hJ', hRy, hRo, _⟩ := hm.knows (W := W) (fun k hk => hown x hxm k (hwr k hk)) hJ (hR x hxm)
    obtain ⟨hTy, hTo⟩ := hm.tidy hc hwr x.wrote (hR x hxm) (hT x hxm)
    have hdis : ∀ z, z ∈ ks1 ∨ z ∈ ks3 → ∀ k, z.own k → W k ∧ ¬ x.own k := by
      intro z hz k hk
      refine ⟨hown z (by rcases hz with h | h <;> simp [h]) k hk, fun hk2 => ?_⟩
      rw [List.map_append, List.map_cons, List.pairwise_append, List.pairwise_cons] at hd
      rcases hz with hz | hz
      · exact hd.2.2 z.own (List.mem_map_of_mem hz) x.own (List.mem_cons_self ..) k ⟨hk, hk2⟩
      · exact hd.2.1.1 z.own (List.mem_map_of_mem hz) k ⟨hk2, hk⟩
    have hset : ∀ z ∈ ks1 ++ y :: ks3, (z ∈ ks1 ∨ z ∈ ks3) ∨ z = y := fun z hz => by
      rcases List.mem_append.1 hz with hz | hz
      · exact .inl (.inl hz)
      · rcases List.mem_cons.1 hz with rfl | hz
        · exact .inr rfl
        · exact .inl (.inr hz)
    have hin : ∀ z, z ∈ ks1 ∨ z ∈ ks3 → z ∈ ks1 ++ x :: ks3 := fun z hz => by rcases hz with h | h <;> simp [h]
    have := ih (w := RawLib.next w e) (ks := ks1 ++ y :: ks3)
      (fun z hz => by
        rcases hset z hz with hz | rfl
        · exact hown z (hin z hz)
        · rw [hy2]; exact hown x hxm)
      hJ'
      (fun z hz => by
        rcases hset z hz with hz | rfl
        · exact hRo _ (hR z (hin z hz))
        · exact hRy)
      (by simpa [hy2] using hd)
      (fun z hz => by
        rcases hset z hz with hz | rfl
        · exact hTo _ _ (hdis z hz) z.wrote (hT z (hin z hz))
        · rw [hy2]; exact hTy)
      hr.2
      (fun z hz => by
        rcases hset z hz with hz | rfl
        · exact hn z (hin z hz)
        · exact hy3 (hn x hxm))
      (by simp [hp1, hp3, hy1])
    rintro k (⟨z, hz, hk⟩ | hk)
    · refine this k (.inl ?_)
      rcases List.mem_append.1 hz with hz | hz
      · exact ⟨z, by simp [hz], hk⟩
      · rcases List.mem_cons.1 hz with rfl | hz
        · exact ⟨y, by simp, by rw [hy2]; exact hk⟩
        · exact ⟨z, by simp [hz], hk⟩
    · exact this k (.inr hk)

end CachePar
end Verif
