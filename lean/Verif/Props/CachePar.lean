import Verif.Proofs.CachePar
import Verif.Props.Encrypt
import Verif.Base.Sched
/-
C106: overlapping calls on a `Storage` with its cache.
-/
namespace Verif
open Spec CachePar

/-- A program of the library with an execution on `Storage`, where `Storage.load`, `store` and `delete` consist of several interactions. -/
structure Spec.OnStorage (cached : Bool) where
  did : Did
  trace : List (Event RawSig Exn)
  exec : Exec (Storage.compile cached did.2.1) trace did.2.2

/-- The key is written to the storage, or that is attempted. -/
def Spec.WritesTo (k : Key) (t : List (Event RawSig Exn)) : Prop :=
  (∃ v r, (⟨.rawStore k v, r⟩ : Event RawSig Exn) ∈ t) ∨ ∃ r, (⟨.rawDelete k, r⟩ : Event RawSig Exn) ∈ t

/-- The cache holds what is stored. -/
def Spec.CacheRight (cached : Bool) (w : RawWorld) : Prop := cached = true → ∀ k m, w.cache k = some m → m = w.world.disk k

/-- The programs could have ended like this, and left this world, on a plain map. -/
def Spec.AsOnMap (ds : List Did) (w w' : World) : Prop :=
  ∃ (js : List OnMap) (u : List Ev), js.map (·.did) = ds ∧ Shuffle (js.map (·.trace)) u ∧ Lib.Runs w u w'

/-- C106 in full: programs of the library that overlap on a `Storage` end as they could on a plain map, with the same data stored and the same
interactions with backends, server and application, and the cache holds what is stored afterwards (so that later calls, and a restart, find the same). -/
def C106_Claim (cached : Bool) : Prop :=
  ∀ (ks : List (OnStorage cached)) (t : List (Event RawSig Exn)) (w w' : RawWorld), CacheRight cached w → (∀ x ∈ ks, x.did.2.2 ≠ .crashed) →
    Shuffle (ks.map (·.trace)) t → RawLib.Runs w t w' → AsOnMap (ks.map (·.did)) w.world w'.world ∧ CacheRight cached w'

namespace CachePar
variable {cached : Bool}

/-- The part of a program that has not begun. -/
def begin (x : OnStorage cached) : Part cached :=
  ⟨x.did.1, _, x.did.2.1, .idle, x.trace, x.did.2.2, fun k => WritesTo k x.trace, x.exec, .idle _,
    fun e he k hk => by
      obtain ⟨o, r⟩ := e
      cases o with
      | rawStore k' v => cases hk; exact .inl ⟨v, r, he⟩
      | rawDelete k' => cases hk; exact .inr ⟨r, he⟩
      | _ => exact absurd hk id,
    fun _ _ h => by cases h⟩

theorem begin_t (ks : List (OnStorage cached)) : (ks.map begin).map (·.t) = ks.map (·.trace) := by simp [begin]
theorem begin_did (ks : List (OnStorage cached)) : (ks.map begin).map (·.did) = ks.map (·.did) := by simp [begin, Part.did]

/-- Some program writes the key. -/
def written (ks : List (OnStorage cached)) (k : Key) : Prop := ∃ x ∈ ks, WritesTo k x.trace

theorem look_same {w : RawWorld} (h : CacheRight cached w) : seen cached w = w.world := by
  have : look cached w = w.world.disk := by
    funext k
    simp only [look]
    split
    · rename_i hc
      cases hk : w.cache k with
      | none => rfl
      | some m => exact h hc k m hk
    · rfl
  simp only [seen, this]

theorem warm {ks : List (OnStorage cached)} {w : RawWorld} (h : CacheRight cached w) (hw : cached = true → ∀ k, written ks k → w.cache k ≠ none) :
    Warm cached (written ks) w := fun hc => ⟨hw hc, fun k _ m hm => h hc k m hm⟩

end CachePar

/-- What holds of C106 in any case: if every key that is written by one of the programs is in the cache to begin with, what the programs see is what
they would see on a plain map.  They may crash. -/
theorem C106_seen (cached : Bool) (ks : List (OnStorage cached)) (t : List (Event RawSig Exn)) (w w' : RawWorld) (hi : CacheRight cached w)
    (hw : cached = true → ∀ x ∈ ks, ∀ k, WritesTo k x.trace → w.cache k ≠ none) (hs : Shuffle (ks.map (·.trace)) t) (hr : RawLib.Runs w t w') :
    AsOnMap (ks.map (·.did)) w.world { w'.world with disk := fun k => if cached then (w'.cache k).getD (w'.world.disk k) else w'.world.disk k } := by
  obtain ⟨js, u, h1, h2, h3⟩ := explained (W := written ks) (ks := ks.map begin)
    (fun x hx k hk => by
      obtain ⟨y, hy, rfl⟩ := List.mem_map.1 hx
      exact ⟨y, hy, hk⟩)
    (warm hi fun hc k ⟨x, hx, hk⟩ => hw hc x hx k hk)
    (fun x hx => by
      obtain ⟨y, hy, rfl⟩ := List.mem_map.1 hx
      trivial)
    (by rw [begin_t]; exact hs) hr
  rw [look_same hi] at h3
  exact ⟨js, u, by rw [h1, begin_did], h2, h3⟩

/-- Without the cache, C106 holds. -/
theorem C106_uncached_partial : C106_Claim false := fun ks t w w' hi _ hs hr =>
  ⟨C106_seen false ks t w w' hi nofun hs hr, nofun⟩

/-- With the cache, C106 holds if every key that is written is in the cache to begin with, and is written by only one of the programs. -/
theorem C106_partial (ks : List (OnStorage true)) (t : List (Event RawSig Exn)) (w w' : RawWorld) (hi : CacheRight true w)
    (hn : ∀ x ∈ ks, x.did.2.2 ≠ .crashed) (hw : ∀ x ∈ ks, ∀ k, WritesTo k x.trace → w.cache k ≠ none)
    (hone : ks.Pairwise fun x y => ∀ k, ¬ (WritesTo k x.trace ∧ WritesTo k y.trace))
    (hs : Shuffle (ks.map (·.trace)) t) (hr : RawLib.Runs w t w') : AsOnMap (ks.map (·.did)) w.world w'.world ∧ CacheRight true w' := by
  have hin : CacheRight true w' := by
    intro _ k m hm
    refine tidied (W := written ks) (ks := ks.map begin) rfl
      (fun x hx k hk => by
        obtain ⟨y, hy, rfl⟩ := List.mem_map.1 hx
        exact ⟨y, hy, hk⟩)
      (warm hi fun _ k ⟨x, hx, hk⟩ => hw x hx k hk)
      (fun x hx => by
        obtain ⟨y, hy, rfl⟩ := List.mem_map.1 hx
        trivial)
      (by
        rw [List.map_map, List.pairwise_map]
        exact hone)
      (fun x hx => by
        obtain ⟨y, hy, rfl⟩ := List.mem_map.1 hx
        exact ⟨nofun, fun k _ m hm => .inl (hi rfl k m hm)⟩)
      (by rw [begin_t]; exact hs) hr
      (fun x hx => by
        obtain ⟨y, hy, rfl⟩ := List.mem_map.1 hx
        exact hn y hy) k ?_ m hm
    by_cases h : written ks k
    · obtain ⟨x, hx, hk⟩ := h
      exact .inl ⟨begin x, List.mem_map_of_mem hx, hk⟩
    · exact .inr h
  refine ⟨?_, hin⟩
  have := C106_seen true ks t w w' hi (fun _ => hw) hs hr
  have he := look_same hin
  simp only [seen] at he
  unfold look at he
  rw [he] at this
  exact this

namespace CachePar

/-- A storage that answers every call, together with answers `f` of backends, server and application. -/
def answers (f : World → (o : Op) → Except Exn o.Ret) (w : RawWorld) : (o : ROp) → Except Exn o.Ret
  | .rawLoad k => .ok (w.world.disk k)
  | .rawStore _ _ => .ok ()
  | .rawDelete _ => .ok ()
  | .cacheGet k => .ok (w.cache k)
  | .cacheSet _ _ => .ok ()
  | .other o => Lib.env f w.world o

theorem answers_ok (f : World → (o : Op) → Except Exn o.Ret) (hf : ∀ w o e, f w o = .error e → e.isInternal = false) (w : RawWorld) (o : ROp) :
    RawLib.ok w ⟨o, answers f w o⟩ := by
  cases o with
  | other o => exact Lib.env_ok f hf w.world o
  | _ => first | rfl | trivial

/-- Nothing is cached yet. -/
def cold : RawWorld := ⟨World.chat, fun _ => none⟩

/-- The key of a device of "a" is distrusted while the information about the devices of "a" is looked up. -/
def calls : List (R Unit) := [Storage.compile true ((Call.getDeviceInformation "a").run Mgr.ex), Storage.compile true ((Call.setTrust "a" [7] "distrusted").run Mgr.ex)]
def overlap (n : Nat) := sched (answers polite) RawLib.next (List.replicate n 0 ++ [1, 1] ++ List.replicate 60 0) calls cold

/-- Then a message for "a" is encrypted. -/
def later := runProg (answers polite) RawLib.next 300 (Storage.compile true (SM.encrypt Mgr.ex ["a"] [("n", [1]), ("o", [1, 2])] none none)) (overlap 17).2.2.2

/-- Two decisions about one key at the same time. -/
def decisions : List (R Unit) := [Storage.compile true ((Call.setTrust "a" [7] "trusted").run Mgr.ex), Storage.compile true ((Call.setTrust "a" [7] "distrusted").run Mgr.ex)]
def tangled := sched (answers polite) RawLib.next [0, 1, 1, 0] decisions cold

/-- Everything is cached. -/
def warmed : RawWorld := ⟨World.chat, fun k => some (World.chat.disk k)⟩
def settled := sched (answers polite) RawLib.next (List.replicate 17 0 ++ [1, 1] ++ List.replicate 60 0) calls warmed

def strIs (s : String) : Option JVal → Bool
  | some (.str s') => decide (s' = s)
  | _ => false

theorem strIs_eq {s : String} {v : Option JVal} (h : strIs s v = true) : v = some (.str s) := by
  cases v with
  | none => cases h
  | some v => cases v <;> first | (cases h; done) | (simp only [strIs, decide_eq_true_eq] at h; rw [h])

/-- Writes only the trust level of the key. -/
def onlyTrust : Event RawSig Exn → Bool
  | ⟨.rawStore k _, _⟩ => decide (k = .trust "a" [7])
  | ⟨.rawDelete _, _⟩ => false
  | _ => true

theorem onlyTrust_of {t : List (Event RawSig Exn)} (h : t.all onlyTrust = true) {k : Key} (hk : WritesTo k t) : k = .trust "a" [7] := by
  rcases hk with ⟨v, r, hm⟩ | ⟨r, hm⟩
  · simpa [onlyTrust] using List.all_eq_true.1 h _ hm
  · cases List.all_eq_true.1 h _ hm

/-- Does not write the trust level of the key. -/
def notTrust : Event RawSig Exn → Bool
  | ⟨.rawStore k _, _⟩ | ⟨.rawDelete k, _⟩ => !decide (k = .trust "a" [7])
  | _ => true

theorem notTrust_of {t : List (Event RawSig Exn)} (h : t.all notTrust = true) {k : Key} (hk : WritesTo k t) : k ≠ .trust "a" [7] := by
  rcases hk with ⟨v, r, hm⟩ | ⟨r, hm⟩
  · simpa [notTrust] using List.all_eq_true.1 h _ hm
  · simpa [notTrust] using List.all_eq_true.1 h _ hm

theorem cold_right : CacheRight true cold := fun _ _ _ h => by cases h

end CachePar

/-- With the cache, C106 is wrong: a load that was under way when `set_trust` stored puts the old trust level into the cache. -/
theorem C106_refuted : ¬ C106_Claim true := by
  intro hc
  have hx := sched_ok RawLib (answers polite) (answers_ok polite polite_ok) (List.replicate 17 0 ++ [1, 1] ++ List.replicate 60 0) calls cold
  change SchedOk _ _ _ (overlap 17) at hx
  have c1 : (overlap 17).2.1[0]?.any (Prog.isOk fun _ => true) = true := by decide +kernel
  have c2 : (overlap 17).2.1[1]?.any (Prog.isOk fun _ => true) = true := by decide +kernel
  have c3 : ((overlap 17).2.2.2.cache (.trust "a" [7])).any (strIs "trusted") = true := by decide +kernel
  have c4 : strIs "distrusted" ((overlap 17).2.2.2.world.disk (.trust "a" [7])) = true := by decide +kernel
  generalize overlap 17 = x at hx c1 c2 c3 c4
  obtain ⟨ts, y, t, w'⟩ := x
  obtain ⟨t1, t2, rfl⟩ := list2 (l := ts) hx.len
  obtain ⟨a1, e1, -⟩ := hx.isOk 0 rfl rfl _ c1
  obtain ⟨a2, e2, -⟩ := hx.isOk 1 rfl rfl _ c2
  have := (hc [⟨⟨Unit, _, _⟩, t1, e1⟩, ⟨⟨Unit, _, _⟩, t2, e2⟩] t cold w' cold_right (by
    intro x hx
    rcases List.mem_cons.1 hx with rfl | hx
    · nofun
    · rw [List.mem_singleton] at hx
      subst hx
      nofun) hx.shuffle hx.runs).2 rfl (.trust "a" [7])
  simp only at c3 c4 this
  cases hk : w'.cache (.trust "a" [7]) with
  | none => rw [hk] at c3; cases c3
  | some m =>
    rw [hk] at c3
    have h1 := strIs_eq (v := m) c3
    have h2 := strIs_eq c4
    have h3 := this m hk
    rw [h1, h2] at h3
    exact absurd h3 (by simp)

/-- What that means: `set_trust` has distrusted the key and has returned, and so have all calls it overlapped with.  Still, `encrypt` encrypts for the
device with that key.  (After a restart, the key is distrusted.) -/
theorem C106_revoked : ∃ t1 t2 t w1, Exec (Storage.compile true ((Call.getDeviceInformation "a").run Mgr.ex)) t1 (.ok ()) ∧
    Exec (Storage.compile true ((Call.setTrust "a" [7] "distrusted").run Mgr.ex)) t2 (.ok ()) ∧ Shuffle [t1, t2] t ∧ RawLib.Runs cold t w1 ∧
    w1.world.disk (.trust "a" [7]) = some (.str "distrusted") ∧
    ∃ t3 w2 messages errors, Exec (Storage.compile true (SM.encrypt Mgr.ex ["a"] [("n", [1]), ("o", [1, 2])] none none)) t3 (.ok (messages, errors)) ∧
      RawLib.Runs w1 t3 w2 ∧ ∃ m ∈ messages, ∃ k ∈ m.1.keys, k.1.bareJid = "a" ∧ k.1.deviceId = 7 := by
  have hx := sched_ok RawLib (answers polite) (answers_ok polite polite_ok) (List.replicate 17 0 ++ [1, 1] ++ List.replicate 60 0) calls cold
  change SchedOk _ _ _ (overlap 17) at hx
  have hl := runProg_exec (answers polite) RawLib.next 300 (Storage.compile true (SM.encrypt Mgr.ex ["a"] [("n", [1]), ("o", [1, 2])] none none)) (overlap 17).2.2.2
  have hr := runProg_runs RawLib (answers polite) (answers_ok polite polite_ok) 300
    (Storage.compile true (SM.encrypt Mgr.ex ["a"] [("n", [1]), ("o", [1, 2])] none none)) (overlap 17).2.2.2
  change Exec _ later.1 later.2.1 at hl
  change RawLib.Runs _ later.1 later.2.2 at hr
  have c1 : (overlap 17).2.1[0]?.any (Prog.isOk fun _ => true) = true := by decide +kernel
  have c2 : (overlap 17).2.1[1]?.any (Prog.isOk fun _ => true) = true := by decide +kernel
  have c4 : strIs "distrusted" ((overlap 17).2.2.2.world.disk (.trust "a" [7])) = true := by decide +kernel
  have c5 : (match later.2.1 with
    | .ok (ms, _) => ms.any fun m => m.1.keys.any fun k => decide (k.1.bareJid = "a" ∧ k.1.deviceId = 7)
    | _ => false) = true := by decide +kernel
  generalize later = z at hl hr c5
  generalize overlap 17 = x at hx c1 c2 c4 hr
  obtain ⟨ts, y, t, w'⟩ := x
  obtain ⟨t1, t2, rfl⟩ := list2 (l := ts) hx.len
  obtain ⟨⟨⟩, e1, -⟩ := hx.isOk 0 rfl rfl _ c1
  obtain ⟨⟨⟩, e2, -⟩ := hx.isOk 1 rfl rfl _ c2
  obtain ⟨t3, r, w2⟩ := z
  refine ⟨t1, t2, t, w', e1, e2, hx.shuffle, hx.runs, strIs_eq c4, t3, w2, ?_⟩
  simp only at c5 hl hr
  split at c5
  · obtain ⟨m, hm, h⟩ := List.any_eq_true.1 c5
    obtain ⟨k, hk, h⟩ := List.any_eq_true.1 h
    exact ⟨_, _, hl, hr, m, hm, k, hk, of_decide_eq_true h⟩
  · cases c5

/-- Two calls of `set_trust` that overlap leave the key trusted until the next restart and distrusted afterwards, even without loads. -/
theorem C106_diverge : ∃ t1 t2 t w1, Exec (Storage.compile true ((Call.setTrust "a" [7] "trusted").run Mgr.ex)) t1 (.ok ()) ∧
    Exec (Storage.compile true ((Call.setTrust "a" [7] "distrusted").run Mgr.ex)) t2 (.ok ()) ∧ Shuffle [t1, t2] t ∧ RawLib.Runs cold t w1 ∧
    w1.cache (.trust "a" [7]) = some (some (.str "trusted")) ∧ w1.world.disk (.trust "a" [7]) = some (.str "distrusted") := by
  have hx := sched_ok RawLib (answers polite) (answers_ok polite polite_ok) [0, 1, 1, 0] decisions cold
  change SchedOk _ _ _ tangled at hx
  have c1 : tangled.2.1[0]?.any (Prog.isOk fun _ => true) = true := by decide +kernel
  have c2 : tangled.2.1[1]?.any (Prog.isOk fun _ => true) = true := by decide +kernel
  have c3 : (tangled.2.2.2.cache (.trust "a" [7])).any (strIs "trusted") = true := by decide +kernel
  have c4 : strIs "distrusted" (tangled.2.2.2.world.disk (.trust "a" [7])) = true := by decide +kernel
  generalize tangled = x at hx c1 c2 c3 c4
  obtain ⟨ts, y, t, w'⟩ := x
  obtain ⟨t1, t2, rfl⟩ := list2 (l := ts) hx.len
  obtain ⟨⟨⟩, e1, -⟩ := hx.isOk 0 rfl rfl _ c1
  obtain ⟨⟨⟩, e2, -⟩ := hx.isOk 1 rfl rfl _ c2
  refine ⟨t1, t2, t, w', e1, e2, hx.shuffle, hx.runs, ?_, strIs_eq c4⟩
  simp only at c3 ⊢
  cases hk : w'.cache (.trust "a" [7]) with
  | none => rw [hk] at c3; cases c3
  | some m => rw [hk] at c3; rw [strIs_eq (v := m) c3]

/-- The hypotheses of `C106_partial` are met by the calls of the refutation, with the same schedule, if everything was loaded before. -/
theorem C106_example : ∃ (ks : List (OnStorage true)) (t : List (Event RawSig Exn)) (w w' : RawWorld), ks.length = 2 ∧ CacheRight true w ∧
    (∀ x ∈ ks, x.did.2.2 ≠ .crashed) ∧ (∀ x ∈ ks, ∀ k, WritesTo k x.trace → w.cache k ≠ none) ∧
    (ks.Pairwise fun x y => ∀ k, ¬ (WritesTo k x.trace ∧ WritesTo k y.trace)) ∧ Shuffle (ks.map (·.trace)) t ∧ RawLib.Runs w t w' ∧
    strIs "trusted" (w.world.disk (.trust "a" [7])) = true ∧ strIs "distrusted" (w'.world.disk (.trust "a" [7])) = true := by
  have hx := sched_ok RawLib (answers polite) (answers_ok polite polite_ok) (List.replicate 17 0 ++ [1, 1] ++ List.replicate 60 0) calls warmed
  change SchedOk _ _ _ settled at hx
  have hi : CacheRight true warmed := fun _ k m h => by cases h; rfl
  have c1 : settled.2.1[0]?.any (Prog.isOk fun _ => true) = true := by decide +kernel
  have c2 : settled.2.1[1]?.any (Prog.isOk fun _ => true) = true := by decide +kernel
  have c3 : (settled.1[0]?.getD []).all notTrust = true := by decide +kernel
  have c4 : (settled.1[1]?.getD []).all onlyTrust = true := by decide +kernel
  have c5 : strIs "trusted" (warmed.world.disk (.trust "a" [7])) = true := by decide +kernel
  have c6 : strIs "distrusted" (settled.2.2.2.world.disk (.trust "a" [7])) = true := by decide +kernel
  have c7 : ∀ k, warmed.cache k ≠ none := nofun
  generalize settled = x at hx c1 c2 c3 c4 c6
  generalize warmed = w at hx hi c5 c7
  obtain ⟨ts, y, t, w'⟩ := x
  obtain ⟨t1, t2, rfl⟩ := list2 (l := ts) hx.len
  obtain ⟨a1, e1, -⟩ := hx.isOk 0 rfl rfl _ c1
  obtain ⟨a2, e2, -⟩ := hx.isOk 1 rfl rfl _ c2
  simp only [List.getElem?_cons_zero, List.getElem?_cons_succ, Option.getD_some] at c3 c4
  refine ⟨[⟨⟨Unit, _, _⟩, t1, e1⟩, ⟨⟨Unit, _, _⟩, t2, e2⟩], t, w, w', rfl, hi, ?_, ?_, ?_, hx.shuffle, hx.runs, c5, c6⟩
  · intro x hx
    rcases List.mem_cons.1 hx with rfl | hx
    · nofun
    · rw [List.mem_singleton] at hx
      subst hx
      nofun
  · exact fun _ _ k _ => c7 k
  · exact List.pairwise_pair.2 fun k hk => notTrust_of c3 hk.1 (onlyTrust_of c4 hk.2)

end Verif
