import Verif.Props.Purge
/-
C57, C58: purging a JID.
-/
namespace Verif
namespace Spec

/-- Device `d` is on the stored device list of `jid`. -/
def OnList (m : Disk) (jid : Jid) (d : DevId) : Prop := ∃ l, m (.devList jid) = some (.list l) ∧ d ∈ l.map JVal.asInt

/-- The places with data about device `d` of `jid`. -/
def DataOf (jid : Jid) (d : DevId) (k : Key) : Prop :=
  k = .devNamespaces jid d ∨ k = .devActive jid d ∨ k = .devLabel jid d ∨ k = .devIdentityKey jid d

/-- The places emptied by purging `jid`: the device list, the data of the listed devices, the trust in their identity keys. -/
def Purged (m : Disk) (jid : Jid) (k : Key) : Prop :=
  k = .devList jid ∨ (∃ d, OnList m jid d ∧ DataOf jid d k) ∨ ∃ d ik, OnList m jid d ∧ Keyed m jid d ik ∧ k = .trust jid ik

/-- All places with device lists, device data and trust of `jid`. -/
def AboutJid (jid : Jid) (k : Key) : Prop := k = .devList jid ∨ (∃ d, DataOf jid d k) ∨ ∃ ik, k = .trust jid ik

/-- What an attempt to purge `jid` leaves behind, wherever it ends. -/
structure PurgeTried (jid : Jid) (m m' : Disk) : Prop where
  /-- data is only deleted -/
  deletes : ∀ k, m' k = m k ∨ m' k = none
  /-- only data about the JID -/
  about : ∀ k, ¬ AboutJid jid k → m' k = m k
  /-- the device list goes after the data of the devices on it -/
  order : m' (.devList jid) = m (.devList jid) ∨ ∀ d, OnList m jid d → ∀ k, DataOf jid d k → m' k = none

theorem PurgeTried.refl (jid : Jid) (m : Disk) : PurgeTried jid m m := ⟨fun _ => .inl rfl, fun _ _ => rfl, .inl rfl⟩

theorem PurgeTried.trans {jid : Jid} {m m1 m2 : Disk} (h : PurgeTried jid m m1) (h' : PurgeTried jid m1 m2) : PurgeTried jid m m2 := by
  refine ⟨fun k => ?_, fun k hk => (h'.about k hk).trans (h.about k hk), ?_⟩
  · rcases h'.deletes k with h1 | h1
    · rw [h1]; exact h.deletes k
    · exact .inr h1
  · rcases h.order with h1 | h1
    · rcases h'.order with h2 | h2
      · exact .inl (h2.trans h1)
      · refine .inr fun d hd => h2 d ?_
        unfold OnList at *
        rwa [h1]
    · refine .inr fun d hd k hk => ?_
      rcases h'.deletes k with h2 | h2
      · rw [h2]; exact h1 d hd k hk
      · exact h2

end Spec
open Spec SM

namespace SM
variable {M : Mgr} {jid : Jid}

/-- Exactly the places in `K` were emptied. -/
structure Wiped (K : Key → Prop) (w w' : World) : Prop where
  gone : ∀ k, K k → w'.disk k = none
  rest : ∀ k, ¬ K k → w'.disk k = w.disk k
  backends : w'.backends = w.backends
  log : w'.log = w.log

theorem Wiped.refl (w : World) : Wiped (fun _ => False) w w := ⟨nofun, fun _ _ => rfl, rfl, rfl⟩

theorem Wiped.deletes {K : Key → Prop} {w w' : World} (h : Wiped K w w') (k : Key) : w'.disk k = w.disk k ∨ w'.disk k = none := by
  by_cases hk : K k
  · exact .inr (h.gone k hk)
  · exact .inl (h.rest k hk)

theorem Wiped.trans {K K' L : Key → Prop} {w w1 w2 : World} (h : Wiped K w w1) (h' : Wiped K' w1 w2) (hL : ∀ k, L k ↔ K k ∨ K' k) : Wiped L w w2 := by
  refine ⟨fun k hk => ?_, fun k hk => ?_, h'.backends.trans h.backends, h'.log.trans h.log⟩
  · by_cases hk' : K' k
    · exact h'.gone k hk'
    · rw [h'.rest k hk', h.gone k (((hL k).1 hk).resolve_right hk')]
  · rw [hL] at hk
    rw [h'.rest k fun x => hk (.inr x), h.rest k fun x => hk (.inl x)]

/-- `p` empties the places in `K`; if it does not end, some of them. -/
def Wipes (K : Key → Prop) (p : P Unit) : Prop :=
  ∀ w, wp Lib p (ends (fun _ w' => Wiped K w w') fun _ w' => ∃ K', (∀ k, K' k → K k) ∧ Wiped K' w w') w

theorem Wipes.delete (k : Key) : Wipes (· = k) (call (.delete k)) := by
  refine fun w => Lib.delete (fun x _ => ⟨_, nofun, .refl w⟩) ⟨?_, fun k' hk => Disk.upd_of_ne hk, rfl, rfl⟩
  rintro k' rfl; exact Disk.upd_self

theorem Wipes.seq {K K' L : Key → Prop} {p : P Unit} {q : Unit → P Unit} (h : Wipes K p) (h' : ∀ u, Wipes K' (q u)) (hL : ∀ k, L k ↔ K k ∨ K' k) :
    Wipes L (p >>= q) := by
  intro w
  rw [ends_bind]
  refine ends_mono (h w) (fun _ w1 h1 => ends_mono (h' _ w1) (fun _ w2 h2 => h1.trans h2 hL) ?_) ?_
  · rintro x w2 ⟨K2, hs, h2⟩
    refine ⟨fun k => K k ∨ K2 k, fun k hk => (hL k).2 (hk.imp_right (hs k)), h1.trans h2 fun _ => Iff.rfl⟩
  · rintro x w2 ⟨K2, hs, h2⟩
    exact ⟨K2, fun k hk => (hL k).2 (.inl (hs k hk)), h2⟩

theorem Wipes.forEach {α : Type} {xs : List α} {f : α → P Unit} {K : α → Key → Prop} (h : ∀ x, Wipes (K x) (f x)) :
    Wipes (fun k => ∃ x ∈ xs, K x k) (Prog.forEach xs f) := by
  intro w
  refine ends_forEach (fun done _ w' => Wiped (fun k => ∃ x ∈ done, K x k) w w') ?_ ?_ fun _ h => h
  · refine ⟨fun k hk => ?_, fun _ _ => rfl, rfl, rfl⟩
    obtain ⟨x, hx, -⟩ := hk
    cases hx
  · rintro done x rest w1 hxs h1
    refine ends_mono (h x w1) (fun _ w2 h2 => h1.trans h2 fun k => ?_) ?_
    · simp only [List.mem_append, List.mem_singleton]
      constructor
      · rintro ⟨y, hy | rfl, hk⟩
        · exact .inl ⟨y, hy, hk⟩
        · exact .inr hk
      · rintro (⟨y, hy, hk⟩ | hk)
        · exact ⟨y, .inl hy, hk⟩
        · exact ⟨x, .inr rfl, hk⟩
    · rintro e w2 ⟨K', hs, h2⟩
      refine ⟨_, ?_, h1.trans h2 fun _ => Iff.rfl⟩
      rintro k (⟨y, hy, hk⟩ | hk)
      · exact ⟨y, by simp [hxs, hy], hk⟩
      · exact ⟨x, by simp [hxs], hs k hk⟩

theorem Wipes.device (d : DevId) : Wipes (DataOf jid d) (deleteDevice jid d) := by
  unfold deleteDevice
  exact .seq (.delete _) (fun _ => .seq (.delete _) (fun _ => .seq (.delete _) (fun _ => .delete _) fun _ => Iff.rfl) fun _ => Iff.rfl) fun _ => Iff.rfl

theorem ints_list {v : JVal} {b : List Int} (h : chkInts v = .ok b) : ∃ l, v = .list l ∧ b = l.map JVal.asInt := by
  unfold chkInts checkList at h
  split at h
  · split at h
    · cases h; exact ⟨_, rfl, rfl⟩
    · cases h
  · cases h

theorem collect (ids : List DevId) (w : World) : wp Lib (collectIdentityKeys jid ids)
    (ends (fun keys w' => w' = w ∧ ∀ ik, ik ∈ keys ↔ ∃ d ∈ ids, Keyed w.disk jid d ik) fun _ w' => w' = w) w := by
  unfold collectIdentityKeys
  refine ends_fold (fun done _ keys w' => w' = w ∧ ∀ ik, ik ∈ keys ↔ ∃ d ∈ done, Keyed w.disk jid d ik) ⟨rfl, by simp⟩ ?_ fun b w' h => h
  rintro done d rest keys w1 - ⟨rfl, h⟩
  have split : ∀ ik, (∃ x ∈ done ++ [d], Keyed w1.disk jid x ik) ↔ ik ∈ keys ∨ Keyed w1.disk jid d ik := by
    intro ik
    simp [or_and_right, exists_or, h]
  unfold onNothing
  rw [wp_tryCatch]
  refine wp_mono (Q := ends (fun o w' => w' = w1 ∧ ∃ ik, o = setAdd keys ik ∧ Keyed w1.disk jid d ik)
    fun x w' => w' = w1 ∧ (x = some .nothingException → w1.disk (.devIdentityKey jid d) = none)) ?_ ?_
  · refine Lib.typedJust (fun x hx => ⟨rfl, ?_⟩) (fun e he => ⟨rfl, ?_⟩) fun b hb => ⟨rfl, b, rfl, ?_⟩
    · rintro rfl; cases hx
    · rintro ⟨⟩
      cases hv : w1.disk (.devIdentityKey jid d) with
      | none => rfl
      | some v =>
        rw [hv] at he
        simp only [rd] at he
        unfold checkBytes at he
        split at he
        · split at he <;> cases he
        · cases he
    · cases hv : w1.disk (.devIdentityKey jid d) with
      | none => rw [hv] at hb; cases hb
      | some v =>
        rw [hv] at hb
        simp only [rd] at hb
        unfold checkBytes at hb
        split at hb
        · split at hb
          · cases hb; exact ⟨_, hv, ‹_›⟩
          · cases hb
        · cases hb
  · intro r w' hr
    cases r with
    | ok a =>
      obtain ⟨rfl, ik, rfl, hk⟩ := hr
      refine ⟨rfl, fun ik' => ?_⟩
      rw [split, mem_setAdd]
      refine or_congr_right ⟨?_, ?_⟩
      · rintro rfl; exact hk
      · obtain ⟨s, h1, h2⟩ := hk
        rintro ⟨s', h1', h2'⟩
        rw [h1] at h1'
        cases h1'
        rw [h2] at h2'
        cases h2'
        rfl
    | crashed => exact hr.1
    | raised e =>
      obtain ⟨rfl, hn⟩ := hr
      simp only [handled]
      split
      · subst e
        refine ⟨rfl, fun ik' => ?_⟩
        rw [split]
        refine ⟨.inl, fun h => h.resolve_right ?_⟩
        rintro ⟨s, hs, -⟩
        rw [hn rfl] at hs
        cases hs
      · rfl

theorem PurgeTried.of_wiped {K : Key → Prop} {w w' : World} (h : Wiped K w w') (ha : ∀ k, K k → AboutJid jid k)
    (ho : ¬ K (.devList jid) ∨ ∀ d, OnList w.disk jid d → ∀ k, DataOf jid d k → K k) : PurgeTried jid w.disk w'.disk :=
  ⟨h.deletes, fun k hk => h.rest k fun x => hk (ha k x), ho.imp (h.rest _) fun x d hd k hk => h.gone k (x d hd k hk)⟩

theorem not_data {d : DevId} : ¬ DataOf jid d (.devList jid) := by
  rintro (h | h | h | h) <;> cases h

end SM

/-- The whole purge, wherever it ends. -/
theorem SM.purge_jid {M : Mgr} {jid : Jid} (w : World) : wp Lib (purgeBareJid M jid)
    (ends (fun _ w' => (∀ k, Purged w.disk jid k → w'.disk k = none) ∧ (∀ k, ¬ Purged w.disk jid k → w'.disk k = w.disk k) ∧
      w'.backends = w.backends ∧ w'.log = w.log ++ w.backends.map fun ns => ⟨.purgeJid ns jid, .ok ()⟩)
      fun _ w' => PurgeTried jid w.disk w'.disk) w := by
  unfold purgeBareJid
  rw [ends_bind]
  have start : ∀ l : List Int, (∀ d, d ∈ l ↔ OnList w.disk jid d) → wp Lib (do
      let keys ← collectIdentityKeys jid (M.O.iter (dedup l))
      Prog.forEach (M.O.iter (dedup l)) (deleteDevice jid)
      call (.delete (.devList jid))
      Prog.forEach (M.O.iter keys) fun ik => call (.delete (.trust jid ik))
      let bs ← call .getBackends
      Prog.forEach bs fun ns => call (.purgeJid ns jid))
      (ends (fun _ w' => (∀ k, Purged w.disk jid k → w'.disk k = none) ∧ (∀ k, ¬ Purged w.disk jid k → w'.disk k = w.disk k) ∧
        w'.backends = w.backends ∧ w'.log = w.log ++ w.backends.map fun ns => ⟨.purgeJid ns jid, .ok ()⟩)
        fun _ w' => PurgeTried jid w.disk w'.disk) w := by
    intro l hl
    have hl' : ∀ d, d ∈ M.O.iter (dedup l) ↔ OnList w.disk jid d := fun d => by rw [M.O.mem_iter, mem_dedup, hl]
    rw [ends_bind]
    refine ends_mono (collect _ w) ?_ fun _ w' h => h ▸ .refl _ _
    rintro keys _ ⟨rfl, hk⟩
    rename_i w
    rw [ends_bind]
    refine ends_mono (Wipes.forEach (K := DataOf jid) Wipes.device w) ?_ ?_
    · rintro _ w1 h1
      rw [ends_bind]
      refine ends_mono (Wipes.delete _ w1) ?_ ?_
      · rintro _ w2 h2
        have h2' := h1.trans h2 fun _ => Iff.rfl
        rw [ends_bind]
        refine ends_mono (Wipes.forEach (K := fun ik k => k = .trust jid ik) (fun ik => Wipes.delete _) w2) ?_ ?_
        · rintro _ w3 h3
          have h4 : Wiped (Purged w.disk jid) w w3 := by
            refine h2'.trans h3 fun k => ?_
            unfold Purged
            simp only [hl', M.O.mem_iter, hk]
            constructor
            · rintro (h | ⟨d, h⟩ | ⟨d, ik, h1, h2, h3⟩)
              · exact .inl (.inr h)
              · exact .inl (.inl ⟨d, h⟩)
              · exact .inr ⟨ik, ⟨d, h1, h2⟩, h3⟩
            · rintro ((⟨d, h⟩ | h) | ⟨ik, ⟨d, h1, h2⟩, h3⟩)
              · exact .inr (.inl ⟨d, h⟩)
              · exact .inl h
              · exact .inr (.inr ⟨d, ik, h1, h2, h3⟩)
          have tried : ∀ w' : World, w'.disk = w3.disk → PurgeTried jid w.disk w'.disk := by
            intro w' hw
            rw [hw]
            refine PurgeTried.of_wiped h4 ?_ (.inr fun d hd k hk => .inr (.inl ⟨d, hd, hk⟩))
            rintro k (h | ⟨d, -, h⟩ | ⟨d, ik, -, -, h⟩)
            · exact .inl h
            · exact .inr (.inl ⟨d, h⟩)
            · exact .inr (.inr ⟨ik, h⟩)
          rw [ends_bind]
          refine Lib.getBackends (tried _ rfl) ?_
          refine ends_forEach (fun done _ w' => w'.disk = w3.disk ∧ w'.backends = w3.backends ∧ w'.log = w3.log ++ done.map fun ns => ⟨.purgeJid ns jid, .ok ()⟩)
            ⟨rfl, rfl, by simp⟩ ?_ ?_
          · rintro done ns rest w' - ⟨a, b, c⟩
            refine Lib.ext rfl (tried _ a) (fun e _ => tried _ a) fun _ => ⟨a, b, ?_⟩
            simp [World.push, c]
          · rintro w' ⟨a, b, c⟩
            rw [a, b, c, h4.log, h4.backends]
            exact ⟨h4.gone, h4.rest, rfl, rfl⟩
        · rintro x w3 ⟨K, hK, h3⟩
          refine PurgeTried.of_wiped (h2'.trans h3 fun _ => Iff.rfl) ?_ (.inr fun d hd k hk => .inl (.inl ⟨d, (hl' d).2 hd, hk⟩))
          rintro k ((⟨d, -, h⟩ | h) | h)
          · exact .inr (.inl ⟨d, h⟩)
          · exact .inl h
          · obtain ⟨ik, -, h⟩ := hK k h
            exact .inr (.inr ⟨ik, h⟩)
      · rintro x w2 ⟨K, hK, h2⟩
        refine PurgeTried.of_wiped (h1.trans h2 fun _ => Iff.rfl) ?_ (.inr fun d hd k hk => .inl ⟨d, (hl' d).2 hd, hk⟩)
        rintro k (⟨d, -, h⟩ | h)
        · exact .inr (.inl ⟨d, h⟩)
        · exact .inl (hK k h)
    · rintro x w1 ⟨K, hK, h1⟩
      refine PurgeTried.of_wiped h1 ?_ (.inl ?_)
      · intro k hk
        obtain ⟨d, -, h⟩ := hK k hk
        exact .inr (.inl ⟨d, h⟩)
      · intro hk
        obtain ⟨d, -, h⟩ := hK _ hk
        exact not_data h
  refine Lib.typed (fun x _ => .refl _ _) (fun v e _ _ => .refl _ _) (fun h0 => ?_) fun v b hv hb => ?_
  · refine start [] fun d => ?_
    simp [OnList, h0]
  · refine start b fun d => ?_
    obtain ⟨l, rfl, rfl⟩ := ints_list hb
    constructor
    · exact fun h => ⟨l, hv, h⟩
    · rintro ⟨l', h1, h2⟩
      rw [hv] at h1
      cases h1
      exact h2

/-- A successful `purge_bare_jid` empties exactly the places in `Purged` (the device list, everything about the devices on it, the
trust in the identity keys stored for them), and then has every loaded backend, once and in order, purge the JID. -/
theorem C57_partial (M : Mgr) (jid : Jid) (t : List Ev) (w w' : World) (he : Exec (purgeBareJid M jid) t (.ok ())) (hr : Lib.Runs w t w') :
    (∀ k, Purged w.disk jid k → w'.disk k = none) ∧ (∀ k, ¬ Purged w.disk jid k → w'.disk k = w.disk k) ∧
      w'.backends = w.backends ∧ w'.log = w.log ++ w.backends.map fun ns => ⟨.purgeJid ns jid, .ok ()⟩ :=
  wp_sound (purge_jid w) he hr

/-- Attempts to purge `jid`, one after the other, each with any ending; each may use a new manager. -/
inductive Spec.PurgeTries (jid : Jid) : World → World → Prop
  | none (w : World) : PurgeTries jid w w
  | more {w w1 w2 : World} {M : Mgr} {t : List Ev} {r : Res Exn Unit} (h : PurgeTries jid w w1) (he : Exec (purgeBareJid M jid) t r)
      (hr : Lib.Runs w1 t w2) : PurgeTries jid w w2

theorem Spec.PurgeTries.tried {jid : Jid} {w w' : World} (h : PurgeTries jid w w') : PurgeTried jid w.disk w'.disk := by
  induction h with
  | none => exact .refl _ _
  | @more w1 w2 M t r h he hr ih =>
    refine ih.trans ?_
    have := wp_sound (purge_jid (M := M) w1) he hr
    cases r with
    | crashed => exact this
    | raised e => exact this
    | ok a =>
      refine PurgeTried.of_wiped (K := Purged w1.disk jid) (w := w1) (w' := { w2 with backends := w1.backends, log := w1.log })
        ⟨this.1, this.2.1, rfl, rfl⟩ ?_ (.inr fun d hd k hk => .inr (.inl ⟨d, hd, hk⟩))
      rintro k (h | ⟨d, -, h⟩ | ⟨d, ik, -, -, h⟩)
      · exact .inl h
      · exact .inr (.inl ⟨d, h⟩)
      · exact .inr (.inr ⟨ik, h⟩)

/-- However often a purge is interrupted, and wherever: once it succeeds, the device list and all data of the devices which were on it
at the start are gone, and nothing else but data about the JID has been touched. -/
theorem C58_resume (jid : Jid) (M : Mgr) (t : List Ev) (w w1 w' : World) (h : PurgeTries jid w w1) (he : Exec (purgeBareJid M jid) t (.ok ()))
    (hr : Lib.Runs w1 t w') :
    w'.disk (.devList jid) = none ∧ (∀ d, OnList w.disk jid d → ∀ k, DataOf jid d k → w'.disk k = none) ∧
      (∀ k, ¬ AboutJid jid k → w'.disk k = w.disk k) ∧ ∀ k, w'.disk k = w.disk k ∨ w'.disk k = none := by
  obtain ⟨h1, h2, -, -⟩ := C57_partial M jid t w1 w' he hr
  have ht := h.tried
  have ht' := (PurgeTries.more h he hr).tried
  refine ⟨h1 _ (.inl rfl), fun d hd k hk => ?_, ht'.about, ht'.deletes⟩
  rcases ht.order with h3 | h3
  · refine h1 k (.inr (.inl ⟨d, ?_, hk⟩))
    unfold OnList at *
    rwa [h3]
  · by_cases hp : Purged w1.disk jid k
    · exact h1 k hp
    · rw [h2 k hp, h3 d hd k hk]

/-! ### What is not purged -/

/-- C57, as stated: nothing about the JID remains. -/
def C57_Claim : Prop :=
  ∀ (cs : List (Mgr × Call)) (w w' : World) (M : Mgr) (jid : Jid) (t : List Ev), Hist Lib World.fresh cs w →
    Exec (purgeBareJid M jid) t (.ok ()) → Lib.Runs w t w' → ∀ k, AboutJid jid k → w'.disk k = none

/-- Both devices of "a" are known, with their identity keys, and trust in the one of device 7 is stored. -/
def World.trusting : World :=
  (Friendly.genuine.run ((Call.setTrust "a" [7] "trusted").run Mgr.ex)
    (Friendly.picky.run ((Call.getDeviceInformation "a").run Mgr.ex) World.met2).2.2).2.2

theorem World.trusting_hist : ∃ cs, Hist Lib World.fresh cs World.trusting := by
  obtain ⟨cs, h⟩ := World.met2_hist
  exact ⟨_, Friendly.genuine.hist (Friendly.picky.hist h _ _) _ _⟩

/-- A purge that runs to the end. -/
theorem C57_example : ∃ t w', Exec (purgeBareJid Mgr.ex "a") t (.ok ()) ∧ Lib.Runs World.trusting t w' ∧
    OnList World.trusting.disk "a" 7 ∧ OnList World.trusting.disk "a" 8 ∧ Keyed World.trusting.disk "a" 7 [7] ∧
    World.trusting.disk (.trust "a" [7]) = some (.str "trusted") ∧ w'.disk (.trust "a" [7]) = none ∧ w'.disk (.devList "a") = none ∧
    w'.log = World.trusting.log ++ [⟨.purgeJid "n" "a", .ok ()⟩, ⟨.purgeJid "o" "a", .ok ()⟩] := by
  have h : (Friendly.genuine.run (purgeBareJid Mgr.ex "a") World.trusting).2.1 = .ok () := by decide +kernel
  have he := h ▸ Friendly.genuine.exec (purgeBareJid Mgr.ex "a") World.trusting
  have hr := Friendly.genuine.runs (purgeBareJid Mgr.ex "a") World.trusting
  obtain ⟨h1, -, -, h4⟩ := C57_partial _ _ _ _ _ he hr
  have l7 : OnList World.trusting.disk "a" 7 := ⟨[.int 7, .int 8], rfl, by simp [JVal.asInt]⟩
  have k7 : Keyed World.trusting.disk "a" 7 [7] := ⟨_, rfl, by decide +kernel⟩
  exact ⟨_, _, he, hr, l7, ⟨[.int 7, .int 8], rfl, by simp [JVal.asInt]⟩, k7, rfl, h1 _ (.inr (.inr ⟨7, [7], l7, k7, rfl⟩)), h1 _ (.inl rfl), h4⟩

/-- C57 is false of the code: trust in a key that is not stored for a device on the list stays, for instance trust set before the device
list of the JID is known. -/
theorem C57_refuted : ¬ C57_Claim := by
  intro h
  have h1 : (Friendly.genuine.run (purgeBareJid Mgr.ex "a")
    (Friendly.genuine.run ((Call.setTrust "a" [7] "trusted").run Mgr.ex) World.started).2.2).2.1 = .ok () := by decide +kernel
  have := h _ _ _ Mgr.ex "a" _ (Friendly.genuine.hist World.started_hist Mgr.ex (.setTrust "a" [7] "trusted")) (h1 ▸ Friendly.genuine.exec _ _)
    (Friendly.genuine.runs _ _) (.trust "a" [7]) (.inr (.inr ⟨_, rfl⟩))
  have h2 : (Friendly.genuine.run (purgeBareJid Mgr.ex "a")
    (Friendly.genuine.run ((Call.setTrust "a" [7] "trusted").run Mgr.ex) World.started).2.2).2.2.disk (.trust "a" [7]) = some (.str "trusted") := rfl
  rw [h2] at this
  cases this

/-- The purge is interrupted after the data of both devices has been deleted. -/
def World.halfPurged : World := (runProg (Lib.env genuine) Lib.next 11 (purgeBareJid Mgr.ex "a") World.trusting).2.2

/-- An interrupted purge is repeated: the device list and the data of the devices go, but the trust in the identity key, which the second
attempt does not know any more, stays. -/
theorem C58_example : PurgeTries "a" World.trusting World.halfPurged ∧ OnList World.trusting.disk "a" 7 ∧ Keyed World.trusting.disk "a" 7 [7] ∧
    World.halfPurged.disk (.devList "a") ≠ none ∧ World.halfPurged.disk (.devIdentityKey "a" 7) = none ∧
    ∃ t w', Exec (purgeBareJid Mgr.ex "a") t (.ok ()) ∧ Lib.Runs World.halfPurged t w' ∧ w'.disk (.devList "a") = none ∧
      w'.disk (.trust "a" [7]) = some (.str "trusted") := by
  have h : (Friendly.genuine.run (purgeBareJid Mgr.ex "a") World.halfPurged).2.1 = .ok () := by decide +kernel
  have he := h ▸ Friendly.genuine.exec (purgeBareJid Mgr.ex "a") World.halfPurged
  have hr := Friendly.genuine.runs (purgeBareJid Mgr.ex "a") World.halfPurged
  refine ⟨.more (.none _) (runProg_exec ..) (runProg_runs Lib (Lib.env genuine) (Lib.env_ok genuine genuine_ok) 11 _ _),
    ⟨[.int 7, .int 8], rfl, by simp [JVal.asInt]⟩, ⟨_, rfl, by decide +kernel⟩, ?_, rfl, _, _, he, hr, rfl, rfl⟩
  have : World.halfPurged.disk (.devList "a") = some (.list [.int 7, .int 8]) := rfl
  rw [this]
  nofun
end Verif
