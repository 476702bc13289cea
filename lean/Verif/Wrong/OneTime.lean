import Verif.Props.Ratchet
import Verif.Props.Replay
import Verif.Wrong.Life
/-
Wrong programs in place of `decrypt` and `encrypt`, for claims about keys that are used once: C103, C112 and C77.  See Wrong/Encrypt.lean for the method.
-/
namespace Verif
namespace Wrong
open SM Spec

/-- `decrypt` is `dec`. -/
def Code.reading (dec : Dec) : Code :=
  { real with method := fun M c => match c with | .decrypt m => do let _ ← dec M m; pure () | c => c.run M }

/-- `Days` with other methods. -/
inductive DaysBy (K : Code) (P : List Ev → Prop → Prop) : List Ev → Prop
  | start : DaysBy K P []
  | call {h M c t r} : DaysBy K P h → MildDecisions M → Exec (K.run M c) t r → P t (r = .crashed) → DaysBy K P (h ++ t)

theorem days_real {P : List Ev → Prop → Prop} {h : List Ev} (hh : DaysBy real P h) : Days P h := by
  induction hh with
  | start => exact .start
  | call _ hd he hp ih => exact .call ih hd (real_run _ _ ▸ he) hp

/-- C103, what holds, for other methods. -/
def C103 (K : Code) : Prop :=
  (∀ (pk : KeyExchange → Nat) (offers : Bundle → List Nat) (h : List Ev), DaysBy K GivesUp h → Guarded (PreKeyed pk offers) h → OneSession pk h ∧ NotOffered pk offers h) ∧
  ∀ (pk : KeyExchange → Nat) (offers : Bundle → List Nat) (ns : Ns) (h1 h2 h3 : List Ev) (j : Jid) (d : DevId) (x : KeyExchange) (k : EncKM) (s' : Session) (m : PlainKM),
    DaysBy K GivesUp (h1 ++ (h2 ++ (⟨.buildPassive ns j d x k, .ok (s', m)⟩ : Ev) :: h3)) →
    Guarded (PreKeyed pk offers) (h1 ++ (h2 ++ (⟨.buildPassive ns j d x k, .ok (s', m)⟩ : Ev) :: h3)) →
    (h1 = [] ∨ ∃ h, h1 = h ++ [⟨.deleteHidden ns, .ok ()⟩]) → (⟨.getSync, .ok true⟩ : Ev) ∉ h2 → ∀ s, (⟨.storeSession ns s, .ok ()⟩ : Ev) ∈ h1 ++ h2 →
    s.initiation = .passive → pk s.keyExchange ≠ pk x

theorem C103_real : C103 real :=
  ⟨fun pk offers h hh hb => C103_partial pk offers h (days_real hh) hb,
    fun pk offers ns h1 h2 h3 _ _ _ _ _ _ hh hb h0 hn _ hs hp => C103_after pk offers ns h1 h2 h3 (days_real hh) hb h0 hn hs hp⟩

/-- A day on which a message is read. -/
def today (a : World → (o : Op) → Except Exn o.Ret) (dec : Dec) (m : Message) (w : World) :=
  trial a ((Code.reading dec).run Mgr.ex (.decrypt m)) w

/-- Two messages with the same pre key are read, one after the other. -/
def two (a : World → (o : Op) → Except Exn o.Ret) (dec : Dec) : List Ev :=
  (today a dec OneTime.first .side).1 ++ (today a dec OneTime.again (today a dec OneTime.first .side).2.2).1

theorem today_gives {a : World → (o : Op) → Except Exn o.Ret} {dec : Dec} {m : Message} {w : World} (h1 : Run.works (today a dec m w).2.1 = true)
    (h2 : (today a dec m w).1.any OneTime.failsB = false) : GivesUp (today a dec m w).1 ((today a dec m w).2.1 = .crashed) where
  hide ns s e hm := absurd (List.any_eq_false.1 h2 _ hm) (by simp [OneTime.failsB])
  delete ns s e hm := absurd (List.any_eq_false.1 h2 _ hm) (by simp [OneTime.failsB])
  field e hm := absurd (List.any_eq_false.1 h2 _ hm) (by simp [OneTime.failsB])
  alive hc := by rw [hc] at h1; cases h1

theorem one_days {a : World → (o : Op) → Except Exn o.Ret} {dec : Dec} (h1 : Run.works (today a dec OneTime.first .side).2.1 = true)
    (h2 : (today a dec OneTime.first .side).1.any OneTime.failsB = false) : DaysBy (.reading dec) GivesUp (today a dec OneTime.first .side).1 :=
  .call (h := []) .start OneTime.mild_ex (trial_exec ..) (today_gives h1 h2)

theorem two_days {a : World → (o : Op) → Except Exn o.Ret} {dec : Dec} (h1 : Run.works (today a dec OneTime.first .side).2.1 = true)
    (h2 : (two a dec).any OneTime.failsB = false)
    (h3 : Run.works (today a dec OneTime.again (today a dec OneTime.first .side).2.2).2.1 = true) : DaysBy (.reading dec) GivesUp (two a dec) := by
  unfold two at h2
  rw [List.any_append, Bool.or_eq_false_iff] at h2
  exact .call (one_days h1 h2.1) OneTime.mild_ex (trial_exec ..) (today_gives h3 h2.2)

/-- A pre key is used twice, outside of history synchronization. -/
theorem C103_reuse {a : World → (o : Op) → Except Exn o.Ret} {dec : Dec} (h1 : Run.works (today a dec OneTime.first .side).2.1 = true)
    (h2 : (two a dec).any OneTime.failsB = false)
    (h3 : Run.works (today a dec OneTime.again (today a dec OneTime.first .side).2.2).2.1 = true)
    (hb : OneTime.allB [] (two a dec) = true) (hs : (today a dec OneTime.first .side).1.any (OneTime.storesB 0) = true)
    (hx : (today a dec OneTime.again (today a dec OneTime.first .side).2.2).1.any (OneTime.buildsB 0) = true)
    (hn : (two a dec).any OneTime.readsTrueB = false) : ¬ C103 (.reading dec) := by
  rintro ⟨-, hc⟩
  obtain ⟨e1, hm1, hs⟩ := List.any_eq_true.1 hs
  obtain ⟨u, e2, v, hm2, hx⟩ := find hx
  obtain ⟨s, rfl, hp, hk⟩ := OneTime.of_stores hs
  obtain ⟨j, d, z, km, s', m, rfl, hz⟩ := OneTime.of_builds hx
  have he : two a dec = [] ++ (((today a dec OneTime.first .side).1 ++ u) ++ (⟨.buildPassive "n" j d z km, .ok (s', m)⟩ : Ev) :: v) := by
    unfold two; rw [hm2]; simp
  refine hc OneTime.key OneTime.keys "n" [] ((today a dec OneTime.first .side).1 ++ u) v j d z km s' m (he ▸ two_days h1 h2 h3) (he ▸ OneTime.all_of hb) (.inl rfl) (fun h => ?_) s
    (List.mem_append_right _ (List.mem_append_left _ hm1)) hp (hk.trans hz.symm)
  have := List.any_eq_false.1 hn _ (he ▸ List.mem_append_right _ (List.mem_append_left _ h))
  simp [OneTime.readsTrueB] at this

/-- Pre keys are kept (sm:2201-2221 are missing). -/
def everlasting : Dec := decryptBy fun M => { rightly M with consume := fun _ _ => pure () }

theorem C103_everlasting : ¬ C103 (.reading everlasting) :=
  C103_reuse (a := OneTime.counting) (by decide +kernel) (by decide +kernel) (by decide +kernel) (by decide +kernel) (by decide +kernel) (by decide +kernel) (by decide +kernel)

/-- Pre keys are hidden, outside of history synchronization too (sm:2204: no distinction). -/
def concealing : Dec := decryptBy fun M => { rightly M with
  consume := fun ns session => do
    let _ : Bool ← call .getSync
    let changed ← discardPreKey ns true session
    Prog.when (changed = true) do
      refillPreKeys M ns
      let bundle ← call (.getBundle ns M.ownJid M.ownDev)
      call (.uploadBundle bundle) }

theorem C103_concealing : ¬ C103 (.reading concealing) :=
  C103_reuse (a := OneTime.counting) (by decide +kernel) (by decide +kernel) (by decide +kernel) (by decide +kernel) (by decide +kernel) (by decide +kernel) (by decide +kernel)

/-- The bundle is obtained before the pre key is given up (sm:2216 before sm:2204). -/
def advertising : Dec := decryptBy fun M => { rightly M with
  consume := fun ns session => do
    let sync : Bool ← call .getSync
    let bundle ← call (.getBundle ns M.ownJid M.ownDev)
    let changed ← discardPreKey ns sync session
    Prog.when (changed = true) do
      refillPreKeys M ns
      call (.uploadBundle bundle) }

/-- Pre key 0 is in the bundle until it is given up. -/
def stocked : World → (o : Op) → Except Exn o.Ret
  | w, .getBundle ns j d => .ok ⟨ns, j, d, [1], if w.log.any (OneTime.givenB 0 "n") = true then 100 else 0⟩
  | w, o => OneTime.counting w o

theorem C103_advertising : ¬ C103 (.reading advertising) := by
  rintro ⟨hc, -⟩
  obtain ⟨-, hc⟩ := hc OneTime.key OneTime.keys _ (one_days (a := stocked) (dec := advertising) (by decide +kernel) (by decide +kernel)) (OneTime.all_of (by decide +kernel))
  obtain ⟨u, e1, v, ht, h1, hu⟩ := firstOf (t := (today stocked advertising OneTime.first .side).1)
    (f := fun e => OneTime.storesB 0 e || OneTime.uploadsB e) (g := OneTime.storesB 0) (by decide +kernel)
  obtain ⟨s, rfl, hp, hk⟩ := OneTime.of_stores h1
  have h2 : (today stocked advertising OneTime.first .side).1.any OneTime.uploadsB = true := by decide +kernel
  rw [ht, List.any_append, List.any_cons, Bool.or_eq_true, Bool.or_eq_true] at h2
  rcases h2 with h2 | h2 | h2
  · obtain ⟨e, he, h2⟩ := List.any_eq_true.1 h2
    have := hu e he
    simp [h2] at this
  · cases h2
  obtain ⟨v1, e2, v2, rfl, he⟩ := find h2
  obtain ⟨o, x⟩ := e2
  cases o <;> try (cases he; done)
  rename_i b
  have hall : (today stocked advertising OneTime.first .side).1.all (fun e => match e.1 with
    | .getBundle ns _ _ => decide (ns = "n") | .uploadBundle b => decide (b.blob = 0) | _ => true) = true := by decide +kernel
  rw [List.all_eq_true] at hall
  have hb : b.blob = 0 := of_decide_eq_true (hall ⟨.uploadBundle b, x⟩ (ht ▸ by simp))
  obtain ⟨ns, j, d, h4, h5⟩ := hc (u ++ ⟨.storeSession "n" s, .ok ()⟩ :: v1) b x v2 (ht.trans (by simp))
  obtain rfl : ns = "n" := of_decide_eq_true (hall ⟨.getBundle ns j d, .ok b⟩ (by
    rw [ht]
    rcases List.mem_append.1 h4 with h | h
    · exact List.mem_append_left _ h
    · rcases List.mem_cons.1 h with h | h
      · cases h
      · exact List.mem_append_right _ (.tail _ (List.mem_append_left _ h))))
  refine h5 s (by simp) hp ?_
  rw [hk]
  simp [OneTime.keys, hb]

/-! ### C112: no message is read twice -/

/-- `Sitting` with other methods. -/
structure SittingBy (K : Code) (P : List Ev → Prop → Prop) (h1 t1 h2 t2 : List Ev) : Prop where
  before : DaysBy K P h1
  first : ∃ M msg, MildDecisions M ∧ Exec (K.run M (.decrypt msg)) t1 (.ok ()) ∧ P t1 False
  between : DaysBy K P h2
  second : ∃ M msg r, MildDecisions M ∧ Exec (K.run M (.decrypt msg)) t2 r ∧ P t2 (r = .crashed)

/-- C112, what holds, for other methods. -/
def C112 (K : Code) : Prop :=
  ∀ (pk : KeyExchange → Nat) (offers : Bundle → List Nat) (src : EncKM → Initiation × KeyExchange) (used : Session → EncKM → Prop) (ns : Ns) (j : Jid) (d : DevId)
    (k : EncKM) (h1 t1 h2 t2 : List Ev), SittingBy K GivesUp h1 t1 h2 t2 → Guarded (PreKeyed pk offers) (h1 ++ t1 ++ (h2 ++ t2)) →
    Guarded (Fading src used) (h1 ++ t1 ++ (h2 ++ t2)) → (∃ w, (Shelf ns j d).Runs none (h1 ++ t1 ++ (h2 ++ t2)) w) →
    NoneRevived pk (h1 ++ t1 ++ (h2 ++ t2)) → ReadIn ns j d k t1 → ¬ ReadIn ns j d k t2

theorem C112_real : C112 real := fun pk offers src used ns j d k h1 t1 h2 t2 hs hb hf hw hn hr =>
  let ⟨b, ⟨M, m, hm, he, hp⟩, c, M', m', r', hm', he', hp'⟩ := hs
  C112_partial pk offers src used ns j d k h1 t1 h2 t2
    ⟨days_real b, ⟨M, m, hm, real_run _ _ ▸ he, hp⟩, days_real c, M', m', r', hm', real_run _ _ ▸ he', hp'⟩ hb hf hw hn hr

/-- A message without key exchange. -/
def plainTwo : Message := ⟨"n", "a", 7, ⟨false, 1⟩, [(⟨"me", 1, 11⟩, none)]⟩

/-- The worlds between the messages. -/
def day1 (dec : Dec) : World := (today Replay.fading dec Replay.one .side).2.2
def day2 (dec : Dec) : World := (today Replay.fading dec plainTwo (day1 dec)).2.2

/-- A message begins a session, the next one is read twice. -/
def twice_ (dec : Dec) : List Ev :=
  (today Replay.fading dec Replay.one .side).1 ++ (today Replay.fading dec plainTwo (day1 dec)).1 ++
    ([] ++ (today Replay.fading dec plainTwo (day2 dec)).1)

theorem reads_of {t : List Ev} {k : EncKM} (h : t.any (fun e => match e with
    | ⟨.decryptKM "n" s k', .ok _⟩ => decide (k' = k ∧ s.bareJid = "a" ∧ s.deviceId = 7) | _ => false) = true) : ReadIn "n" "a" 7 k t := by
  obtain ⟨e, hm, he⟩ := List.any_eq_true.1 h
  split at he
  · rename_i y
    obtain ⟨rfl, h1, h2⟩ := of_decide_eq_true he
    exact .inl ⟨_, y.1, y.2, hm, h1, h2⟩
  · cases he

theorem C112_not {dec : Dec} (h1 : Run.works (today Replay.fading dec Replay.one .side).2.1 = true)
    (h2 : Run.works (today Replay.fading dec plainTwo (day1 dec)).2.1 = true) (h3 : Run.works (today Replay.fading dec plainTwo (day2 dec)).2.1 = true)
    (f1 : (today Replay.fading dec Replay.one .side).1.any OneTime.failsB = false) (f2 : (today Replay.fading dec plainTwo (day1 dec)).1.any OneTime.failsB = false)
    (f3 : (today Replay.fading dec plainTwo (day2 dec)).1.any OneTime.failsB = false)
    (hb : OneTime.allB [] (twice_ dec) = true) (hf : (twice_ dec).all Replay.fadesB = true) (hw : Run.shelfB "n" "a" 7 none (twice_ dec) = true)
    (hn : (twice_ dec).any OneTime.hidesB = false)
    (hr : (today Replay.fading dec plainTwo (day1 dec)).1.any (fun e => match e with
      | ⟨.decryptKM "n" s k', .ok _⟩ => decide (k' = ⟨"me", 1, 11⟩ ∧ s.bareJid = "a" ∧ s.deviceId = 7) | _ => false) = true)
    (hr' : (today Replay.fading dec plainTwo (day2 dec)).1.any (fun e => match e with
      | ⟨.decryptKM "n" s k', .ok _⟩ => decide (k' = ⟨"me", 1, 11⟩ ∧ s.bareJid = "a" ∧ s.deviceId = 7) | _ => false) = true) : ¬ C112 (.reading dec) := by
  intro hc
  have ok : ∀ {m w}, Run.works (today Replay.fading dec m w).2.1 = true → (today Replay.fading dec m w).2.1 = .ok () := by
    intro m w h
    revert h
    generalize (today Replay.fading dec m w).2.1 = r
    cases r <;> first | (intro _; rfl) | (intro h; cases h)
  have g1 := today_gives h1 f1
  have g2 := today_gives h2 f2
  have g3 := today_gives h3 f3
  refine hc OneTime.key OneTime.keys Replay.exSrc Replay.exUsed "n" "a" 7 ⟨"me", 1, 11⟩ _ _ _ _
    ⟨.call (h := []) .start OneTime.mild_ex (trial_exec ..) g1, ⟨Mgr.ex, plainTwo, OneTime.mild_ex, ok h2 ▸ trial_exec .., ⟨g2.hide, g2.delete, g2.field, nofun⟩⟩,
      .start, Mgr.ex, plainTwo, _, OneTime.mild_ex, trial_exec .., g3⟩ (OneTime.all_of hb) (Replay.fades_of hf) ⟨_, Run.shelf_of hw⟩ ?_ (reads_of hr) (reads_of hr')
  rintro h1 ns j d x k y h2 hh ⟨u, s, b, v, rfl, -, -⟩
  exact List.any_eq_false.1 hn ⟨.hidePreKey ns s, .ok b⟩ (by unfold twice_; exact hh ▸ by simp) rfl

/-- Sessions are stored when they are built, but not again after messages were read with them (sm:2198 belongs to sm:2160-2179). -/
def standstill : Dec := decryptBy fun M => { rightly M with
  keep := fun _ _ => pure ()
  exchange := fun ns dev kex ekm => do
    let (session, km) ← handleKeyExchange M ns dev kex ekm
    call (.storeSession ns session)
    pure (session, km) }

theorem C112_standstill : ¬ C112 (.reading standstill) :=
  C112_not (by decide +kernel) (by decide +kernel) (by decide +kernel) (by decide +kernel) (by decide +kernel) (by decide +kernel) (by decide +kernel) (by decide +kernel)
    (by decide +kernel) (by decide +kernel) (by decide +kernel) (by decide +kernel)

/-! ### C77: no state of a session is used for two messages that leave the device -/

/-- `Talk` with other methods. -/
inductive TalkBy (K : Code) (enc : Enc) (P : List Ev → Prop → Prop) : List Ev → List EncKM → Prop
  | start : TalkBy K enc P [] []
  | call {h L M c t r} : TalkBy K enc P h L → Apart M → Call.isEncrypt c = false → Exec (K.run M c) t r → P t (r = .crashed) → TalkBy K enc P (h ++ t) (L ++ sentKeys t)
  | encrypt {h L M jids pt prio i t r} : TalkBy K enc P h L → Apart M → Exec (enc M jids pt prio i) t r → BackendsOnce t →
      TalkBy K enc P (h ++ t) (L ++ returnedKeys r)

theorem talk_real {P : List Ev → Prop → Prop} {h : List Ev} {L : List EncKM} (hh : TalkBy real encrypt P h L) : Talk P h L := by
  induction hh with
  | start => exact .start
  | call _ ha hc he hp ih => exact .call ih ha hc (real_run _ _ ▸ he) hp
  | encrypt _ ha he hb ih => exact .encrypt ih ha he hb

/-- C77, what holds, for other methods. -/
def C77 (K : Code) (enc : Enc) : Prop := ∀ h L, TalkBy K enc StoresSent h L → Guarded Ratchets h → OneUse h L

theorem C77_real : C77 real encrypt := fun h L hh hg => C77_partial h L (talk_real hh) hg

/-- The session is not stored after the empty message was sent (sm:1652 is missing). -/
def amnesic : Dec := decryptBy fun M => { rightly M with
  reply := fun ns kex session => do
    Prog.when (kex ≠ none ∨ session.receivingChainLength.getD 0 > STALENESS_MAGIC_NUMBER) do
      let (content, km) ← call (.encryptEmpty ns)
      let (ekm, session) ← call (.encryptKM ns session km)
      call (.sendMessage { ns := ns, bareJid := M.ownJid, deviceId := M.ownDev, content := content, keys := [(ekm, kexFor session)] } session.bareJid) }

/-- A message is read and answered, then another is encrypted. -/
def spoken (dec : Dec) := trial Ratchet.ratcheting ((Code.reading dec).run Mgr.ex (.decrypt kexMessage)) World.chat
def written (dec : Dec) (enc : Enc) := trial Ratchet.ratcheting (enc Mgr.ex ["a"] [("n", [1]), ("o", [1, 2])] none none) (spoken dec).2.2

/-- What was made with a session in some state, and the state. -/
def made : Ev → List ((Ns × Session) × EncKM) | ⟨.encryptKM ns s _, .ok (k, _)⟩ => [((ns, s), k)] | _ => []

theorem of_made {x : (Ns × Session) × EncKM} {t : List Ev} (h : x ∈ t.flatMap made) : ∃ m s', (⟨.encryptKM x.1.1 x.1.2 m, .ok (x.2, s')⟩ : Ev) ∈ t := by
  obtain ⟨e, he, hx⟩ := List.mem_flatMap.1 h
  unfold made at hx
  split at hx
  · cases List.mem_singleton.1 hx
    exact ⟨_, _, he⟩
  · cases hx

/-- A state was used twice. -/
theorem used_twice {a b : List Ev} {L : List EncKM}
    (h : ((a.flatMap made).any fun x => (b.flatMap made).any fun y => decide (x.1 = y.1 ∧ x.2 ∈ L)) = true) : ¬ OneUse (a ++ b) L := by
  intro hu
  obtain ⟨x, hx, h⟩ := List.any_eq_true.1 h
  obtain ⟨y, hy, h⟩ := List.any_eq_true.1 h
  obtain ⟨h1, h2⟩ := of_decide_eq_true h
  obtain ⟨m, s', hx⟩ := of_made hx
  obtain ⟨m', s'', hy⟩ := of_made hy
  rw [← h1] at hy
  exact (List.pairwise_append.1 hu).2.2 _ hx _ hy _ _ _ _ _ _ _ _ rfl rfl h2

theorem spoken_talk {dec : Dec} (h1 : Ratchet.sentStored (spoken dec).1 = true) (h2 : Run.works (spoken dec).2.1 = true) (enc : Enc) :
    TalkBy (.reading dec) enc StoresSent (spoken dec).1 (sentKeys (spoken dec).1) := by
  refine .call (h := []) (L := []) .start (M := Mgr.ex) (c := .decrypt kexMessage) (fun _ _ => trivial) rfl (trial_exec ..) ⟨?_, fun h => ?_⟩
  · intro t1 t2 ns s x ht hl
    have ht : (spoken dec).1 = _ := ht
    have := List.all_eq_true.1 h1 t1.length (by rw [ht]; simp)
    rw [ht] at this
    cases x with
    | ok => rfl
    | error e => simp [Ratchet.sentB_of t1 hl] at this
  · have h : (spoken dec).2.1 = .crashed := h
    rw [h] at h2
    cases h2

theorem apart_ex : Apart Mgr.ex := fun _ _ => trivial

theorem C77_amnesic : ¬ C77 (.reading amnesic) encrypt := by
  intro hc
  refine used_twice ?_ (hc _ _ (.encrypt (spoken_talk (by decide +kernel) (by decide +kernel) encrypt) apart_ex
    (trial_exec Ratchet.ratcheting (encrypt Mgr.ex ["a"] [("n", [1]), ("o", [1, 2])] none none) (spoken amnesic).2.2) (Ratchet.once_of_all (by decide +kernel)))
    (Ratchet.guarded_of_allOk (by decide +kernel)))
  decide +kernel

/-- Sessions are not stored after encrypting (sm:1960-1963 are missing). -/
def unsaved : Enc := encryptBy fun M => { right M with persist := fun _ => pure () }

theorem C77_unsaved : ¬ C77 (.reading decrypt) unsaved := by
  intro hc
  have h1 := TalkBy.encrypt (spoken_talk (dec := decrypt) (by decide +kernel) (by decide +kernel) unsaved) apart_ex
    (trial_exec Ratchet.ratcheting (unsaved Mgr.ex ["a"] [("n", [1]), ("o", [1, 2])] none none) (spoken decrypt).2.2) (Ratchet.once_of_all (by decide +kernel))
  refine used_twice ?_ (hc _ _ (.encrypt h1 apart_ex
    (trial_exec Ratchet.ratcheting (unsaved Mgr.ex ["a"] [("n", [1]), ("o", [1, 2])] none none) (written decrypt unsaved).2.2) (Ratchet.once_of_all (by decide +kernel)))
    (Ratchet.guarded_of_allOk (by decide +kernel)))
  decide +kernel

end Wrong
end Verif
