import Verif.Proofs.EncryptRun
/-
Consequences of the shape of executions of `encrypt`.
-/
namespace Verif

theorem split_past {α : Type} {A B t1 t2 : List α} {e : α} (h : A ++ B = t1 ++ e :: t2) (he : e ∉ A) :
    ∃ s, t1 = A ++ s ∧ B = s ++ e :: t2 := by
  rcases List.append_eq_append_iff.1 h with ⟨s, rfl, h2⟩ | ⟨s, rfl, h2⟩
  · exact ⟨s, rfl, h2⟩
  · cases s with
    | nil => exact ⟨[], by simp, by simpa using h2.symm⟩
    | cons x s =>
      cases h2
      exact absurd (by simp) he

namespace SM
open Spec
variable {M : Mgr} {jids : List Jid} {pt : Dict Ns Bytes} {prio : Option (List Ns)} {i : Option String}

/-- An execution that reached the encryption loops. -/
structure Phases (M : Mgr) (jids : List Jid) (pt : Dict Ns Bytes) (prio : Option (List Ns)) (i : Option String)
    (t1 t2 t4 t5 : List Ev) (order : List Ns) (devices : List DeviceInfo) (cache : List Bundle)
    (infos : List (Jid × List DeviceInfo × List Bundle)) (out : List DeviceInfo) (v1 v2 v3 : DeviceInfo → TrustLevel) (tm : List Ev) :
    Prop where
  prep : Prep M jids prio t1 order devices cache infos
  agreed : Agreed M devices i t1 t2 out v1 v2 tm
  sends : ∀ e ∈ t4, Op.sendsOrFields e.1 = true
  stores : ∀ e ∈ t5, Op.storesSession e.1 = true
  guard : Guarded (Once pt cache (trustedOf M out v3)) (t1 ++ t2 ++ evals (M.O.iter out) v3 ++ t4 ++ t5)

theorem sendsOrFields_of_sends {o : Op} (h : Op.sends o = true) : Op.sendsOrFields o = true := by
  unfold Op.sendsOrFields
  split
  · rfl
  · exact h

theorem not_encrypts {o : Op} (h : Op.loud o = false) : Op.encrypts o = false := by
  revert h
  cases o <;> simp [Op.loud, Op.encrypts]

theorem asked_quiet (hdec : CallbackQuiet M.decide) {devices und out : List DeviceInfo} {tm h : List Ev}
    (ha : Asked M devices und i tm out h) : ∀ e ∈ tm, Op.encrypts e.1 = false ∧ ∀ dev, e.1 ≠ .evalTrust dev := by
  rcases ha with ⟨_, rfl, _⟩ | ⟨_, td, tl, rfl, hx, hl, _⟩
  · simp
  · intro e he
    rcases List.mem_append.1 he with he | he
    · exact hdec _ _ _ _ hx e he
    · have := hl e he
      revert this
      generalize e.1 = o
      intro h
      unfold Op.loadsTrust at h
      split at h
      · exact ⟨rfl, nofun⟩
      · cases h

theorem askFailed_quiet (hdec : CallbackQuiet M.decide) {und : List DeviceInfo} {tm : List Ev} {x}
    (ha : AskFailed M und i tm x) : ∀ e ∈ tm, Op.encrypts e.1 = false ∧ ∀ dev, e.1 ≠ .evalTrust dev := by
  obtain ⟨_, td, tl, r, rfl, hx, hl, _⟩ := ha
  intro e he
  rcases List.mem_append.1 he with he | he
  · exact hdec _ _ _ _ hx e he
  · have := hl e he
    revert this
    generalize e.1 = o
    intro h
    unfold Op.loadsTrust at h
    split at h
    · exact ⟨rfl, nofun⟩
    · cases h

theorem evals_quiet {ds : List DeviceInfo} {v : DeviceInfo → TrustLevel} : ∀ e ∈ evals ds v, Op.encrypts e.1 = false := by
  intro e he
  obtain ⟨d, _, rfl⟩ := mem_evals.1 he
  rfl

theorem evalOnly_quiet {ds : List DeviceInfo} {t : List Ev} (h : ∀ e ∈ t, ∃ dev ∈ ds, e.1 = .evalTrust dev) :
    ∀ e ∈ t, Op.encrypts e.1 = false := by
  intro e he
  obtain ⟨d, _, h⟩ := h e he
  rw [h]; rfl

theorem quiet_append {t t' : List Ev} (h : ∀ e ∈ t, Op.encrypts e.1 = false) (h' : ∀ e ∈ t', Op.encrypts e.1 = false) :
    ∀ e ∈ t ++ t', Op.encrypts e.1 = false := by
  intro e he
  rcases List.mem_append.1 he with he | he
  · exact h e he
  · exact h' e he

theorem Prep.no_encrypts {t order devices cache infos} (hp : Prep M jids prio t order devices cache infos) :
    ∀ e ∈ t, Op.encrypts e.1 = false := fun e he => not_encrypts (hp.quiet e he)

theorem Agreed.no_encrypts (hdec : CallbackQuiet M.decide) {devices out : List DeviceInfo} {t1 t v1 v2 tm}
    (ha : Agreed M devices i t1 t out v1 v2 tm) : ∀ e ∈ t, Op.encrypts e.1 = false := by
  obtain ⟨⟨h0, _, hd⟩, _⟩ := ha
  rw [hd.trace]
  exact quiet_append (quiet_append evals_quiet fun e he => (asked_quiet hdec hd.asked e he).1) evals_quiet

theorem DecideFailed.no_encrypts (hdec : CallbackQuiet M.decide) {devices : List DeviceInfo} {t x}
    (ha : DecideFailed M devices i t x) : ∀ e ∈ t, Op.encrypts e.1 = false := by
  cases ha with
  | first h _ => exact evalOnly_quiet h
  | ask h => exact quiet_append evals_quiet fun e he => (askFailed_quiet hdec h e he).1
  | second ha _ _ ht _ => exact quiet_append (quiet_append evals_quiet fun e he => (asked_quiet hdec ha e he).1) (evalOnly_quiet ht)
  | still hd _ =>
    rw [hd.trace]
    exact quiet_append (quiet_append evals_quiet fun e he => (asked_quiet hdec hd.asked e he).1) evals_quiet

theorem Outer.guard' {trusted : List DeviceInfo} {done : List Ns} {h cache st os} (ho : Outer M pt cache trusted done h st os) :
    Guarded (Once pt cache trusted) h := ho.guard.mono fun _ _ h1 => h1.mono fun d hd => by
  obtain ⟨o, h2, rfl⟩ := List.mem_map.1 hd
  exact (ho.out o h2).1

theorem handsOut_of_stores {o : Op} (h : Op.storesSession o = true) : Op.handsOut o = false := by
  revert h
  cases o <;> simp [Op.storesSession, Op.handsOut]

theorem EncRun.phases (hdec : CallbackQuiet M.decide) {t r} (hr : EncRun M jids pt prio i t r) :
    (∀ e ∈ t, Op.encrypts e.1 = false) ∨ ∃ t1 t2 t4 t5 order devices cache infos out v1 v2 v3 tm,
      t = t1 ++ t2 ++ evals (M.O.iter out) v3 ++ t4 ++ t5 ∧
      Phases M jids pt prio i t1 t2 t4 t5 order devices cache infos out v1 v2 v3 tm := by
  have sends : ∀ {t4 : List Ev} {bs}, (∀ e ∈ t4, Op.sends e.1 = true) → ∀ e ∈ (⟨.getBackends, .ok bs⟩ : Ev) :: t4, Op.sendsOrFields e.1 = true := by
    intro t4 bs h e he
    rcases List.mem_cons.1 he with rfl | he
    · rfl
    · exact sendsOrFields_of_sends (h e he)
  cases hr with
  | prep hq => exact .inl fun e he => not_encrypts (hq e he)
  | decide hp hd => exact .inl (quiet_append hp.no_encrypts (hd.no_encrypts hdec))
  | third hp ha ht => exact .inl (quiet_append (quiet_append hp.no_encrypts (ha.no_encrypts hdec)) (evalOnly_quiet ht))
  | loop hp ha ht hg => exact .inr ⟨_, _, _, [], _, _, _, _, _, _, _, _, _, (List.append_nil _).symm, hp, ha, ht, by simp, by simpa using hg⟩
  | missing hp ha ht ho _ =>
    exact .inr ⟨_, _, _, [], _, _, _, _, _, _, _, _, _, (List.append_nil _).symm, hp, ha, sends ht, by simp, by simpa using ho.guard'⟩
  | store hp ha ht ho _ h5 _ =>
    have hs := fun (e : Ev) he => show Op.storesSession e.1 = true by obtain ⟨_, _, _, h⟩ := h5 e he; rw [h]; rfl
    exact .inr ⟨_, _, _, _, _, _, _, _, _, _, _, _, _, rfl, hp, ha, sends ht, hs, Guarded.extend ho.guard' fun e he => handsOut_of_stores (hs e he)⟩
  | @done _ _ _ _ _ _ _ _ _ _ _ _ _ st _ hp ha ht ho _ =>
    have hs : ∀ e ∈ ((M.O.iter st.sessions).map fun p => (⟨.storeSession p.1 p.2, .ok ()⟩ : Ev)), Op.storesSession e.1 = true := fun e he => by
      obtain ⟨p, _, rfl⟩ := List.mem_map.1 he; rfl
    exact .inr ⟨_, _, _, _, _, _, _, _, _, _, _, _, _, rfl, hp, ha, sends ht, hs, Guarded.extend ho.guard' fun e he => handsOut_of_stores (hs e he)⟩

theorem Agreed.nodup {devices out : List DeviceInfo} {t1 t v1 v2 tm} (ha : Agreed M devices i t1 t out v1 v2 tm) : (out.map addr).Nodup := by
  obtain ⟨⟨h0, _, hd⟩, _⟩ := ha
  exact hd.nodup

/-- Each evaluated device has its last evaluation in the last round. -/
theorem lastEval_of_evals {ds : List DeviceInfo} {v : DeviceInfo → TrustLevel} {dev : DeviceInfo} {u w : List Ev} (hn : (ds.map addr).Nodup)
    (hd : dev ∈ ds) (hw : ∀ e ∈ w, ∀ dev', e.1 ≠ .evalTrust dev') : LastEval (u ++ evals ds v ++ w) dev (v dev) := by
  obtain ⟨l1, l2, rfl⟩ := List.append_of_mem hd
  refine ⟨u ++ evals l1 v, evals l2 v ++ w, by simp [evals], ?_⟩
  intro e he dev' h1 h2 h3
  rcases List.mem_append.1 he with he | he
  · obtain ⟨d, hd, rfl⟩ := mem_evals.1 he
    cases h3
    simp only [List.map_append, List.map_cons, List.nodup_append, List.nodup_cons] at hn
    exact hn.2.1.1 (List.mem_map.2 ⟨_, hd, by simp [addr, h1, h2]⟩)
  · exact hw e he dev' h3

/-- What is known about a handout. -/
structure HandoutInfo (M : Mgr) (jids : List Jid) (pt : Dict Ns Bytes) (order : List Ns) (cache : List Bundle)
    (infos : List (Jid × List DeviceInfo × List Bundle)) (t1 h1 : List Ev) (e : Ev) (dev src : DeviceInfo) (ns : Ns) (m : PlainKM) : Prop where
  lastEval : LastEval h1 dev .trusted
  hands : HandsOut h1 e ns dev.bareJid dev.deviceId m
  fresh : ∀ g1 f g2 ns' m', h1 = g1 ++ f :: g2 → ¬ HandsOut g1 f ns' dev.bareJid dev.deviceId m'
  content : FromPlaintext pt h1 ns m
  bundle : ∀ b, e.1 = .buildActive ns dev.bareJid dev.deviceId b m → BundleFrom cache h1 ns dev b
  source : ∃ x ∈ infos, src ∈ x.2.1
  same : src.bareJid = dev.bareJid ∧ src.deviceId = dev.deviceId ∧ src.identityKey = dev.identityKey
  notOwn : ¬ (src.bareJid = M.ownJid ∧ src.deviceId = M.ownDev)
  first : FirstActive order src ns

theorem Agreed.chosen {t order devices cache infos out t' v1 v2 tm} (hp : Prep M jids prio t order devices cache infos)
    (ha : Agreed M devices i t t' out v1 v2 tm) {dev : DeviceInfo} (hd : dev ∈ out) :
    ∃ x ∈ infos, ∃ src ∈ x.2.1, (src.bareJid = dev.bareJid ∧ src.deviceId = dev.deviceId ∧ src.identityKey = dev.identityKey) ∧
      ¬ (src.bareJid = M.ownJid ∧ src.deviceId = M.ownDev) ∧ ∃ ns, dev.namespaces = [ns] ∧ FirstActive order src ns := by
  obtain ⟨y, hy, l, rfl⟩ := ha.source dev hd
  obtain ⟨x, hx, src, hs, hno, ns, hf, rfl⟩ := (hp.recipients.devices y).1 hy
  exact ⟨x, hx, src, hs, ⟨rfl, rfl, rfl⟩, hno, ns, rfl, hf⟩

theorem Phases.handout (hdec : CallbackQuiet M.decide) {t1 t2 t4 t5 order devices cache infos out v1 v2 v3 tm}
    (hp : Phases M jids pt prio i t1 t2 t4 t5 order devices cache infos out v1 v2 v3 tm) {h1 : List Ev} {e : Ev} {h2 : List Ev}
    (ht : t1 ++ t2 ++ evals (M.O.iter out) v3 ++ t4 ++ t5 = h1 ++ e :: h2) (he : Op.handsOut e.1 = true) :
    (∃ s, h1 = t1 ++ s) ∧ ∃ dev src ns m, HandoutInfo M jids pt order cache infos t1 h1 e dev src ns m := by
  have hq : e ∉ t1 ++ t2 ++ evals (M.O.iter out) v3 := by
    intro hm
    have := quiet_append (quiet_append hp.prep.no_encrypts (hp.agreed.no_encrypts hdec)) evals_quiet e hm
    revert this he
    cases e.1 <;> simp [Op.handsOut, Op.encrypts]
  obtain ⟨dev, hd, ns, m, hns, hh, hfr, hc, hb⟩ := hp.guard h1 e h2 ht he
  rw [List.append_assoc] at ht
  obtain ⟨s, rfl, hs⟩ := split_past ht hq
  have hout : dev ∈ out := by
    have := (List.mem_filter.1 hd).1
    simpa using this
  have hv : v3 dev = .trusted := by simpa using (List.mem_filter.1 hd).2
  obtain ⟨x, hx, src, hsrc, hsame, hno, ns', hns', hf⟩ := hp.agreed.chosen hp.prep hout
  rw [hns] at hns'
  cases hns'
  refine ⟨⟨t2 ++ evals (M.O.iter out) v3 ++ s, by simp⟩, dev, src, ns, m, ?_, hh, hfr, hc, hb, ⟨x, hx, hsrc⟩, hsame, hno, hf⟩
  rw [← hv]
  refine lastEval_of_evals ?_ (by simpa using hout) ?_
  · have := hp.agreed.nodup
    exact ((M.O.perm out).map addr).nodup_iff.2 this
  · intro f hf dev' hev
    have : f ∈ t4 ++ t5 := by rw [hs]; simp [hf]
    rcases List.mem_append.1 this with h | h
    · have := hp.sends f h
      rw [hev] at this
      cases this
    · have := hp.stores f h
      rw [hev] at this
      cases this

end SM
end Verif
