import Verif.Proofs.ExecLoops
import Verif.Props.KeyExchange
/-
C63, C64: replacement of sessions, lengths of sending chains.
-/
namespace Verif
namespace Spec

/-- The interactions that make up the replacement of a session of backend `ns`. -/
def Op.replaces (ns : Ns) : Op → Bool
  | .encryptEmpty n => decide (n = ns)
  | .buildActive n _ _ _ _ => decide (n = ns)
  | .sendMessage m _ => decide (m.ns = ns)
  | .storeSession n _ => decide (n = ns)
  | _ => false

/-- The interactions of backend `ns` and of the network for it that a replacement of its session consists of. -/
def Op.replacesOrFetches (ns : Ns) : Op → Bool
  | .downloadBundle n _ _ => decide (n = ns)
  | o => Op.replaces ns o

/-- The notification of device `d` of `jid` about the new session `s`, as observed up to the moment `s` is stored: empty content, a fresh
bundle of the device, a session built from it, and one message with its key exchange, sent to the owner of the device. -/
def Announcement (M : Mgr) (jid : Jid) (d : DevId) (ns : Ns) (s : Session) (t : List Ev) : Prop :=
  ∃ content km b ekm, t = [⟨.encryptEmpty ns, .ok (content, km)⟩, ⟨.downloadBundle ns jid d, .ok b⟩,
    ⟨.buildActive ns jid d b km, .ok (s, ekm)⟩,
    ⟨.sendMessage ⟨ns, M.ownJid, M.ownDev, content, [(ekm, some s.keyExchange)]⟩ jid, .ok ()⟩]

end Spec
open Spec SM

/-! ### C64 -/

theorem SM.exec_lengths {dev : DeviceInfo} {xs : List Ns} {t : List Ev} {l : Dict Ns (Option Nat)}
    (he : Exec (Prog.mapAll xs fun ns => do
      let s : Option Session ← call (.loadSession ns dev.bareJid dev.deviceId)
      pure (ns, s.map fun s => s.sendingChainLength)) t (.ok l)) :
    l.map (·.1) = xs ∧ (∀ x ∈ l, ∃ s : Option Session, (⟨.loadSession x.1 dev.bareJid dev.deviceId, .ok s⟩ : Ev) ∈ t ∧
      x.2 = s.map (·.sendingChainLength)) := by
  induction xs generalizing t l with
  | nil =>
    obtain ⟨rfl, h⟩ := exec_mapAll_nil.1 he
    cases h
    exact ⟨rfl, by simp⟩
  | cons x xs ih =>
    obtain ⟨t1, y, t2, ys, rfl, rfl, h1, h2⟩ := exec_mapAll_cons_ok.1 he
    obtain ⟨s, t', rfl, h3⟩ := exec_call_bind_ok.1 h1
    cases h3
    obtain ⟨i1, i2⟩ := ih h2
    refine ⟨by simp [i1], fun z hz => ?_⟩
    rcases List.mem_cons.1 hz with rfl | hz
    · exact ⟨s, by simp, rfl⟩
    · obtain ⟨s', h4, h5⟩ := i2 z hz
      exact ⟨s', by simp [h4], h5⟩

/-- C64: the result has exactly one entry for each loaded backend the device supports, and the entry is what the stored session says,
`None` without session. -/
theorem C64_entries (dev : DeviceInfo) (t : List Ev) (l : Dict Ns (Option Nat)) (he : Exec (getSendingChainLength dev) t (.ok l)) :
    ∃ bs, (⟨.getBackends, .ok bs⟩ : Ev) ∈ t ∧ (bs.Nodup → (l.map (·.1)).Nodup) ∧
    (∀ ns, ns ∈ l.map (·.1) ↔ ns ∈ bs ∧ ns ∈ dev.namespaces) ∧
    ∀ ns n, (ns, n) ∈ l → ∃ s : Option Session, (⟨.loadSession ns dev.bareJid dev.deviceId, .ok s⟩ : Ev) ∈ t ∧
      n = s.map (·.sendingChainLength) := by
  obtain ⟨bs, t', rfl, h⟩ := exec_call_bind_ok.1 he
  obtain ⟨h1, h2⟩ := exec_lengths h
  refine ⟨bs, by simp, fun hn => by rw [h1]; exact hn.filter _, fun ns => by simp [h1], fun ns n hm => ?_⟩
  obtain ⟨s, h3, h4⟩ := h2 _ hm
  exact ⟨s, by simp [h3], h4⟩

/-- C64: the call only looks at sessions. -/
theorem C64_readonly (dev : DeviceInfo) (t : List Ev) (r) (he : Exec (getSendingChainLength dev) t r) (e : Ev) (hm : e ∈ t) :
    e.1 = .getBackends ∨ ∃ ns ∈ dev.namespaces, e.1 = .loadSession ns dev.bareJid dev.deviceId := by
  have : AllOps (fun o : Op => o = .getBackends ∨ ∃ ns ∈ dev.namespaces, o = .loadSession ns dev.bareJid dev.deviceId)
      (getSendingChainLength dev) := by
    refine .bind (.perform (.inl rfl)) fun bs => .mapAll fun ns hns => .bind (.perform (.inr ⟨ns, ?_, rfl⟩)) fun _ => .pure _
    simpa using (List.mem_filter.1 hns).2
  exact this.exec he e hm

/-! ### C63 -/

/-- One replacement. -/
theorem SM.exec_replaceSession {M : Mgr} {jid : Jid} {d : DevId} {ns : Ns} {t : List Ev} {r} (he : Exec (replaceSession M jid d ns) t r) :
    (∀ e ∈ t, Op.replacesOrFetches ns e.1 = true) ∧
    (∀ u n s x v, t = u ++ ⟨.storeSession n s, x⟩ :: v → n = ns ∧ v = [] ∧ Announcement M jid d ns s u) ∧
    (r = .ok () → ∃ s, (⟨.storeSession ns s, .ok ()⟩ : Ev) ∈ t) ∧
    (∀ y, r = .raised y → (∃ e ∈ t, e.2 = .error y) ∧ ∀ n s, (⟨.storeSession n s, .ok ()⟩ : Ev) ∉ t) := by
  have nos : ∀ {t : List Ev}, (∀ n s x, (⟨.storeSession n s, x⟩ : Ev) ∉ t) → ∀ u n s x v, t ≠ u ++ ⟨.storeSession n s, x⟩ :: v := by
    rintro t h u n s x v rfl
    exact h n s x (by simp)
  unfold replaceSession at he
  replace he := exec_call_bind.1 he
  rcases he with ⟨rfl, rfl⟩ | ⟨e, rfl, rfl⟩ | ⟨⟨content, km⟩, t, rfl, he⟩
  · exact ⟨by simp, fun u n s x v h => (nos (by simp) _ _ _ _ _ h).elim, nofun, nofun⟩
  · exact ⟨by simp [Op.replacesOrFetches, Op.replaces], fun u n s x v h => (nos (by simp) _ _ _ _ _ h).elim, nofun, by rintro y ⟨⟩; simp⟩
  replace he := exec_call_bind.1 he
  rcases he with ⟨rfl, rfl⟩ | ⟨e, rfl, rfl⟩ | ⟨b, t, rfl, he⟩
  · exact ⟨by simp [Op.replacesOrFetches, Op.replaces], fun u n s x v h => (nos (by simp) _ _ _ _ _ h).elim, nofun, nofun⟩
  · exact ⟨by simp [Op.replacesOrFetches, Op.replaces], fun u n s x v h => (nos (by simp) _ _ _ _ _ h).elim, nofun, by rintro y ⟨⟩; simp⟩
  replace he := exec_call_bind.1 he
  rcases he with ⟨rfl, rfl⟩ | ⟨e, rfl, rfl⟩ | ⟨⟨s, ekm⟩, t, rfl, he⟩
  · exact ⟨by simp [Op.replacesOrFetches, Op.replaces], fun u n s x v h => (nos (by simp) _ _ _ _ _ h).elim, nofun, nofun⟩
  · exact ⟨by simp [Op.replacesOrFetches, Op.replaces], fun u n s x v h => (nos (by simp) _ _ _ _ _ h).elim, nofun, by rintro y ⟨⟩; simp⟩
  replace he := exec_call_bind.1 he
  rcases he with ⟨rfl, rfl⟩ | ⟨e, rfl, rfl⟩ | ⟨⟨⟩, t, rfl, he⟩
  · exact ⟨by simp [Op.replacesOrFetches, Op.replaces], fun u n s x v h => (nos (by simp) _ _ _ _ _ h).elim, nofun, nofun⟩
  · exact ⟨by simp [Op.replacesOrFetches, Op.replaces], fun u n s x v h => (nos (by simp) _ _ _ _ _ h).elim, nofun, by rintro y ⟨⟩; simp⟩
  have last : ∀ {u : List Ev} {n s' x v} {y : Except Exn Unit},
      (⟨.encryptEmpty ns, .ok (content, km)⟩ :: ⟨.downloadBundle ns jid d, .ok b⟩ :: ⟨.buildActive ns jid d b km, .ok (s, ekm)⟩ ::
        ⟨.sendMessage ⟨ns, M.ownJid, M.ownDev, content, [(ekm, some s.keyExchange)]⟩ jid, .ok ()⟩ :: [⟨.storeSession ns s, y⟩] : List Ev) =
        u ++ ⟨.storeSession n s', x⟩ :: v → n = ns ∧ v = [] ∧ Announcement M jid d ns s' u := by
    intro u n s' x v y h
    rcases u with _ | ⟨a, _ | ⟨b', _ | ⟨c, _ | ⟨d', _ | ⟨e, u⟩⟩⟩⟩⟩
    all_goals simp only [List.nil_append, List.cons_append, List.cons.injEq] at h
    · cases h.1
    · cases h.2.1
    · cases h.2.2.1
    · cases h.2.2.2.1
    · obtain ⟨rfl, rfl, rfl, rfl, h, rfl⟩ := h
      cases h
      exact ⟨rfl, rfl, content, km, b, ekm, rfl⟩
    · have := h.2.2.2.2.2
      simp at this
  rcases exec_call.1 he with ⟨rfl, rfl⟩ | ⟨e, rfl, rfl⟩ | ⟨⟨⟩, rfl, rfl⟩
  · exact ⟨by simp [Op.replacesOrFetches, Op.replaces], fun u n s x v h => (nos (by simp) _ _ _ _ _ h).elim, nofun, nofun⟩
  · refine ⟨by simp [Op.replacesOrFetches, Op.replaces], fun u n s x v h => last h, nofun, ?_⟩
    rintro y ⟨⟩
    refine ⟨⟨⟨.storeSession ns s, .error e⟩, by simp, rfl⟩, fun n s' h => ?_⟩
    simp at h
  · exact ⟨by simp [Op.replacesOrFetches, Op.replaces], fun u n s x v h => last h, fun _ => ⟨s, by simp⟩, nofun⟩

/-- One round of the loop in `replace_sessions`. -/
def SM.replaceRound (M : Mgr) (jid : Jid) (d : DevId) (namespaces : List Ns) (un : Dict Ns Exn) (ns : Ns) : P (Dict Ns Exn) :=
  if ns ∈ namespaces then
    Prog.tryElse (replaceSession M jid d ns)
      (fun e => if e.isOmemo then pure (Dict.set un ns e) else throwE e)
      (fun _ => pure un)
  else pure un

theorem SM.exec_replaceRound {M : Mgr} {jid : Jid} {d : DevId} {nss : List Ns} {un : Dict Ns Exn} {ns : Ns} {t : List Ev} {r}
    (he : Exec (replaceRound M jid d nss un ns) t r) : (ns ∉ nss ∧ t = [] ∧ r = .ok un) ∨
    (ns ∈ nss ∧ ∃ r', Exec (replaceSession M jid d ns) t r' ∧ ((r' = .ok () ∧ r = .ok un) ∨
      (∃ y, r' = .raised y ∧ y.isOmemo = true ∧ r = .ok (un.set ns y)) ∨ (∃ y, r' = .raised y ∧ y.isOmemo = false ∧ r = .raised y) ∨
      (r' = .crashed ∧ r = .crashed))) := by
  unfold replaceRound at he
  split at he
  · rename_i hns
    rcases exec_tryElse_iff.1 he with ⟨t1, a, t2, rfl, h1, h2⟩ | ⟨t1, y, t2, rfl, h1, h2⟩ | ⟨h1, rfl⟩
    · obtain ⟨rfl, rfl⟩ := exec_pure.1 h2
      exact .inr ⟨hns, _, by simpa using h1, .inl ⟨rfl, rfl⟩⟩
    · split at h2
      · obtain ⟨rfl, rfl⟩ := exec_pure.1 h2
        exact .inr ⟨hns, _, by simpa using h1, .inr (.inl ⟨y, rfl, by assumption, rfl⟩)⟩
      · obtain ⟨rfl, rfl⟩ := exec_throw.1 h2
        exact .inr ⟨hns, _, by simpa using h1, .inr (.inr (.inl ⟨y, rfl, by simpa using ‹¬ y.isOmemo = true›, rfl⟩))⟩
    · exact .inr ⟨hns, _, h1, .inr (.inr (.inr ⟨rfl, rfl⟩))⟩
  · rename_i hns
    obtain ⟨rfl, rfl⟩ := exec_pure.1 he
    exact .inl ⟨hns, rfl, rfl⟩

/-- What the loop does. -/
structure SM.Rounds (M : Mgr) (jid : Jid) (d : DevId) (nss bs : List Ns) (un : Dict Ns Exn) (t : List Ev) (r : Res Exn (Dict Ns Exn)) : Prop where
  ops : ∀ e ∈ t, ∃ ns ∈ bs, ns ∈ nss ∧ Op.replacesOrFetches ns e.1 = true
  stores : ∀ u ns s x v, t = u ++ ⟨.storeSession ns s, x⟩ :: v → ∃ u1 u2, u = u1 ++ u2 ∧ Announcement M jid d ns s u2
  result : ∀ un', r = .ok un' → ∀ ns,
    (ns ∉ bs ∨ ns ∉ nss → un'.get ns = un.get ns) ∧
    (ns ∈ bs → ns ∈ nss → bs.Nodup →
      (un'.get ns = un.get ns ∧ ∃ s, (⟨.storeSession ns s, .ok ()⟩ : Ev) ∈ t) ∨
      (∃ y, un'.get ns = some y ∧ y.isOmemo = true ∧ (∃ e ∈ t, Op.replacesOrFetches ns e.1 = true ∧ e.2 = .error y) ∧
        ∀ s, (⟨.storeSession ns s, .ok ()⟩ : Ev) ∉ t))

theorem SM.exec_rounds {M : Mgr} {jid : Jid} {d : DevId} {nss bs : List Ns} {un : Dict Ns Exn} {t : List Ev} {r}
    (he : Exec (Prog.fold bs un (replaceRound M jid d nss)) t r) : Rounds M jid d nss bs un t r := by
  induction bs generalizing un t with
  | nil =>
    obtain ⟨rfl, rfl⟩ := exec_fold_nil.1 he
    exact ⟨by simp, by simp, by rintro _ ⟨⟩ ns; simp⟩
  | cons b bs ih =>
    rcases exec_fold_cons.1 he with ⟨t1, un1, t2, rfl, h1, h2⟩ | ⟨y, h1, rfl⟩ | ⟨h1, rfl⟩
    · have hi := ih h2
      have split1 : ∀ {u ns s x v}, (t1 ++ t2 : List Ev) = u ++ ⟨.storeSession ns s, x⟩ :: v →
          (∃ v', t1 = u ++ ⟨.storeSession ns s, x⟩ :: v') ∨ (∃ u', u = t1 ++ u' ∧ t2 = u' ++ ⟨.storeSession ns s, x⟩ :: v) := by
        intro u ns s x v h
        rcases List.append_eq_append_iff.1 h with ⟨a', rfl, h'⟩ | ⟨c', rfl, h'⟩
        · exact .inr ⟨a', rfl, h'⟩
        · cases c' with
          | nil => exact .inr ⟨[], by simp, by simpa using h'.symm⟩
          | cons c c' => cases h'; exact .inl ⟨c', rfl⟩
      rcases exec_replaceRound h1 with ⟨hn, rfl, h⟩ | ⟨hn, r', hx, hr⟩
      · cases h
        refine ⟨fun e he => ?_, fun u ns s x v h => hi.stores u ns s x v h, fun un' hr ns => ⟨fun h => ?_, fun h h' hd => ?_⟩⟩
        · obtain ⟨n, h3, h4⟩ := hi.ops e he
          exact ⟨n, by simp [h3], h4⟩
        · refine (hi.result un' hr ns).1 ?_
          rcases h with h | h
          · exact .inl fun hb => h (by simp [hb])
          · exact .inr h
        · rcases List.mem_cons.1 h with rfl | h
          · exact absurd h' hn
          · exact (hi.result un' hr ns).2 h h' (List.nodup_cons.1 hd).2
      · obtain ⟨f1, f2, f3, f4⟩ := exec_replaceSession hx
        refine ⟨fun e he => ?_, fun u ns s x v h => ?_, fun un' hr' ns => ⟨fun h => ?_, fun h h' hd => ?_⟩⟩
        · rcases List.mem_append.1 he with he | he
          · exact ⟨b, by simp, hn, f1 e he⟩
          · obtain ⟨n, h3, h4⟩ := hi.ops e he
            exact ⟨n, by simp [h3], h4⟩
        · replace h := split1 h
          rcases h with ⟨v', h⟩ | ⟨u', rfl, h⟩
          · obtain ⟨rfl, _, ha⟩ := f2 _ _ _ _ _ h
            exact ⟨[], u, rfl, ha⟩
          · obtain ⟨u1, u2, rfl, ha⟩ := hi.stores _ _ _ _ _ h
            exact ⟨t1 ++ u1, u2, by simp, ha⟩
        · have hne : ns ≠ b := by
            rintro rfl
            rcases h with h | h
            · exact h (by simp)
            · exact h hn
          have h0 : ns ∉ bs ∨ ns ∉ nss := h.imp_left fun h hb => h (by simp [hb])
          rw [(hi.result un' hr' ns).1 h0]
          rcases hr with ⟨_, h⟩ | ⟨y, _, _, h⟩ | ⟨y, _, _, h⟩ | ⟨_, h⟩
          · cases h; rfl
          · cases h; rw [Dict.get_set, if_neg (Ne.symm hne)]
          · cases h
          · cases h
        · have only : ∀ {n s} {x}, (⟨.storeSession n s, x⟩ : Ev) ∈ t1 → n = b := by
            intro n s x h
            have := f1 _ h
            simpa [Op.replacesOrFetches, Op.replaces] using this
          have rest : ∀ {n s} {x}, (⟨.storeSession n s, x⟩ : Ev) ∈ t2 → n ≠ b := by
            rintro n s x hst rfl
            obtain ⟨m, h3, _, h4⟩ := hi.ops _ hst
            have : n = m := by simpa [Op.replacesOrFetches, Op.replaces] using h4
            subst this
            exact (List.nodup_cons.1 hd).1 h3
          replace h := List.mem_cons.1 h
          rcases h with rfl | h
          · have hkeep := (hi.result un' hr' ns).1 (.inl (List.nodup_cons.1 hd).1)
            rcases hr with ⟨rfl, h⟩ | ⟨y, rfl, hy, h⟩ | ⟨y, _, _, h⟩ | ⟨_, h⟩
            · cases h
              obtain ⟨s, hs⟩ := f3 rfl
              exact .inl ⟨hkeep, s, by simp [hs]⟩
            · cases h
              obtain ⟨⟨e, he, hy'⟩, hno⟩ := f4 y rfl
              refine .inr ⟨y, by rw [hkeep, Dict.get_set, if_pos rfl], hy, ⟨e, by simp [he], f1 e he, hy'⟩, fun s hs => ?_⟩
              rcases List.mem_append.1 hs with hs | hs
              · exact hno _ _ hs
              · exact rest hs rfl
            · cases h
            · cases h
          · have hne : ns ≠ b := by
              rintro rfl
              exact (List.nodup_cons.1 hd).1 h
            have hkeep : un1.get ns = un.get ns := by
              rcases hr with ⟨_, h⟩ | ⟨y, _, _, h⟩ | ⟨y, _, _, h⟩ | ⟨_, h⟩
              · cases h; rfl
              · cases h; rw [Dict.get_set, if_neg (Ne.symm hne)]
              · cases h
              · cases h
            rcases (hi.result un' hr' ns).2 h h' (List.nodup_cons.1 hd).2 with ⟨i1, s, i2⟩ | ⟨y, i1, i2, ⟨e, i3, i4⟩, i5⟩
            · exact .inl ⟨i1.trans hkeep, s, by simp [i2]⟩
            · refine .inr ⟨y, i1, i2, ⟨e, by simp [i3], i4⟩, fun s hs => ?_⟩
              rcases List.mem_append.1 hs with hs | hs
              · exact hne (only hs)
              · exact i5 s hs
    all_goals
      rcases exec_replaceRound h1 with ⟨_, _, h⟩ | ⟨hn, r', hx, hr⟩
      · cases h
      · obtain ⟨f1, f2, f3, f4⟩ := exec_replaceSession hx
        refine ⟨fun e he => ⟨b, by simp, hn, f1 e he⟩, fun u ns s x v h => ?_, nofun⟩
        obtain ⟨rfl, _, ha⟩ := f2 _ _ _ _ _ h
        exact ⟨[], u, rfl, ha⟩

theorem SM.exec_withSession {j : Jid} {d : DevId} {bs : List Ns} {t : List Ev} {l : List Ns}
    (he : Exec (Prog.filterAll bs fun ns => do
      let s ← call (.loadSession ns j d)
      pure (Option.isSome s)) t (.ok l)) :
    ∀ ns, ns ∈ l → ns ∈ bs ∧ ∃ s, (⟨.loadSession ns j d, .ok (some s)⟩ : Ev) ∈ t := by
  induction bs generalizing t l with
  | nil =>
    obtain ⟨rfl, h⟩ := exec_filterAll_nil.1 he
    cases h
    simp
  | cons b bs ih =>
    obtain ⟨t1, y, t2, ys, rfl, rfl, h1, h2⟩ := exec_filterAll_cons_ok.1 he
    obtain ⟨s, t', rfl, h3⟩ := exec_call_bind_ok.1 h1
    cases h3
    intro ns hns
    have rest : ∀ {x}, ns ∈ ys → ns ∈ b :: bs ∧ ∃ s, (⟨.loadSession ns j d, .ok (some s)⟩ : Ev) ∈ ⟨.loadSession b j d, .ok x⟩ :: t2 := by
      intro x h
      obtain ⟨h3, s', h4⟩ := ih h2 ns h
      exact ⟨by simp [h3], s', by simp [h4]⟩
    cases s with
    | none => exact rest (by simpa using hns)
    | some s =>
      rcases List.mem_cons.1 (by simpa using hns) with rfl | h
      · exact ⟨by simp, s, by simp⟩
      · exact rest h

theorem SM.exec_withSession_complete {j : Jid} {d : DevId} {bs : List Ns} {t : List Ev} {l : List Ns}
    (he : Exec (Prog.filterAll bs fun ns => do
      let s ← call (.loadSession ns j d)
      pure (Option.isSome s)) t (.ok l)) :
    ∀ ns ∈ bs, ns ∉ l → (⟨.loadSession ns j d, .ok none⟩ : Ev) ∈ t := by
  induction bs generalizing t l with
  | nil => simp
  | cons b bs ih =>
    obtain ⟨t1, y, t2, ys, rfl, rfl, h1, h2⟩ := exec_filterAll_cons_ok.1 he
    obtain ⟨s, t', rfl, h3⟩ := exec_call_bind_ok.1 h1
    cases h3
    intro ns hns hl
    rcases List.mem_cons.1 hns with rfl | h
    · cases s with
      | none => simp
      | some s => simp at hl
    · have : ns ∉ ys := fun hy => hl (by split <;> simp [hy])
      simp [ih h2 ns h this]

/-- The two phases of `replace_sessions`: looking up the device and its sessions, and replacing. -/
theorem SM.exec_replaceSessions {M : Mgr} {jid : Jid} {d : DevId} {t : List Ev} {r} (he : Exec (replaceSessions M jid d) t r) :
    (∀ e ∈ t, Foot.Info jid e.1 ∨ e.1 = .getBackends ∨ ∃ ns j d, e.1 = .loadSession ns j d) ∧ (∀ x, r ≠ .ok x) ∨
    ∃ t1 t2 dev bs1 l bs2, t = t1 ++ t2 ∧ (∀ e ∈ t1, Foot.Info jid e.1 ∨ e.1 = .getBackends ∨ ∃ ns j d, e.1 = .loadSession ns j d) ∧
      Seen M.undecided t1 dev ∧ dev.bareJid = jid ∧ dev.deviceId = d ∧
      (∀ ns, ns ∈ l → ns ∈ bs1 ∧ ∃ s, (⟨.loadSession ns jid d, .ok (some s)⟩ : Ev) ∈ t1) ∧
      (∀ ns ∈ bs1, ns ∉ l → (⟨.loadSession ns jid d, .ok none⟩ : Ev) ∈ t1) ∧
      (⟨.getBackends, .ok bs1⟩ : Ev) ∈ t1 ∧ (⟨.getBackends, .ok bs2⟩ : Ev) ∈ t1 ∧
      Rounds M jid d (setInter dev.namespaces l) bs2 [] t2 r := by
  unfold replaceSessions at he
  have info : ∀ {t r}, Exec (getDeviceInformation M jid) t r → ∀ e ∈ t, Foot.Info jid e.1 ∨ e.1 = .getBackends ∨ ∃ ns j d, e.1 = .loadSession ns j d :=
    fun h e hm => .inl ((ops_getDeviceInformation M jid).exec h e hm)
  replace he := exec_seq.1 he
  rcases he with ⟨t1, devs, t2, rfl, h1, he⟩ | ⟨e, h1, rfl⟩ | ⟨h1, rfl⟩
  case inr.inl => exact .inl ⟨info h1, nofun⟩
  case inr.inr => exact .inl ⟨info h1, nofun⟩
  obtain ⟨c, hi⟩ := exec_getDeviceInformation h1
  cases hf : (M.O.iter devs).find? fun dev => decide (dev.deviceId = d) with
  | none =>
    rw [hf] at he
    cases he
    exact .inl ⟨by simpa using info h1, nofun⟩
  | some dev =>
    rw [hf] at he
    have hmem : dev ∈ devs := M.O.mem_iter.1 (List.mem_of_find?_eq_some hf)
    have hdev : dev.deviceId = d := by simpa using List.find?_some hf
    have hjid := hi.bareJid dev hmem
    replace he := exec_call_bind.1 he
    rcases he with ⟨rfl, rfl⟩ | ⟨e, rfl, rfl⟩ | ⟨bs1, t3, rfl, he⟩
    · exact .inl ⟨by simpa using info h1, nofun⟩
    · refine .inl ⟨fun x hx => ?_, nofun⟩
      rcases List.mem_append.1 hx with hx | hx
      · exact info h1 x hx
      · cases List.mem_singleton.1 hx; exact .inr (.inl rfl)
    have lops : AllOps (fun o : Op => Foot.Info jid o ∨ o = .getBackends ∨ ∃ ns j d, o = .loadSession ns j d)
        (Prog.filterAll bs1 fun ns => do
          let s ← call (.loadSession ns dev.bareJid dev.deviceId)
          pure (Option.isSome s)) :=
      .filterAll fun ns _ => .bind (.perform (.inr (.inr ⟨_, _, _, rfl⟩))) fun _ => .pure _
    replace he := exec_seq.1 he
    have loads : ∀ {t3 : List Ev}, (∀ e ∈ t3, Foot.Info jid e.1 ∨ e.1 = .getBackends ∨ ∃ ns j d, e.1 = .loadSession ns j d) →
        ∀ e ∈ t1 ++ ⟨.getBackends, .ok bs1⟩ :: t3, Foot.Info jid e.1 ∨ e.1 = .getBackends ∨ ∃ ns j d, e.1 = .loadSession ns j d := by
      intro t3 h e he
      rcases List.mem_append.1 he with he | he
      · exact info h1 e he
      · rcases List.mem_cons.1 he with rfl | he
        · exact .inr (.inl rfl)
        · exact h e he
    rcases he with ⟨t3, l, t4, rfl, h3, he⟩ | ⟨e, h3, rfl⟩ | ⟨h3, rfl⟩
    rotate_left 1
    · exact .inl ⟨loads (lops.exec h3), nofun⟩
    · exact .inl ⟨loads (lops.exec h3), nofun⟩
    replace he := exec_call_bind.1 he
    rcases he with ⟨rfl, rfl⟩ | ⟨e, rfl, rfl⟩ | ⟨bs2, t5, rfl, he⟩
    · exact .inl ⟨by simpa using loads (lops.exec h3), nofun⟩
    · refine .inl ⟨loads fun x hx => ?_, nofun⟩
      rcases List.mem_append.1 hx with hx | hx
      · exact lops.exec h3 x hx
      · cases List.mem_singleton.1 hx; exact .inr (.inl rfl)
    · refine .inr ⟨t1 ++ ⟨.getBackends, .ok bs1⟩ :: (t3 ++ [⟨.getBackends, .ok bs2⟩]), t5, dev, bs1, l, bs2, by simp, ?_, ?_, hjid, hdev, ?_, ?_,
        by simp, by simp, ?_⟩
      · refine loads fun x hx => ?_
        rcases List.mem_append.1 hx with hx | hx
        · exact lops.exec h3 x hx
        · cases List.mem_singleton.1 hx; exact .inr (.inl rfl)
      · exact (hi.seen dev hmem).mono fun e he => by simp [he]
      · intro ns hns
        obtain ⟨h4, s, h5⟩ := exec_withSession h3 ns hns
        rw [hjid, hdev] at h5
        exact ⟨h4, s, by simp [h5]⟩
      · intro ns hns hl
        have := exec_withSession_complete h3 ns hns hl
        rw [hjid, hdev] at this
        simp [this]
      · rw [hjid, hdev] at he
        exact exec_rounds he

/-- Nothing of the first phase belongs to a replacement. -/
theorem SM.lookup_quiet {jid : Jid} {o : Op} (h : Foot.Info jid o ∨ o = .getBackends ∨ ∃ ns j d, o = .loadSession ns j d) (ns : Ns) :
    Op.replaces ns o = false := by
  rcases h with h | rfl | ⟨_, _, _, rfl⟩
  · cases h <;> rfl
  · rfl
  · rfl

/-- C63: whenever `replace_sessions` stores a session, successfully or not, the device was notified of it immediately before: the session
was built from a bundle downloaded for the device in the same round, and a message with the key exchange of exactly this session was sent
successfully. -/
theorem C63_announced (M : Mgr) (jid : Jid) (d : DevId) (t : List Ev) (r) (he : Exec (replaceSessions M jid d) t r)
    (u : List Ev) (ns : Ns) (s : Session) (x) (v : List Ev) (ht : t = u ++ ⟨.storeSession ns s, x⟩ :: v) :
    ∃ u1 u2, u = u1 ++ u2 ∧ Announcement M jid d ns s u2 := by
  subst ht
  rcases exec_replaceSessions he with ⟨h, _⟩ | ⟨t1, t2, dev, bs1, l, bs2, ht, h1, _, _, _, _, _, _, _, hr⟩
  · have := lookup_quiet (h ⟨.storeSession ns s, x⟩ (by simp)) ns
    simp [Op.replaces] at this
  · rcases List.append_eq_append_iff.1 ht with ⟨a', rfl, h'⟩ | ⟨c', rfl, h'⟩
    · cases a' with
      | nil =>
        obtain ⟨u1, u2, h, ha⟩ := hr.stores [] ns s x v (by simpa using h'.symm)
        obtain ⟨rfl, rfl⟩ := List.append_eq_nil_iff.1 h.symm
        exact ⟨u, [], by simp, ha⟩
      | cons a a' =>
        cases h'
        have := lookup_quiet (h1 ⟨.storeSession ns s, x⟩ (by simp)) ns
        simp [Op.replaces] at this
    · obtain ⟨u1, u2, rfl, ha⟩ := hr.stores _ _ _ _ _ h'
      exact ⟨t1 ++ u1, u2, by simp, ha⟩

/-- C63: backends are only touched if the device supports them and a session exists. -/
theorem C63_touched (M : Mgr) (jid : Jid) (d : DevId) (t : List Ev) (r) (he : Exec (replaceSessions M jid d) t r)
    (ns : Ns) (e : Ev) (hm : e ∈ t) (ho : Op.replaces ns e.1 = true) :
    ∃ dev, Seen M.undecided t dev ∧ dev.bareJid = jid ∧ dev.deviceId = d ∧ ns ∈ dev.namespaces ∧
      ∃ s, (⟨.loadSession ns jid d, .ok (some s)⟩ : Ev) ∈ t := by
  rcases exec_replaceSessions he with ⟨h, _⟩ | ⟨t1, t2, dev, bs1, l, bs2, rfl, h1, h2, h3, h4, h5, _, _, _, hr⟩
  · rw [lookup_quiet (h e hm) ns] at ho; cases ho
  · rcases List.mem_append.1 hm with hm | hm
    · rw [lookup_quiet (h1 e hm) ns] at ho; cases ho
    · obtain ⟨n, _, hn, hf⟩ := hr.ops e hm
      have : n = ns := by
        obtain ⟨o, x⟩ := e
        cases o <;> simp [Op.replaces, Op.replacesOrFetches] at ho hf <;> exact hf.symm.trans ho
      subst this
      obtain ⟨hn1, hn2⟩ := List.mem_filter.1 hn
      obtain ⟨_, s, hs⟩ := h5 n (by simpa using hn2)
      exact ⟨dev, h2.mono fun e he => by simp [he], h3, h4, hn1, s, by simp [hs]⟩

/-- C63, the report: when `replace_sessions` returns, then for every backend that was loaded throughout, supported by the device and had a
session, either the replacement was stored and nothing is reported, or the exception of an interaction of this replacement is reported and
no session was stored.  Nothing is reported for other backends. -/
theorem C63_report (M : Mgr) (jid : Jid) (d : DevId) (t : List Ev) (res : Dict Ns Exn) (he : Exec (replaceSessions M jid d) t (.ok res))
    (hb : BackendsOnce t) (hs : BackendsStay t) : ∃ dev, Seen M.undecided t dev ∧ dev.bareJid = jid ∧ dev.deviceId = d ∧
    ∀ ns, ((⟨.loadSession ns jid d, .ok none⟩ : Ev) ∉ t → ns ∈ dev.namespaces → (∃ bs, (⟨.getBackends, .ok bs⟩ : Ev) ∈ t ∧ ns ∈ bs) →
        (res.get ns = none ∧ ∃ s, (⟨.storeSession ns s, .ok ()⟩ : Ev) ∈ t) ∨
        (∃ y, res.get ns = some y ∧ y.isOmemo = true ∧ (∃ e ∈ t, Op.replacesOrFetches ns e.1 = true ∧ e.2 = .error y) ∧
          ∀ s, (⟨.storeSession ns s, .ok ()⟩ : Ev) ∉ t)) ∧
      (∀ y, res.get ns = some y → ns ∈ dev.namespaces ∧ ∃ s, (⟨.loadSession ns jid d, .ok (some s)⟩ : Ev) ∈ t) := by
  rcases exec_replaceSessions he with ⟨_, h⟩ | ⟨t1, t2, dev, bs1, l, bs2, rfl, h1, h2, h3, h4, h5, h6, h7, h8, hr⟩
  · exact absurd rfl (h res)
  · refine ⟨dev, h2.mono fun e he => by simp [he], h3, h4, fun ns => ⟨fun hn hd ⟨bs, hbs, hmem⟩ => ?_, fun y hy => ?_⟩⟩
    · cases hs bs bs1 hbs (by simp [h7])
      cases hs bs1 bs2 hbs (by simp [h8])
      have hl : ns ∈ l := Classical.byContradiction fun hl => hn (by simp [h6 ns hmem hl])
      rcases (hr.result res rfl ns).2 hmem (List.mem_filter.2 ⟨hd, by simpa using hl⟩) (hb bs1 (by simp [h7])) with
        ⟨i1, s, i2⟩ | ⟨y, i1, i2, ⟨e, i3, i4⟩, i5⟩
      · exact .inl ⟨i1, s, by simp [i2]⟩
      · refine .inr ⟨y, i1, i2, ⟨e, by simp [i3], i4⟩, fun s hs => ?_⟩
        rcases List.mem_append.1 hs with hs | hs
        · have := lookup_quiet (h1 _ hs) ns
          simp [Op.replaces] at this
        · exact i5 s hs
    · have : ns ∈ setInter dev.namespaces l := Classical.byContradiction fun hn => by
        rw [(hr.result res rfl ns).1 (.inr hn)] at hy
        cases hy
      obtain ⟨hn1, hn2⟩ := List.mem_filter.1 this
      obtain ⟨_, s, hs⟩ := h5 ns (by simpa using hn2)
      exact ⟨hn1, s, by simp [hs]⟩

end Verif
