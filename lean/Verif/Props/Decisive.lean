import Verif.Props.Info
import Verif.Props.EncryptResult
import Verif.Proofs.ExecLoops
/-
Trust decisions that decide (C93): `encrypt` does not end with `StillUndecided`.
-/
namespace Verif
open SM Spec

/-- The stored trust level of the identity key `ik` of `j` is one that is not evaluated to "undecided". -/
def Spec.Decided (lvl : String → TrustLevel) (m : Disk) (j : Jid) (ik : Bytes) : Prop :=
  ∃ s, m (.trust j ik) = some (.str s) ∧ lvl s ≠ .undecided

/-- What `_make_trust_decision` is documented to do (session_manager.py:924-951), for an application that evaluates the custom trust levels by
`lvl`: the level of new devices is an undecided one, the devices that were given have a decision afterwards, decisions are not withdrawn, and
`StillUndecided` is not raised. -/
structure Spec.Decisive (lvl : String → TrustLevel) (M : Mgr) : Prop where
  undecided : lvl M.undecided = .undecided
  keeps : ∀ ds i t r w w', Exec (M.decide ds i) t r → Lib.Runs w t w' → ∀ j ik, Decided lvl w.disk j ik → Decided lvl w'.disk j ik
  decides : ∀ ds i t w w', Exec (M.decide ds i) t (.ok ()) → Lib.Runs w t w' → ∀ dev ∈ ds, Decided lvl w'.disk dev.bareJid dev.identityKey
  quiet : ∀ ds i t, Exec (M.decide ds i) t (.raised .stillUndecided) → ErrIn t .stillUndecided

/-- The trust evaluation agrees with `lvl` where it succeeds. -/
def Spec.EvaluatesBy (lvl : String → TrustLevel) (t : List Ev) : Prop :=
  ∀ dev l, (⟨.evalTrust dev, .ok l⟩ : Ev) ∈ t → l = lvl dev.trustLevelName

namespace Decide
variable {M : Mgr} {lvl : String → TrustLevel}

/-- `StillUndecided` is not raised by interactions. -/
abbrev Quiet : Op → Exn → Prop := fun _ e => e ≠ .stillUndecided

theorem quiet_of {t : List Ev} (h : ¬ ErrIn t .stillUndecided) : ∀ x ∈ t, ∀ y, x.2 = .error y → Quiet x.1 y :=
  fun x hx y hy he => h ⟨x, hx, by rw [hy, he]⟩

theorem raises_of {p : P Unit} (h : ∀ t, Exec p t (.raised .stillUndecided) → ErrIn t .stillUndecided) :
    Raises (S := LibSig) Quiet (· ≠ .stillUndecided) p := by
  refine .of_exec fun t e he ht hs => ?_
  subst hs
  obtain ⟨x, hx, hxe⟩ := h t he
  exact ht x hx _ hxe rfl

theorem still_basic : Basic (· ≠ Exn.stillUndecided) := basic_of_special (.inl rfl)

/-- The trust level in `dev` is the stored one. -/
def Level (u : String) (m : Disk) (dev : DeviceInfo) : Prop :=
  m (.trust dev.bareJid dev.identityKey) = some (.str dev.trustLevelName) ∨
    (m (.trust dev.bareJid dev.identityKey) = none ∧ dev.trustLevelName = u)

/-- Trust levels were left alone. -/
def Still (w w' : World) : Prop := ∀ j ik, w'.disk (.trust j ik) = w.disk (.trust j ik)

theorem level_infos {jids : List Jid} {t : List Ev} {tmp : List (List DeviceInfo × List Bundle)} (he : Exec (Prog.mapAll jids (getDeviceInformation' M)) t (.ok tmp))
    {w w' : World} (hr : Lib.Runs w t w') : Still w w' ∧ ∀ x ∈ tmp, ∀ dev ∈ x.1, Level M.undecided w.disk dev := by
  induction jids generalizing t w tmp with
  | nil => obtain ⟨rfl, h⟩ := exec_mapAll_nil.1 he; cases h; cases hr; exact ⟨fun _ _ => rfl, by simp⟩
  | cons jid jids ih =>
    obtain ⟨t1, x, t2, xs, rfl, rfl, h1, h2⟩ := exec_mapAll_cons_ok.1 he
    obtain ⟨w1, hr1, hr2⟩ := Sem.runs_append.1 hr
    obtain ⟨h3, h4⟩ := ih h2 hr2
    have h5 := describes_info' h1 hr1
    have h6 : Still w w1 := fun j ik => (wp_sound (looked_info' jid w) h1 hr1).disk.frame (.trust j ik) fun _ => ⟨nofun, nofun⟩
    refine ⟨fun j ik => (h3 j ik).trans (h6 j ik), ?_⟩
    intro y hy dev hd
    rcases List.mem_cons.1 hy with rfl | hy
    · have := (h5 dev hd).level
      obtain rfl := (h5 dev hd).bareJid
      exact this
    · have := h4 y hy dev hd
      unfold Level at this
      rw [h6] at this
      exact this

theorem runs_pure {α : Type} {p : P α} (hp : AllOps (fun _ : Op => False) p) {t : List Ev} {r : Res Exn α} (he : Exec p t r) : t = [] := by
  have := hp.exec he
  cases t with
  | nil => rfl
  | cons e t => exact (this e (by simp)).elim

theorem level_recipients {order : List Ns} {jids : List Jid} {t : List Ev} {x : List DeviceInfo × List Bundle}
    (he : Exec (recipientDevices M order jids) t (.ok x)) {w w' : World} (hr : Lib.Runs w t w') :
    ∀ dev ∈ x.1, Level M.undecided w'.disk dev := by
  unfold recipientDevices at he
  obtain ⟨t1, tmp, t', rfl, h1, he⟩ := exec_seq_ok.1 he
  obtain ⟨w1, hr1, hr'⟩ := Sem.runs_append.1 hr
  obtain ⟨hst, hlev⟩ := level_infos h1 hr1
  obtain ⟨t2, ds, t'', rfl, h2, he2⟩ := exec_seq_ok.1 he
  obtain ⟨t3, ys, t4, rfl, h3, he3⟩ := exec_seq_ok.1 he2
  obtain ⟨rfl, he4⟩ := exec_pure.1 he3
  have pl : ∀ {α : Type} (x : Except Exn α), AllOps (fun _ : Op => False) (liftE x : P α) := fun x => by cases x <;> trivial
  have p2 : t2 = [] := runs_pure (.filterAll fun d _ => pl _) h2
  have p3 : t3 = [] := runs_pure (.mapAll fun d _ => pl _) h3
  subst p2 p3
  cases hr'
  cases he4
  intro dev hd
  dsimp only at hd
  rw [List.mem_filter, mem_dedup] at hd
  obtain ⟨src, hs, t5, h5⟩ := exec_mapAll_mem h3 dev hd.1
  have hs' := exec_filterAll_mem h2 src (by simpa using hs)
  simp only [SetOrder.mem_iter, mem_dedup, List.mem_flatten, List.mem_map] at hs'
  obtain ⟨_, ⟨y, hy, rfl⟩, hsy⟩ := hs'
  have hl := hlev y hy src hsy
  have : ∃ nss, dev = { src with namespaces := nss } := by
    unfold applyPriority at h5
    cases ha : activeNamespaces src with
    | error e => rw [ha] at h5; cases h5
    | ok a => rw [ha] at h5; cases h5; exact ⟨_, rfl⟩
  obtain ⟨nss, rfl⟩ := this
  unfold Level
  rw [hst]
  exact hl

theorem evaluated {level : TrustLevel} {ds ys : List DeviceInfo} {t : List Ev} (he : Exec (devicesWithTrust level ds) t (.ok ys)) (hv : EvaluatesBy lvl t)
    {w w' : World} (hr : Lib.Runs w t w') : w'.disk = w.disk ∧ ∀ d, d ∈ ys ↔ d ∈ ds ∧ lvl d.trustLevelName = level := by
  induction ds generalizing t w ys with
  | nil => obtain ⟨rfl, h⟩ := exec_filterAll_nil.1 he; cases h; cases hr; simp
  | cons d ds ih =>
    obtain ⟨t1, b, t2, ys', rfl, rfl, h1, h2⟩ := exec_filterAll_cons_ok.1 he
    obtain ⟨t3, l, t4, rfl, h3, h4⟩ := exec_seq_ok.1 h1
    cases exec_call_ok.1 h3
    obtain ⟨rfl, hb⟩ := exec_pure.1 h4
    cases hb
    obtain ⟨h5, h6⟩ := ih h2 (fun dev x hx => hv dev x (by simp [hx])) hr.2
    have h8 := hv d l (by simp)
    refine ⟨h5, fun x => ?_⟩
    by_cases hl : l = level
    · simp only [hl, decide_true, if_true, List.mem_cons, h6]
      constructor
      · rintro (rfl | ⟨a, b⟩)
        · exact ⟨.inl rfl, h8.symm.trans hl⟩
        · exact ⟨.inr a, b⟩
      · rintro ⟨rfl | a, b⟩
        · exact .inl rfl
        · exact .inr ⟨a, b⟩
    · simp only [hl, decide_false, Bool.false_eq_true, if_false, List.mem_cons, h6]
      constructor
      · rintro ⟨a, b⟩; exact ⟨.inr a, b⟩
      · rintro ⟨rfl | a, b⟩
        · exact absurd (h8.trans b) hl
        · exact ⟨a, b⟩

/-- Loading the levels again. -/
theorem reloaded {ds ys : List DeviceInfo} {t : List Ev} (he : Exec (Prog.mapAll ds (reloadTrust M)) t (.ok ys)) {w w' : World} (hr : Lib.Runs w t w')
    (hs : ∀ d ∈ ds, Decided lvl w.disk d.bareJid d.identityKey) :
    ∀ y ∈ ys, lvl y.trustLevelName ≠ .undecided := by
  induction ds generalizing t w ys with
  | nil => obtain ⟨rfl, h⟩ := exec_mapAll_nil.1 he; cases h; simp
  | cons d ds ih =>
    obtain ⟨t1, y, t2, ys', rfl, rfl, h1, h2⟩ := exec_mapAll_cons_ok.1 he
    obtain ⟨w1, hr1, hr2⟩ := Sem.runs_append.1 hr
    have : wp Lib (reloadTrust M d) (ends (fun y w' => w'.disk = w.disk ∧ w.disk (.trust d.bareJid d.identityKey) = some (.str y.trustLevelName)) fun _ _ => True) w := by
      obtain ⟨s, h3, h4⟩ := hs d (by simp)
      unfold reloadTrust Sto.loadStr
      rw [ends_bind, ends_bind]
      refine Lib.load (fun _ _ => trivial) ?_
      rw [wp_fmap, h3]
      exact ⟨rfl, rfl⟩
    obtain ⟨h3, h4⟩ := wp_sound this h1 hr1
    intro z hz
    rcases List.mem_cons.1 hz with rfl | hz
    · obtain ⟨s, h5, h6⟩ := hs d (by simp)
      rw [h4] at h5
      cases h5
      exact h6
    · refine ih h2 hr2 (fun x hx => ?_) z hz
      rw [h3]
      exact hs x (by simp [hx])

/-- A device that evaluates to something else than undecided is decided about. -/
theorem decided_of {u : String} (hu : lvl u = .undecided) {d : DeviceInfo} {m : Disk} (hl : Level u m d) (he : lvl d.trustLevelName ≠ .undecided) :
    Decided lvl m d.bareJid d.identityKey := by
  rcases hl with h | ⟨_, h⟩
  · exact ⟨_, h, he⟩
  · rw [h] at he
    exact absurd hu he

theorem raises_devicesWithTrust (level : TrustLevel) (ds : List DeviceInfo) :
    Raises (S := LibSig) Quiet (· ≠ .stillUndecided) (devicesWithTrust level ds) :=
  .filterAll fun _ _ => .bind (.perform fun _ h => h) fun _ => .pure _

theorem raises_askTrust {χ : Op → Exn → Prop} {ρ : Exn → Prop} {M : Mgr} (hb : Core ρ) (h : ∀ o e, χ o e → ρ e)
    (hd : ∀ ds i, Raises (S := LibSig) χ ρ (M.decide ds i)) (devices und : List DeviceInfo) (i : Option String) :
    Raises (S := LibSig) χ ρ (askTrust M devices und i) := by
  unfold askTrust reloadTrust
  lib_raises hb, [hd]
  all_goals exact h _ _ (by assumption)

theorem decides (hM : Decisive lvl M) {devices : List DeviceInfo} {i : Option String} {t : List Ev}
    (he : Exec (decideTrust M devices i) t (.raised .stillUndecided)) (hq : ¬ ErrIn t .stillUndecided) (hv : EvaluatesBy lvl t)
    {w w' : World} (hr : Lib.Runs w t w') (hl : ∀ dev ∈ devices, Level M.undecided w.disk dev) : False := by
  unfold decideTrust at he
  rcases exec_seq.1 he with ⟨t1, und, t', rfl, h1, he⟩ | ⟨e, h1, h⟩ | ⟨_, h⟩
  · obtain ⟨w1, hr1, hr'⟩ := Sem.runs_append.1 hr
    have hq' : ¬ ErrIn t' .stillUndecided := fun ⟨e, h, h'⟩ => hq ⟨e, by simp [h], h'⟩
    obtain ⟨hd1, hund⟩ := evaluated h1 (fun d x h => hv d x (by simp [h])) hr1
    simp only [SetOrder.mem_iter] at hund
    have fin : ∀ {t2 out w2 t3 w3}, t' = t2 ++ t3 → Lib.Runs w2 t3 w3 → (∀ d ∈ out, lvl d.trustLevelName ≠ .undecided) →
        Exec (do
          let stillUndecided ← devicesWithTrust .undecided (M.O.iter out)
          if stillUndecided.length > 0 then throwE .stillUndecided else pure out) t3 (.raised .stillUndecided : Res Exn (List DeviceInfo)) → False := by
      rintro t2 out w2 t3 w3 rfl hr3 hout he
      rcases exec_seq.1 he with ⟨t4, st, t5, rfl, h4, he⟩ | ⟨e, h4, h⟩ | ⟨_, h⟩
      · obtain ⟨w4, hr4, _⟩ := Sem.runs_append.1 hr3
        obtain ⟨_, hst⟩ := evaluated h4 (fun d x h => hv d x (by simp [h])) hr4
        have : st = [] := by
          cases st with
          | nil => rfl
          | cons d st =>
            have := (hst d).1 (by simp)
            exact absurd this.2 (hout d (by simpa using this.1))
        subst this
        cases he
      · cases h
        exact (raises_devicesWithTrust _ _).exec h4 (quiet_of fun ⟨e, h, h'⟩ => hq' ⟨e, by simp [h], h'⟩) rfl
      · cases h
    rcases exec_seq.1 he with ⟨t2, out, t3, rfl, h2, he⟩ | ⟨e, h2, h⟩ | ⟨_, h⟩
    · obtain ⟨w2, hr2, hr3⟩ := Sem.runs_append.1 hr'
      refine fin rfl hr3 (fun d hd => ?_) he
      unfold askTrust at h2
      by_cases hlen : und.length > 0
      · rw [if_pos hlen] at h2
        obtain ⟨t4, _, t5, rfl, h4, h5⟩ := exec_seq_ok.1 h2
        obtain ⟨w4, hr4, hr5⟩ := Sem.runs_append.1 hr2
        obtain ⟨t6, ys, t7, rfl, h6, h7⟩ := exec_seq_ok.1 h5
        obtain ⟨rfl, h7⟩ := exec_pure.1 h7
        cases h7
        rw [List.append_nil] at hr5
        refine reloaded h6 hr5 (fun x hx => ?_) d (by simpa using hd)
        have hx' : x ∈ devices := by simpa using hx
        by_cases hun : lvl x.trustLevelName = .undecided
        · exact hM.decides _ _ _ _ _ h4 hr4 x ((hund x).2 ⟨hx', hun⟩)
        · refine hM.keeps _ _ _ _ _ _ h4 hr4 _ _ ?_
          rw [hd1]
          exact decided_of hM.undecided (hl x hx') hun
      · rw [if_neg hlen] at h2
        obtain ⟨rfl, h2'⟩ := exec_pure.1 h2
        cases h2'
        intro hdu
        have := (hund d).2 ⟨hd, hdu⟩
        exact hlen (List.length_pos_of_mem this)
    · cases h
      exact (raises_askTrust still_basic.toCore (fun _ _ h => h) (fun ds i => raises_of (hM.quiet ds i)) devices und i).exec h2
        (quiet_of hq') rfl
    · cases h
  · cases h
    exact (raises_devicesWithTrust _ _).exec h1 (quiet_of hq) rfl
  · cases h

theorem raises_encryptTrusted {M : Mgr} (jids : List Jid) (cache : List Bundle) (pt : Dict Ns Bytes) (ds : List DeviceInfo) :
    Raises (S := LibSig) Quiet (· ≠ .stillUndecided) (encryptTrusted M jids cache pt ds) := by
  refine .bind (raises_devicesWithTrust _ _) fun _ => .bind (.perform fun _ h => h) fun bs =>
    .bind (.fold fun st ns _ => raises_encryptBackend still_basic.toCore (fun _ _ h => h) _ _ _ _ fun _ => still_basic.key) fun st => ?_
  dsimp only
  split
  · exact nofun
  · exact .bind (.forEach fun _ _ => .perform fun _ h => h) fun _ => .pure _

end Decide

/-! ### C93 -/

/-- C93.  If the trust decision does what is documented, `encrypt` never ends with `StillUndecided`. -/
theorem C93 (lvl : String → TrustLevel) (M : Mgr) (hM : Decisive lvl M) (jids : List Jid) (pt : Dict Ns Bytes) (prio : Option (List Ns))
    (i : Option String) (t : List Ev) (r : Res Exn (Dict Message PlainKM × List EncError)) (w w' : World)
    (he : Exec (encrypt M jids pt prio i) t r) (hr : Lib.Runs w t w') (hv : EvaluatesBy lvl t) (hq : ¬ ErrIn t .stillUndecided) :
    r ≠ .raised .stillUndecided := by
  rintro rfl
  have sub : ∀ {u v : List Ev}, t = u ++ v → ¬ ErrIn v .stillUndecided := by
    rintro u v rfl ⟨e, h, h'⟩
    exact hq ⟨e, by simp [h], h'⟩
  have sub' : ∀ {u v : List Ev}, t = u ++ v → ¬ ErrIn u .stillUndecided := by
    rintro u v rfl ⟨e, h, h'⟩
    exact hq ⟨e, by simp [h], h'⟩
  unfold encrypt at he
  rcases exec_seq.1 he with ⟨t1, bs, t', rfl, h1, he⟩ | ⟨e, h1, h⟩ | ⟨_, h⟩
  · obtain ⟨w1, _, hr⟩ := Sem.runs_append.1 hr
    rcases exec_seq.1 he with ⟨t2, order, t', rfl, h2, he⟩ | ⟨e, h2, h⟩ | ⟨_, h⟩
    · obtain ⟨w2, _, hr⟩ := Sem.runs_append.1 hr
      rcases exec_seq.1 he with ⟨t3, x, t', rfl, h3, he⟩ | ⟨e, h3, h⟩ | ⟨_, h⟩
      · obtain ⟨w3, hr3, hr⟩ := Sem.runs_append.1 hr
        have hlev := Decide.level_recipients h3 hr3
        rcases exec_seq.1 he with ⟨t4, ds, t5, rfl, h4, he⟩ | ⟨e, h4, h⟩ | ⟨_, h⟩
        · exact (Decide.raises_encryptTrusted _ _ _ _).exec he (Decide.quiet_of (sub (u := t1 ++ t2 ++ t3 ++ t4) (by simp))) rfl
        · cases h
          exact Decide.decides hM h4 (sub (u := t1 ++ t2 ++ t3) (by simp)) (fun d x h => hv d x (by simp [h])) hr hlev
        · cases h
      · cases h
        exact (raises_recipientDevices Decide.still_basic.toCore (fun _ _ h => h) _ _).exec h3 (Decide.quiet_of (sub (u := t1 ++ t2) (by simp))) rfl
      · cases h
    · cases h
      unfold effectiveOrder at h2
      split at h2
      · cases h2
      · split at h2 <;> cases h2
    · cases h
  · cases h
    rcases exec_call.1 h1 with ⟨_, h⟩ | ⟨e, rfl, h⟩ | ⟨_, _, h⟩
    · cases h
    · cases h; exact hq ⟨_, List.mem_singleton.2 rfl, rfl⟩
    · cases h
  · cases h


end Verif
