import Verif.Proofs.SendTrace
import Verif.Proofs.RaisesSM
/-
What an execution of `encrypt` looks like, for arbitrary answers.
-/
namespace Verif
namespace Spec

/-- Evaluations of trust levels, and the steps of an encryption. -/
def Op.loud : Op → Bool
  | .evalTrust .. | .encryptPlaintext .. | .buildActive .. | .encryptKM .. | .storeSession .. => true
  | _ => false

end Spec

namespace SM
open Spec
variable {φ : Ev → Prop} {M : Mgr} {h : List Ev}

/-- How an execution ended that did not return. -/
def early {α : Type} : Option Exn → Res Exn α
  | none => .crashed
  | some e => .raised e

/-- The first part of `encrypt`. -/
structure Prep (M : Mgr) (jids : List Jid) (prio : Option (List Ns)) (t : List Ev) (order : List Ns) (devices : List DeviceInfo)
    (cache : List Bundle) (infos : List (Jid × List DeviceInfo × List Bundle)) : Prop where
  chosen : ∃ bs t0, t = ⟨.getBackends, .ok bs⟩ :: t0 ∧ effectiveOrder bs prio = .ok order
  quiet : ∀ e ∈ t, Op.loud e.1 = false
  recipients : RecipientsOk M order (setUnion jids [M.ownJid]) t (devices, cache) infos
  ran : ∃ e t0, t = e :: t0 ∧ Exec (recipientDevices M order (setUnion jids [M.ownJid])) t0 (.ok (devices, cache))

/-- The second part. -/
structure Agreed (M : Mgr) (devices : List DeviceInfo) (i : Option String) (t1 t : List Ev) (out : List DeviceInfo)
    (v1 v2 : DeviceInfo → TrustLevel) (tm : List Ev) : Prop where
  decided : ∃ h, (∀ e ∈ h, e ∈ t1 ++ t) ∧ Decided M devices i t out h v1 v2 tm
  none : ∀ d ∈ out, v2 d ≠ .undecided

/-- The devices evaluated as trusted in the last round. -/
def trustedOf (M : Mgr) (out : List DeviceInfo) (v3 : DeviceInfo → TrustLevel) : List DeviceInfo :=
  (M.O.iter out).filter fun d => decide (v3 d = .trusted)

/-- Interactions of the third part -/
def Op.sendsOrFields : Op → Bool
  | .getBackends => true
  | o => Op.sends o

/-- The exceptions `encrypt` raises for its own reasons. -/
def special (y : Exn) : Prop := y = .stillUndecided ∨ ∃ js, y = .noEligibleDevices js

theorem basic_of_special {y : Exn} (hy : special y) : Basic (· ≠ y) := by
  rcases hy with rfl | ⟨js, rfl⟩ <;> exact ⟨⟨nofun, nofun, nofun⟩, nofun⟩

/-- The whole execution. -/
inductive EncRun (M : Mgr) (jids : List Jid) (pt : Dict Ns Bytes) (prio : Option (List Ns)) (i : Option String) :
    List Ev → Res Exn (Dict Message PlainKM × List EncError) → Prop
  /-- ended early in the first part -/
  | prep {t x} (hq : ∀ e ∈ t, Op.loud e.1 = false) (hx : ∀ y, x = some y → special y → ErrIn t y) : EncRun M jids pt prio i t (early x)
  /-- in the trust decisions -/
  | decide {t1 t2 order devices cache infos x} (hp : Prep M jids prio t1 order devices cache infos)
    (hd : DecideFailed M devices i t2 x) : EncRun M jids pt prio i (t1 ++ t2) (early x)
  /-- in the last round of evaluations -/
  | third {t1 t2 t3 order devices cache infos out v1 v2 tm x} (hp : Prep M jids prio t1 order devices cache infos)
    (ha : Agreed M devices i t1 t2 out v1 v2 tm) (ht : ∀ e ∈ t3, ∃ dev ∈ out, e.1 = .evalTrust dev)
    (hx : ∀ y, x = some y → ∃ dev, (⟨.evalTrust dev, .error y⟩ : Ev) ∈ t3) :
    EncRun M jids pt prio i (t1 ++ t2 ++ t3) (early x)
  /-- while encrypting -/
  | loop {t1 t2 t4 order devices cache infos out v1 v2 tm v3 x} (hp : Prep M jids prio t1 order devices cache infos)
    (ha : Agreed M devices i t1 t2 out v1 v2 tm) (ht : ∀ e ∈ t4, Op.sendsOrFields e.1 = true)
    (hg : Guarded (Once pt cache (trustedOf M out v3)) (t1 ++ t2 ++ evals (M.O.iter out) v3 ++ t4))
    (hx : ∀ y, x = some y → special y → ErrIn t4 y) :
    EncRun M jids pt prio i (t1 ++ t2 ++ evals (M.O.iter out) v3 ++ t4) (early x)
  /-- a recipient is missing -/
  | missing {t1 t2 t4 order devices cache infos out v1 v2 tm v3 bs st os} (hp : Prep M jids prio t1 order devices cache infos)
    (ha : Agreed M devices i t1 t2 out v1 v2 tm) (ht : ∀ e ∈ t4, Op.sends e.1 = true)
    (ho : Outer M pt cache (trustedOf M out v3) bs (t1 ++ t2 ++ evals (M.O.iter out) v3 ++ ⟨.getBackends, .ok bs⟩ :: t4) st os)
    (hm : noEligible M st.devices (setUnion jids [M.ownJid]) ≠ []) :
    EncRun M jids pt prio i (t1 ++ t2 ++ evals (M.O.iter out) v3 ++ ⟨.getBackends, .ok bs⟩ :: t4)
      (.raised (.noEligibleDevices (noEligible M st.devices (setUnion jids [M.ownJid]))))
  /-- while storing -/
  | store {t1 t2 t4 t5 order devices cache infos out v1 v2 tm v3 bs st os x} (hp : Prep M jids prio t1 order devices cache infos)
    (ha : Agreed M devices i t1 t2 out v1 v2 tm) (ht : ∀ e ∈ t4, Op.sends e.1 = true)
    (ho : Outer M pt cache (trustedOf M out v3) bs (t1 ++ t2 ++ evals (M.O.iter out) v3 ++ ⟨.getBackends, .ok bs⟩ :: t4) st os)
    (hm : noEligible M st.devices (setUnion jids [M.ownJid]) = [])
    (h5 : ∀ e ∈ t5, ∃ ns s, (ns, s) ∈ st.sessions ∧ e.1 = .storeSession ns s) (hx : ∀ y, x = some y → ErrIn t5 y) :
    EncRun M jids pt prio i (t1 ++ t2 ++ evals (M.O.iter out) v3 ++ ⟨.getBackends, .ok bs⟩ :: t4 ++ t5) (early x)
  /-- done -/
  | done {t1 t2 t4 order devices cache infos out v1 v2 tm v3 bs st os} (hp : Prep M jids prio t1 order devices cache infos)
    (ha : Agreed M devices i t1 t2 out v1 v2 tm) (ht : ∀ e ∈ t4, Op.sends e.1 = true)
    (ho : Outer M pt cache (trustedOf M out v3) bs (t1 ++ t2 ++ evals (M.O.iter out) v3 ++ ⟨.getBackends, .ok bs⟩ :: t4) st os)
    (hm : noEligible M st.devices (setUnion jids [M.ownJid]) = []) :
    EncRun M jids pt prio i (t1 ++ t2 ++ evals (M.O.iter out) v3 ++ ⟨.getBackends, .ok bs⟩ :: t4 ++
      (M.O.iter st.sessions).map fun p => ⟨.storeSession p.1 p.2, .ok ()⟩) (.ok (st.messages, st.errors))

theorem trace_stores (xs : List (Ns × Session)) :
    wp (Rec φ) (Prog.forEach xs fun (ns, session) => call (.storeSession ns session)) (ends
      (fun _ h' => h' = h ++ xs.map fun p => ⟨.storeSession p.1 p.2, .ok ()⟩)
      (fun x h' => ∃ t, h' = h ++ t ∧ (∀ e ∈ t, ∃ ns s, (ns, s) ∈ xs ∧ e.1 = .storeSession ns s) ∧ ∀ y, x = some y → ErrIn t y)) h := by
  refine ends_forEach (fun done _ h' => h' = h ++ done.map fun p => ⟨.storeSession p.1 p.2, .ok ()⟩) (by simp) ?_ fun _ h => h
  rintro done ⟨ns, s⟩ rest _ rfl rfl
  have hdone : ∀ e ∈ done.map (fun p => (⟨.storeSession p.1 p.2, .ok ()⟩ : Ev)), ∃ ns' s', (ns', s') ∈ done ++ (ns, s) :: rest ∧
      e.1 = .storeSession ns' s' := by
    intro e he
    obtain ⟨⟨a, b⟩, hp, rfl⟩ := List.mem_map.1 he
    exact ⟨a, b, by simp [hp], rfl⟩
  refine Rec.call ⟨_, rfl, hdone, nofun⟩ (fun _ _ => by simp) fun e _ => ⟨_, List.append_assoc .., ?_, by
    rintro _ ⟨⟩
    exact ⟨⟨.storeSession ns s, .error e⟩, by simp, rfl⟩⟩
  intro x hx
  rcases List.mem_append.1 hx with hx | hx
  · exact hdone x hx
  · cases List.mem_singleton.1 hx
    exact ⟨ns, s, by simp, rfl⟩

theorem given_nil (hg : ∀ e ∈ h, Op.handsOut e.1 = false) : given h = [] := by
  unfold given
  rw [List.filterMap_eq_nil_iff]
  intro e he
  have := hg e he
  split
  · cases this
  · cases this
  · rfl

theorem outer_start {pt : Dict Ns Bytes} {cache : List Bundle} {trusted : List DeviceInfo} (hn : trusted.Nodup) (hg : ∀ e ∈ h, Op.handsOut e.1 = false) :
    Outer M pt cache trusted [] h { devices := trusted, errors := [], sessions := [], messages := [] } [] where
  guard := by
    have := Guarded.extend (pt := pt) (cache := cache) (S := ([] : List Out).map Out.dev) (h := []) (t := h) Guarded.nil hg
    simpa using this
  nodup := by simp
  out := by simp
  all := by simp
  devices := by simp
  uniq := hn
  errors := rfl
  sessions := rfl
  messages := by simp
  once := by simp
  served := by simp
  given := given_nil hg
  parts := ⟨[], rfl, rfl⟩

theorem trace_loop {pt : Dict Ns Bytes} {trusted : List DeviceInfo} (cache : List Bundle) (bs : List Ns) (hbs : bs.Nodup)
    (hT : ∀ dev ∈ trusted, ∃ ns, dev.namespaces = [ns]) (hA : (trusted.map addr).Nodup) (hg : ∀ e ∈ h, Op.handsOut e.1 = false) :
    wp (Rec φ) (Prog.fold bs { devices := trusted, errors := [], sessions := [], messages := [] } (encryptBackend M cache pt)) (ends
      (fun st h' => (∃ t, h' = h ++ t ∧ ∀ e ∈ t, Op.sends e.1 = true) ∧ ∃ os, Outer M pt cache trusted bs h' st os)
      (fun x h' => ∃ t, h' = h ++ t ∧ (∀ e ∈ t, Op.sends e.1 = true) ∧ Guarded (Once pt cache trusted) h' ∧
        ∀ y, x = some y → special y → ErrIn t y)) h := by
  suffices wp (Rec φ) (Prog.fold bs { devices := trusted, errors := [], sessions := [], messages := [] } (encryptBackend M cache pt)) (ends
      (fun st h' => (∃ t, h' = h ++ t ∧ ∀ e ∈ t, Op.sends e.1 = true) ∧ ∃ os, Outer M pt cache trusted bs h' st os)
      (fun _ h' => (∃ t, h' = h ++ t ∧ ∀ e ∈ t, Op.sends e.1 = true) ∧ Guarded (Once pt cache trusted) h')) h by
    have hc := Rec.cause (φ := φ) (h := h) (σ := special)
      (p := Prog.fold bs { devices := trusted, errors := [], sessions := [], messages := [] } (encryptBackend M cache pt))
      fun y hy => Raises.fold fun st ns _ => raises_encryptBackend (basic_of_special hy).toCore (fun _ _ h => h) _ _ _ _ fun _ => (basic_of_special hy).key
    refine wp_mono (wp_and this hc) ?_
    rintro r h' ⟨h1, t, rfl, hx⟩
    cases r with
    | ok => exact h1
    | crashed =>
      obtain ⟨⟨t', ht', h2⟩, h3⟩ := h1
      cases List.append_cancel_left ht'
      exact ⟨_, rfl, h2, h3, nofun⟩
    | raised e =>
      obtain ⟨⟨t', ht', h2⟩, h3⟩ := h1
      cases List.append_cancel_left ht'
      exact ⟨_, rfl, h2, h3, by rintro y ⟨⟩ hy; exact hx _ hy rfl⟩
  refine ends_fold (fun done _ st h' => (∃ t, h' = h ++ t ∧ ∀ e ∈ t, Op.sends e.1 = true) ∧ ∃ os, Outer M pt cache trusted done h' st os)
    ⟨⟨[], by simp, by simp⟩, [], outer_start (nodup_of_map hA) hg⟩ ?_ fun _ _ h => h
  rintro done ns rest st _ rfl ⟨⟨t, rfl, ht⟩, os, ho⟩
  have hns : ns ∉ done := by
    intro hm
    rw [List.nodup_append] at hbs
    exact hbs.2.2 _ hm _ (by simp) rfl
  have join : ∀ t' : List Ev, (∀ e ∈ t', Op.sends e.1 = true) → ∀ e ∈ t ++ t', Op.sends e.1 = true := by
    intro t' ht' e he
    rcases List.mem_append.1 he with he | he
    · exact ht e he
    · exact ht' e he
  refine ends_mono (trace_encryptBackend ns hT hA hns ho) ?_ ?_
  · rintro st' _ ⟨⟨t', rfl, ht'⟩, os', ho'⟩
    exact ⟨⟨_, List.append_assoc .., join _ ht'⟩, os', ho'⟩
  · rintro _ _ ⟨⟨t', rfl, ht'⟩, hg'⟩
    exact ⟨⟨_, List.append_assoc .., join _ ht'⟩, hg'⟩

theorem ops_recipients (order : List Ns) (jids : List Jid) : AllOps (fun o => Op.loud o = false) (recipientDevices M order jids) := by
  have : ∀ jid, AllOps (fun o => Op.loud o = false) (getDeviceInformation' M jid) := fun jid =>
    (ops_getDeviceInformation' M jid).mono fun o h => by cases h <;> rfl
  unfold recipientDevices
  lib_ops [this]

/-- Backends are loaded once, in this answer. -/
def OnceIn (e : Ev) : Prop := ∀ bs, e = ⟨.getBackends, .ok bs⟩ → bs.Nodup

/-- Nothing is handed out before the loops. -/
theorem Agreed.no_handout {devices out : List DeviceInfo} {i t1 t v1 v2 tm}
    (ha : Agreed M devices i t1 t out v1 v2 tm) (hdec : CallbackQuiet M.decide) :
    ∀ e ∈ t, Op.handsOut e.1 = false := by
  obtain ⟨⟨h0, _, hd⟩, _⟩ := ha
  rw [hd.trace]
  intro e he
  simp only [List.mem_append, mem_evals] at he
  rcases he with (⟨d, _, rfl⟩ | he) | ⟨d, _, rfl⟩
  · rfl
  · rcases hd.asked with ⟨_, rfl, _⟩ | ⟨_, td, tl, rfl, hx, hl, _⟩
    · simp at he
    · rcases List.mem_append.1 he with he | he
      · have := (hdec _ _ _ _ hx e he).1
        revert this
        cases e.1 <;> simp [Op.encrypts, Op.handsOut]
      · have := hl e he
        revert this
        generalize e.1 = o
        intro h
        unfold Op.loadsTrust at h
        split at h
        · rfl
        · cases h
  · rfl

theorem Prep.single {jids : List Jid} {prio t order devices cache infos} (hp : Prep M jids prio t order devices cache infos) :
    ∀ dev ∈ devices, ∃ ns, dev.namespaces = [ns] := by
  intro dev hd
  obtain ⟨_, _, src, _, _, ns, _, rfl⟩ := (hp.recipients.devices dev).1 hd
  exact ⟨ns, rfl⟩

theorem Agreed.source {devices out : List DeviceInfo} {i t1 t v1 v2 tm} (ha : Agreed M devices i t1 t out v1 v2 tm) :
    ∀ y ∈ out, ∃ x ∈ devices, ∃ l, y = { x with trustLevelName := l } := by
  obtain ⟨⟨h0, _, hd⟩, _⟩ := ha
  intro y hy
  rcases hd.asked with ⟨_, _, rfl⟩ | ⟨_, td, tl, _, _, _, _, h⟩
  · exact ⟨y, hy, y.trustLevelName, rfl⟩
  · obtain ⟨x, hx, l, h', _⟩ := h y hy
    exact ⟨x, hx, l, h'⟩

theorem encrypt_run (hdec : CallbackQuiet M.decide) (jids : List Jid) (pt : Dict Ns Bytes)
    (prio : Option (List Ns)) (i : Option String) {t r} (he : Exec (encrypt M jids pt prio i) t r) (ht : BackendsOnce t) :
    EncRun M jids pt prio i t r := by
  have main : wp (Rec OnceIn) (encrypt M jids pt prio i) (fun r h' => EncRun M jids pt prio i h' r) [] := by
    have e1 : (fun r h' => EncRun M jids pt prio i h' r) = ends (fun a h' => EncRun M jids pt prio i h' (.ok a))
        (fun x h' => EncRun M jids pt prio i h' (early x)) := by
      funext r h'
      cases r <;> rfl
    rw [e1]
    unfold encrypt
    rw [ends_bind]
    refine Rec.call (.prep (by simp) nofun) (fun bs _ => ?_) fun e _ => .prep (by simp [Op.loud]) (by
      rintro _ ⟨⟩ _; exact ⟨_, List.mem_append_right _ (List.mem_singleton.2 rfl), rfl⟩)
    rw [ends_bind]
    cases ho : effectiveOrder bs prio with
    | error e => exact .prep (x := some e) (by simp [Op.loud]) (by
        rintro _ ⟨⟩ hs
        unfold effectiveOrder at ho
        split at ho
        · cases ho
        · split at ho <;> cases ho
          rcases hs with hs | ⟨_, hs⟩ <;> cases hs)
    | ok order =>
      show wp _ (recipientDevices M order (setUnion jids [M.ownJid]) >>= fun x => _) _ _
      rw [ends_bind]
      refine wp_mono (wp_and Rec.exec (wp_and (wp_and (Rec.ops (ops_recipients (M := M) order (setUnion jids [M.ownJid])))
        (trace_recipientDevices order (setUnion jids [M.ownJid]) (nodup_dedup _)))
        (Rec.cause (σ := special) fun y hy => raises_recipientDevices (M := M) (basic_of_special hy).toCore (fun _ _ h => h) order
          (setUnion jids [M.ownJid])))) ?_
      rintro r h' ⟨⟨te, hte, hex, _⟩, ⟨⟨t0, rfl, hq⟩, h2⟩, tc, htc, hc⟩
      obtain rfl := List.append_cancel_left hte
      cases List.append_cancel_left htc
      have hquiet : ∀ e ∈ [] ++ [⟨.getBackends, .ok bs⟩] ++ t0, Op.loud e.1 = false := by
        intro e he
        simp only [List.nil_append, List.singleton_append, List.mem_cons] at he
        rcases he with rfl | he
        · rfl
        · exact hq e he
      cases r with
      | crashed => exact .prep (x := none) hquiet nofun
      | raised e => exact .prep (x := some e) hquiet (by
          rintro y ⟨⟩ hy
          obtain ⟨x, h3, h4⟩ := hc _ hy rfl
          exact ⟨x, List.mem_append_right _ h3, h4⟩)
      | ok x =>
        obtain ⟨devices, cache⟩ := x
        obtain ⟨_, infos, hri⟩ := h2
        have hp : Prep M jids prio ([] ++ [⟨.getBackends, .ok bs⟩] ++ t0) order devices cache infos := ⟨⟨bs, t0, rfl, ho⟩, hquiet, hri, _, t0, rfl, hex⟩
        generalize ([] ++ [⟨.getBackends, .ok bs⟩] ++ t0 : List Ev) = t1 at hp
        show wp _ (decideTrust M devices i >>= fun d => _) _ _
        rw [ends_bind]
        refine ends_mono (trace_decideTrust devices i hp.recipients.addrs) ?_ ?_
        · rintro out _ ⟨t2, v1, v2, tm, h0, rfl, hh0, hd, hu⟩
          have ha : Agreed M devices i t1 t2 out v1 v2 tm := ⟨⟨h0, hh0, hd⟩, hu⟩
          unfold encryptTrusted
          rw [ends_bind]
          refine ends_mono (trace_devicesWithTrust .trusted (M.O.iter out) (by simpa using nodup_of_map hd.nodup)) ?_ ?_
          · rintro _ _ ⟨v3, rfl, rfl⟩
            have hnoh : ∀ e ∈ t1 ++ t2 ++ evals (M.O.iter out) v3, Op.handsOut e.1 = false := by
              intro e he
              rcases List.mem_append.1 he with he | he
              · rcases List.mem_append.1 he with he | he
                · have := hp.quiet e he
                  revert this
                  cases e.1 <;> simp [Op.loud, Op.handsOut]
                · exact ha.no_handout hdec e he
              · obtain ⟨d, _, rfl⟩ := mem_evals.1 he
                rfl
            have hg0 : Guarded (Once pt cache (trustedOf M out v3)) (t1 ++ t2 ++ evals (M.O.iter out) v3) := by
              have := Guarded.extend (pt := pt) (cache := cache) (S := trustedOf M out v3) (h := []) Guarded.nil hnoh
              simpa using this
            have hsub : ∀ d ∈ trustedOf M out v3, d ∈ out := by
              intro d hd
              have := (List.mem_filter.1 hd).1
              simpa using this
            have hT : ∀ dev ∈ trustedOf M out v3, ∃ ns, dev.namespaces = [ns] := by
              intro dev hdv
              obtain ⟨x, hx, l, rfl⟩ := ha.source dev (hsub dev hdv)
              exact hp.single x hx
            have hA : ((trustedOf M out v3).map addr).Nodup := by
              refine nodup_map_on (fun x hx y hy h => inj_of_nodup_map hd.nodup (hsub x hx) (hsub y hy) h) ?_
              have : (M.O.iter out).Nodup := by simpa using nodup_of_map hd.nodup
              exact this.sublist List.filter_sublist
            rw [ends_bind]
            refine Rec.call ?_ (fun bs' hbs => ?_) fun e _ => ?_
            · have := EncRun.loop (jids := jids) (pt := pt) (prio := prio) (i := i) (x := none) hp ha (t4 := []) (by simp) (by simpa using hg0) nofun
              simpa using this
            · rw [ends_bind]
              have hbn : bs'.Nodup := hbs bs' rfl
              have hno' : ∀ e ∈ t1 ++ t2 ++ evals (M.O.iter out) v3 ++ [⟨.getBackends, .ok bs'⟩], Op.handsOut e.1 = false := by
                intro e he
                rcases List.mem_append.1 he with he | he
                · exact hnoh e he
                · cases List.mem_singleton.1 he; rfl
              refine ends_mono (trace_loop cache bs' hbn hT hA hno') ?_ ?_
              · rintro st _ ⟨⟨t4, rfl, ht4⟩, os, ho⟩
                have e2 : t1 ++ t2 ++ evals (M.O.iter out) v3 ++ [⟨.getBackends, .ok bs'⟩] ++ t4 =
                    t1 ++ t2 ++ evals (M.O.iter out) v3 ++ ⟨.getBackends, .ok bs'⟩ :: t4 := by simp
                rw [e2] at ho ⊢
                simp only
                split
                · rename_i hl
                  refine .missing hp ha ht4 ho ?_
                  intro hn
                  rw [hn] at hl
                  simp at hl
                · rename_i hl
                  have hm : noEligible M st.devices (setUnion jids [M.ownJid]) = [] := by
                    cases hn : noEligible M st.devices (setUnion jids [M.ownJid]) with
                    | nil => rfl
                    | cons => rw [hn] at hl; simp at hl
                  rw [ends_bind]
                  refine ends_mono (trace_stores (M.O.iter st.sessions)) ?_ ?_
                  · rintro _ _ rfl
                    exact .done hp ha ht4 ho hm
                  · rintro x _ ⟨t5, rfl, h5, hx⟩
                    exact .store hp ha ht4 ho hm (fun e he => by
                      obtain ⟨ns, s, h6, h7⟩ := h5 e he
                      exact ⟨ns, s, by simpa using h6, h7⟩) hx
              · rintro x _ ⟨t4, rfl, ht4, hg, hx⟩
                have e2 : t1 ++ t2 ++ evals (M.O.iter out) v3 ++ [⟨.getBackends, .ok bs'⟩] ++ t4 =
                    t1 ++ t2 ++ evals (M.O.iter out) v3 ++ ⟨.getBackends, .ok bs'⟩ :: t4 := by simp
                rw [e2] at hg ⊢
                refine .loop hp ha ?_ hg fun y hy hs => by
                  obtain ⟨e, h1, h2⟩ := hx y hy hs
                  exact ⟨e, List.mem_cons_of_mem _ h1, h2⟩
                intro e he
                rcases List.mem_cons.1 he with rfl | he
                · rfl
                · have := ht4 e he
                  unfold Op.sendsOrFields
                  split
                  · rfl
                  · exact this
            · exact .loop (x := some e) hp ha (by simp [Op.sendsOrFields]) (Guarded.extend hg0 (by simp [Op.handsOut])) (by
                rintro _ ⟨⟩ _; exact ⟨_, List.mem_singleton.2 rfl, rfl⟩)
          · rintro x _ ⟨t3, rfl, h3, hx⟩
            exact .third hp ha (fun e he => by
              obtain ⟨d, hd, h⟩ := h3 e he
              exact ⟨d, by simpa using hd, h⟩) hx
        · rintro x _ ⟨t2, rfl, hd⟩
          exact .decide hp hd
  have := Rec.sound main he fun e hm bs hb => ht bs (hb ▸ hm)
  simpa using this

end SM
end Verif
