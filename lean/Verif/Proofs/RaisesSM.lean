import Verif.Proofs.RaisesLib
import Verif.Proofs.ExecLoops
/-
Exceptions of the functions of the session manager.
-/
namespace Verif

/-- Sequencing, using what is known about the result of the first part. -/
theorem Raises.bindQ {α β : Type} {χ : Op → Exn → Prop} {ρ : Exn → Prop} {p : P α} {f : α → P β} {Q : α → Prop} (hp : Raises (S := LibSig) χ ρ p)
    (hq : ∀ t a, Exec p t (.ok a) → Q a) (hf : ∀ a, Q a → Raises (S := LibSig) χ ρ (f a)) : Raises (S := LibSig) χ ρ (p >>= f) := by
  change Raises χ ρ (Prog.bind p f)
  induction p with
  | ret a => exact hf a (hq [] a (.ret a))
  | raise e => exact hp
  | op o k ih => exact fun r hr => ih r (hp r hr) fun t a h => hq (⟨o, r⟩ :: t) a (.op r h)

theorem exec_mapAll_mem {α β : Type} {xs : List α} {f : α → P β} {t : List Ev} {ys : List β} (h : Exec (Prog.mapAll xs f) t (.ok ys)) :
    ∀ y ∈ ys, ∃ x ∈ xs, ∃ t', Exec (f x) t' (.ok y) := by
  induction xs generalizing t ys with
  | nil => obtain ⟨rfl, h⟩ := exec_mapAll_nil.1 h; cases h; simp
  | cons x xs ih =>
    obtain ⟨t1, y, t2, ys', rfl, rfl, h1, h2⟩ := exec_mapAll_cons_ok.1 h
    intro z hz
    rcases List.mem_cons.1 hz with rfl | hz
    · exact ⟨x, by simp, t1, h1⟩
    · obtain ⟨x', hx', ht⟩ := ih h2 z hz
      exact ⟨x', by simp [hx'], ht⟩

theorem exec_filterAll_mem {α : Type} {xs : List α} {f : α → P Bool} {t : List Ev} {ys : List α} (h : Exec (Prog.filterAll xs f) t (.ok ys)) :
    ∀ y ∈ ys, y ∈ xs := by
  induction xs generalizing t ys with
  | nil => cases h; simp
  | cons x xs ih =>
    obtain ⟨t1, b, t2, rfl, h1, h2⟩ := (exec_seq_ok (p := f x)).1 h
    obtain ⟨t3, ys', t4, rfl, h3, h4⟩ := (exec_seq_ok (p := Prog.filterAll xs f)).1 h2
    cases h4
    intro y hy
    have := ih h3
    split at hy
    · rcases List.mem_cons.1 hy with rfl | hy
      · simp
      · simp [this y hy]
    · simp [this y hy]

end Verif
namespace Verif.SM
variable {χ : Op → Exn → Prop} {ρ : Exn → Prop} {M : Mgr} (hb : Core ρ) (h : ∀ o e, χ o e → ρ e)
include hb h

theorem raises_fetchIdentityKey (jid : Jid) (d : DevId) (nss : List Ns) : Raises (S := LibSig) χ ρ (fetchIdentityKey jid d nss) := by
  induction nss with
  | nil => exact .ret _
  | cons ns nss ih =>
    unfold fetchIdentityKey
    refine .tryElse (ρ' := ρ) (.perform (h _)) (fun e he => ?_) fun b => ?_
    · split
      · exact ih
      · exact he
    · unfold Sto.storeBytes
      lib_raises hb, []
      exact h _ _ (by assumption)

theorem raises_identityKeyOf (jid : Jid) (d : DevId) (nss : List Ns) : Raises (S := LibSig) χ ρ (identityKeyOf M jid d nss) := by
  unfold identityKeyOf
  have hsub := @raises_fetchIdentityKey χ ρ hb h
  lib_raises hb, [hsub]
  all_goals exact h _ _ (by assumption)

theorem raises_deviceInformation (jid : Jid) (d : DevId) : Raises (S := LibSig) χ ρ (deviceInformation M jid d) := by
  unfold deviceInformation repairNamespaces
  have hsub := @raises_identityKeyOf χ ρ M hb h
  lib_raises hb, [hsub]
  all_goals exact h _ _ (by assumption)

theorem raises_getDeviceInformation' (jid : Jid) : Raises (S := LibSig) χ ρ (getDeviceInformation' M jid) := by
  unfold getDeviceInformation'
  have hsub := @raises_deviceInformation χ ρ M hb h
  lib_raises hb, [hsub]
  all_goals exact h _ _ (by assumption)

/-- The recipients found have activity information for all their namespaces: no `KeyError`. -/
theorem raises_recipientDevices (order : List Ns) (jids : List Jid) : Raises (S := LibSig) χ ρ (recipientDevices M order jids) := by
  unfold recipientDevices
  refine .bindQ (Q := fun tmp => ∀ x ∈ tmp, ∀ dev ∈ x.1, ∀ ns ∈ dev.namespaces, (dev.active.get ns).isSome = true)
    (.mapAll fun jid _ => raises_getDeviceInformation' hb h jid) (fun t tmp ht => ?_) fun tmp htmp => ?_
  · intro x hx
    obtain ⟨jid, _, t', h'⟩ := exec_mapAll_mem ht x hx
    exact fun dev hd ns hns => (((exec_getDeviceInformation' h').seen dev hd).namespaces.elim fun l hl => ((hl.2.1 ns).1 hns).2)
  · have hall : ∀ dev ∈ dedup (tmp.map (·.1)).flatten, ∀ e, activeNamespaces dev ≠ .error e := by
      intro dev hd e he
      simp only [mem_dedup, List.mem_flatten, List.mem_map] at hd
      obtain ⟨_, ⟨x, hx, rfl⟩, hd⟩ := hd
      unfold activeNamespaces at he
      split at he
      · rename_i hn
        obtain ⟨ns, hns, hn⟩ := List.any_eq_true.1 hn
        have := htmp x hx dev hd ns hns
        rw [Option.isNone_iff_eq_none] at hn
        rw [hn] at this
        cases this
      · cases he
    refine .bindQ (Q := fun ds => ∀ dev ∈ ds, dev ∈ dedup (tmp.map (·.1)).flatten) (.filterAll fun dev hd => raises_liftE fun e he => ?_)
      (fun t ds ht dev hd => M.O.mem_iter.1 (exec_filterAll_mem ht dev hd)) fun ds hds =>
      .bind (.mapAll fun dev hd => raises_liftE fun e he => ?_) fun _ => .pure _
    · unfold isValidRecipient at he
      split at he
      · cases he
      · exact absurd (map_error he) (hall dev (M.O.mem_iter.1 hd) e)
    · exact absurd (map_error he) (hall dev (hds dev (M.O.mem_iter.1 hd)) e)

theorem raises_encryptForDevice (ns : Ns) (dev : DeviceInfo) (s : Option Session) (b : Option Bundle) (km : PlainKM) :
    Raises (S := LibSig) χ ρ (encryptForDevice ns dev s b km) := by
  unfold encryptForDevice bundleFor
  lib_raises hb, []
  all_goals exact h _ _ (by assumption)

theorem raises_encryptDevice (ns : Ns) (cache : List Bundle) (km : PlainKM) (st : EncState) (dev : DeviceInfo) :
    Raises (S := LibSig) χ ρ (encryptDevice M ns cache km st dev) := by
  unfold encryptDevice
  refine .bind (.perform (h _)) fun s => ?_
  refine .tryElse (ρ' := ρ) (raises_encryptForDevice hb h ..) (fun e he => ?_) fun _ => .ret _
  split
  · exact .ret _
  · exact he

theorem raises_encryptBackend (cache : List Bundle) (pt : Dict Ns Bytes) (st : EncAll) (ns : Ns) (hk : pt.get ns = none → ρ .keyError) :
    Raises (S := LibSig) χ ρ (encryptBackend M cache pt st ns) := by
  unfold encryptBackend
  have hsub := @raises_encryptDevice χ ρ M hb h
  lib_raises hb, [hsub]
  · exact hk ‹_›
  all_goals exact h _ _ (by assumption)

end Verif.SM
