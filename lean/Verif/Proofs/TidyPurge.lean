import Verif.Proofs.Tidy
/-
Purging a JID keeps the stored data tidy, wherever it ends.
-/
namespace Verif
open SM Spec Foot

section
variable {M : Mgr} {own : Jid} {dev : DevId}

theorem tidy_erase {m : Disk} {k : Key} (h : Tidy own dev m) (hk : k ≠ .ownDeviceId)
    (ha : ∀ j d, k = .devActive j d → m (.devNamespaces j d) = none) : Tidy own dev (m.upd k none) := by
  have hsub : ∀ k' v, m.upd k none k' = some v → m k' = some v := by
    intro k' v hv
    by_cases he : k' = k
    · subst he; rw [Disk.upd_self] at hv; cases hv
    · rwa [Disk.upd_of_ne he] at hv
  refine ⟨(Disk.upd_of_ne hk.symm).trans h.id, fun j v hv => h.lists j v (hsub _ _ hv), ?_, ?_⟩
  · rintro j d ⟨l, h1, h2⟩ hn ns ⟨l', h3, h4⟩
    have hns := hsub _ _ h3
    obtain ⟨b, a, h5, h6⟩ := h.covered j d ⟨l, hsub _ _ h1, h2⟩ hn ns ⟨l', hns, h4⟩
    by_cases he : Key.devActive j d = k
    · rw [ha j d he.symm] at hns; cases hns
    · exact ⟨b, a, (Disk.upd_of_ne he).trans h5, h6⟩
  · rintro ns b ⟨a, h1, h2⟩
    exact h.live ns b ⟨a, hsub _ _ h1, h2⟩

theorem tidy_delete {k : Key} (hk : k ≠ .ownDeviceId) (ha : ∀ j d, k ≠ .devActive j d) : Pres Lib (TidyW own dev) (call (.delete k)) :=
  pres_ends.2 fun _ hw => Lib.delete (fun _ _ => hw) (tidy_erase hw hk fun j d h => (ha j d h).elim)

theorem tidy_deleteDevice (jid : Jid) (d : DevId) : Pres Lib (TidyW own dev) (SM.deleteDevice jid d) := by
  unfold SM.deleteDevice
  refine pres_ends.2 fun w hw => ?_
  rw [ends_bind]
  refine Lib.delete (fun _ _ => hw) ?_
  have h1 : Tidy own dev (w.disk.upd (.devNamespaces jid d) none) := tidy_erase hw nofun nofun
  rw [ends_bind]
  refine Lib.delete (fun _ _ => h1) ?_
  have h2 : Tidy own dev ((w.disk.upd (.devNamespaces jid d) none).upd (.devActive jid d) none) :=
    tidy_erase h1 nofun (by rintro j d' h; cases h; exact Disk.upd_self)
  have h3 : Pres Lib (TidyW own dev) (call (.delete (.devLabel jid d))) := tidy_delete nofun nofun
  have h4 : Pres Lib (TidyW own dev) (call (.delete (.devIdentityKey jid d))) := tidy_delete nofun nofun
  exact pres_ends.1 (h3.bind fun _ => h4) _ h2

theorem tidy_purgeBareJid (jid : Jid) : Pres Lib (TidyW own dev) (SM.purgeBareJid M jid) := by
  have h1 := tidy_deleteDevice (own := own) (dev := dev) jid
  have h2 : Pres Lib (TidyW own dev) (call (.delete (.devList jid))) := tidy_delete nofun nofun
  have h3 : ∀ ik, Pres Lib (TidyW own dev) (call (.delete (.trust jid ik))) := fun ik => tidy_delete nofun nofun
  have h4 : ∀ ids, Pres Lib (TidyW own dev) (SM.collectIdentityKeys jid ids) := by
    intro ids
    refine tidy_aside (φ := Aside) ?_ fun _ h => h
    unfold SM.collectIdentityKeys
    lib_ops []
    all_goals trivial
  unfold SM.purgeBareJid
  tidy_tac [h1, h2, h3, h4]

/-- Every call other than creation. -/
theorem tidy_call' (hj : M.ownJid = own) (hd : M.ownDev = dev) (c : Call) (happ : c.inDecision = false → ∀ ds i, Pres Lib (TidyW own dev) (M.decide ds i))
    (hc : ∀ bs l f, c ≠ .create bs l f) : Pres Lib (TidyW own dev) (c.run M) := by
  by_cases hp : ∃ jid, c = .purgeBareJid jid
  · obtain ⟨jid, rfl⟩ := hp
    exact tidy_purgeBareJid jid
  · exact tidy_call hj hd c happ hc fun jid h => hp ⟨jid, h⟩

end
end Verif
