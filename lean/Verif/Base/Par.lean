import Verif.Base.Prog
/-
Concurrency: a rely-guarantee rule for any number of interleaved tasks.  Nothing in this file depends on python-omemo.
-/
namespace Verif

/-- `guar M φ p Q l`: as long as the answers satisfy the contract `M`, which may speak about the local state `l`, every
interaction of `p` satisfies `φ`, and `Q` holds at the end. -/
def guar {S : Sig} {E L α : Type} (M : Sem S E L) (φ : L → S.Op → Prop) :
    Prog S E α → (Res E α → L → Prop) → L → Prop
  | .ret a, Q, l => Q (.ok a) l
  | .raise e, Q, l => Q (.raised e) l
  | .op o k, Q, l => φ l o ∧ Q .crashed l ∧ ∀ r, M.ok l ⟨o, r⟩ → guar M φ (k r) Q (M.next l ⟨o, r⟩)

section guar
variable {S : Sig} {E L α β : Type} {M : Sem S E L} {φ : L → S.Op → Prop}

theorem guar_wp {p : Prog S E α} {Q : Res E α → L → Prop} {l : L} (h : guar M φ p Q l) : wp M p Q l := by
  induction p generalizing l with
  | ret | raise => exact h
  | op o k ih => exact ⟨h.2.1, fun r hr => ih r (h.2.2 r hr)⟩

theorem guar_mono {p : Prog S E α} {Q Q' : Res E α → L → Prop} {l : L} (h : guar M φ p Q l)
    (hq : ∀ r l', Q r l' → Q' r l') : guar M φ p Q' l := by
  induction p generalizing l with
  | ret | raise => exact hq _ _ h
  | op o k ih => exact ⟨h.1, hq _ _ h.2.1, fun r hr => ih r (h.2.2 r hr)⟩

theorem guar_bind' {p : Prog S E α} {f : α → Prog S E β} {Q : Res E β → L → Prop} {l : L} :
    guar M φ (p.bind f) Q l ↔ guar M φ p (andThen Q fun a l' => guar M φ (f a) Q l') l := by
  induction p generalizing l with
  | ret | raise => simp [Prog.bind, guar]
  | op o k ih => simp [Prog.bind, guar, ih]

theorem guar_bind {p : Prog S E α} {f : α → Prog S E β} {Q : Res E β → L → Prop} {l : L} :
    guar M φ (p >>= f) Q l ↔ guar M φ p (andThen Q fun a l' => guar M φ (f a) Q l') l := guar_bind'

theorem guar_tryCatch {p : Prog S E α} {h : E → Prog S E α} {Q : Res E α → L → Prop} {l : L} :
    guar M φ (p.tryCatch h) Q l ↔ guar M φ p (handled Q fun e l' => guar M φ (h e) Q l') l := by
  induction p generalizing l with
  | ret | raise => simp [Prog.tryCatch, guar]
  | op o k ih => simp [Prog.tryCatch, guar, ih]

theorem guar_tryElse {p : Prog S E α} {h : E → Prog S E β} {f : α → Prog S E β} {Q : Res E β → L → Prop} {l : L} :
    guar M φ (p.tryElse h f) Q l ↔
      guar M φ p (split3 Q (fun e l' => guar M φ (h e) Q l') (fun a l' => guar M φ (f a) Q l')) l := by
  induction p generalizing l with
  | ret | raise => simp [Prog.tryElse, guar]
  | op o k ih => simp [Prog.tryElse, guar, ih]

theorem guar_pure {a : α} {Q : Res E α → L → Prop} {l : L} : guar M φ (pure a : Prog S E α) Q l ↔ Q (.ok a) l := Iff.rfl
theorem guar_ret {a : α} {Q : Res E α → L → Prop} {l : L} : guar M φ (.ret a : Prog S E α) Q l ↔ Q (.ok a) l := Iff.rfl
theorem guar_raise {e : E} {Q : Res E α → L → Prop} {l : L} : guar M φ (.raise e : Prog S E α) Q l ↔ Q (.raised e) l := Iff.rfl
theorem guar_op {o : S.Op} {k : Except E (S.Ret o) → Prog S E α} {Q : Res E α → L → Prop} {l : L} :
    guar M φ (.op o k) Q l ↔ φ l o ∧ Q .crashed l ∧ ∀ r, M.ok l ⟨o, r⟩ → guar M φ (k r) Q (M.next l ⟨o, r⟩) := Iff.rfl

theorem guar_forEach {xs : List α} {f : α → Prog S E Unit} {Q : Res E Unit → L → Prop} {l : L}
    (I : L → Prop) (h0 : I l)
    (hstep : ∀ x ∈ xs, ∀ l, I l → guar M φ (f x) (andThen Q fun _ l' => I l') l)
    (hend : ∀ l, I l → Q (.ok ()) l) :
    guar M φ (Prog.forEach xs f) Q l := by
  induction xs generalizing l with
  | nil => exact hend l h0
  | cons x rest ih =>
    simp only [Prog.forEach, guar_bind']
    refine guar_mono (hstep x (by simp) l h0) fun r l' hr => ?_
    cases r with
    | ok a => exact ih hr fun y hy => hstep y (by simp [hy])
    | raised e => exact hr
    | crashed => exact hr

end guar

/-- One task of a concurrent execution: a program with the local state it starts in, and its part of the execution. -/
structure Task (S : Sig) (E L : Type) where
  α : Type
  prog : Prog S E α
  trace : List (Event S E)
  res : Res E α
  init : L
  exec : Exec prog trace res

/-- The remaining task after its first event. -/
theorem Task.rest {S : Sig} {E L : Type} (k : Task S E L) {e : Event S E} {u : List (Event S E)} (h : k.trace = e :: u)
    (M : Sem S E L) (φ : L → S.Op → Prop) (hg : guar M φ k.prog (fun _ _ => True) k.init) :
    φ k.init e.1 ∧ (M.ok k.init e → ∃ k' : Task S E L, k'.trace = u ∧ k'.init = M.next k.init e ∧
      guar M φ k'.prog (fun _ _ => True) k'.init) := by
  obtain ⟨α, p, t, r, i, he⟩ := k
  simp only at h hg ⊢
  subst h
  cases he with
  | op x he =>
    exact ⟨hg.1, fun hok => ⟨⟨α, _, u, r, M.next i ⟨_, x⟩, he⟩, rfl, rfl, hg.2.2 x hok⟩⟩

/-- Rely-guarantee: if every task, relying on its local contract `M`, only performs interactions allowed by `φ`, and
every allowed interaction performed in a state satisfying the invariant `J` and the local assertion `R` of the task has an answer
as the local contract says, re-establishes `J` and the assertion of the task, and does not harm the assertions of other tasks,
then in every interleaving the invariant holds at the end and every task sees its local contract fulfilled. -/
theorem rely_guarantee {S : Sig} {E L W : Type} {N : Sem S E W} {M : Sem S E L} {φ : L → S.Op → Prop}
    {J : W → Prop} {R : L → W → Prop}
    (hstep : ∀ w l e, J w → R l w → φ l e.1 → N.ok w e →
      M.ok l e ∧ J (N.next w e) ∧ R (M.next l e) (N.next w e) ∧ ∀ l2, R l2 w → R l2 (N.next w e))
    {t : List (Event S E)} {w w' : W} (ks : List (Task S E L))
    (hg : ∀ k ∈ ks, guar M φ k.prog (fun _ _ => True) k.init)
    (hR : ∀ k ∈ ks, R k.init w) (hJ : J w)
    (hs : Shuffle (ks.map (·.trace)) t) (hr : N.Runs w t w') :
    J w' ∧ ∀ k ∈ ks, ∃ l', M.Runs k.init k.trace l' ∧ R l' w' := by
  generalize hts : ks.map (·.trace) = ts at hs
  induction hs generalizing w ks with
  | nil h =>
    cases hr
    refine ⟨hJ, fun k hk => ⟨k.init, ?_, hR k hk⟩⟩
    rw [h k.trace (by rw [← hts]; exact List.mem_map_of_mem hk)]
    rfl
  | @cons pre post e u t _ ih =>
    obtain ⟨ks1, ks2, rfl, hp1, hp2⟩ := List.map_eq_append_iff.1 hts
    obtain ⟨k, ks3, rfl, hk, hp3⟩ := List.map_eq_cons_iff.1 hp2
    have hkm : k ∈ ks1 ++ k :: ks3 := by simp
    obtain ⟨hφ, hrest⟩ := k.rest hk M φ (hg k hkm)
    obtain ⟨hok, hJ', hR', hother⟩ := hstep w k.init e hJ (hR k hkm) hφ hr.1
    obtain ⟨k', ht', hi', hg'⟩ := hrest hok
    obtain ⟨hJf, hall⟩ := ih (w := N.next w e) (ks1 ++ k' :: ks3)
      (fun x hx => by
        rcases List.mem_append.1 hx with hx | hx
        · exact hg x (by simp [hx])
        · rcases List.mem_cons.1 hx with rfl | hx
          · exact hg'
          · exact hg x (by simp [hx]))
      (fun x hx => by
        rcases List.mem_append.1 hx with hx | hx
        · exact hother _ (hR x (by simp [hx]))
        · rcases List.mem_cons.1 hx with rfl | hx
          · rw [hi']; exact hR'
          · exact hother _ (hR x (by simp [hx])))
      hJ' hr.2 (by simp [hp1, hp3, ht'])
    refine ⟨hJf, fun x hx => ?_⟩
    rcases List.mem_append.1 hx with hx | hx
    · exact hall x (by simp [hx])
    · rcases List.mem_cons.1 hx with rfl | hx
      · obtain ⟨l', hl, hRl⟩ := hall k' (by simp)
        refine ⟨l', ?_, hRl⟩
        rw [hk]
        exact ⟨hok, by rw [← hi', ← ht']; exact hl⟩
      · exact hall x (by simp [hx])

end Verif
