import Verif.Proofs.InfoTrace
/-
The executions of `encrypt`, for arbitrary answers.
-/
namespace Verif

theorem nodup_map_on {α β : Type} {f : α → β} {l : List α} (hf : ∀ x ∈ l, ∀ y ∈ l, f x = f y → x = y) (hl : l.Nodup) :
    (l.map f).Nodup := by
  unfold List.Nodup at *
  rw [List.pairwise_map]
  exact hl.imp_of_mem fun hx hy hne he => hne (hf _ hx _ hy he)

theorem inj_of_nodup_map {α β : Type} {f : α → β} {l : List α} (hl : (l.map f).Nodup) {x y : α} (hx : x ∈ l) (hy : y ∈ l)
    (h : f x = f y) : x = y := by
  induction l with
  | nil => cases hx
  | cons a l ih =>
    simp only [List.map_cons, List.nodup_cons, List.mem_map, not_exists, not_and] at hl
    rcases List.mem_cons.1 hx with rfl | hx' <;> rcases List.mem_cons.1 hy with rfl | hy'
    · rfl
    · exact absurd h.symm (hl.1 y hy')
    · exact absurd h (hl.1 x hx')
    · exact ih hl.2 hx' hy'

theorem nodup_of_map {α β : Type} {f : α → β} {l : List α} (hl : (l.map f).Nodup) : l.Nodup := by
  unfold List.Nodup at *
  rw [List.pairwise_map] at hl
  exact hl.imp fun h he => h (congrArg f he)

namespace Spec
variable {G : List Ev → Ev → Prop} {h t : List Ev}

theorem Guarded.nil : Guarded G [] := by
  intro h1 e h2 h
  have := congrArg List.length h
  simp at this

theorem Guarded.snoc {e : Ev} (hg : Guarded G h) (he : G h e) : Guarded G (h ++ [e]) := by
  intro h1 e' h2 hh
  rcases List.eq_nil_or_concat h2 with rfl | ⟨h2', x, rfl⟩
  · have := List.append_inj' hh rfl
    cases this.1
    cases this.2
    exact he
  · have : h ++ [e] = (h1 ++ e' :: h2') ++ [x] := by simpa using hh
    have := List.append_inj' this rfl
    exact hg _ _ _ this.1

theorem Guarded.append (hg : Guarded G h) (ht : ∀ e ∈ t, ∀ h', G h' e) : Guarded G (h ++ t) := by
  induction t generalizing h with
  | nil => simpa using hg
  | cons e t ih =>
    have := ih (hg.snoc (ht e (by simp) h)) fun x hx => ht x (by simp [hx])
    simpa using this

theorem Guarded.left (hg : Guarded G (h ++ t)) : Guarded G h := by
  rintro h1 e h2 rfl
  exact hg h1 e (h2 ++ t) (by simp)

theorem Guarded.mono {G' : List Ev → Ev → Prop} (hg : Guarded G h) (hi : ∀ h e, G h e → G' h e) : Guarded G' h :=
  fun h1 e h2 hh => hi _ _ (hg h1 e h2 hh)

theorem HandsOut.op {e : Ev} {ns j d m} (hh : HandsOut h e ns j d m) : Op.handsOut e.1 = true := by
  rcases hh with ⟨b, hb⟩ | ⟨s, hs, _⟩
  · rw [hb]; rfl
  · rw [hs]; rfl

/-- The device is determined. -/
theorem HandsOut.unique {e : Ev} {ns j d m ns' j' d' m'} (h1 : HandsOut h e ns j d m) (h2 : HandsOut h e ns' j' d' m') :
    ns = ns' ∧ j = j' ∧ d = d' ∧ m = m' := by
  rcases h1 with ⟨b, hb⟩ | ⟨s, hs, hl⟩ <;> rcases h2 with ⟨b', hb'⟩ | ⟨s', hs', hl'⟩
  · rw [hb] at hb'; cases hb'; exact ⟨rfl, rfl, rfl, rfl⟩
  · rw [hb] at hs'; cases hs'
  · rw [hs] at hb'; cases hb'
  · rw [hs] at hs'; cases hs'
    rw [hl] at hl'; cases hl'
    exact ⟨rfl, rfl, rfl, rfl⟩

end Spec

namespace SM
open Spec
variable {φ : Ev → Prop} {M : Mgr} {h : List Ev}

/-! ### Pure loops -/

theorem pureFilter {W α : Type} {N : Sem LibSig Exn W} {w : W} {xs : List α} {f : α → Except Exn Bool}
    {Q : List α → W → Prop} {X : Option Exn → W → Prop} (hx : ∀ x ∈ xs, ∀ e, f x = .error e → X (some e) w)
    (hq : (∀ x ∈ xs, ∃ b, f x = .ok b) → Q (xs.filter fun x => (f x).toOption.getD false) w) :
    wp N (Prog.filterAll xs fun x => liftE (f x)) (ends Q X) w := by
  induction xs generalizing Q with
  | nil => exact hq (by simp)
  | cons x xs ih =>
    unfold Prog.filterAll
    cases hf : f x with
    | error e => exact hx x (by simp) e hf
    | ok b =>
      show wp N (Prog.bind (Prog.filterAll xs fun x => liftE (f x)) _) _ w
      rw [wp_bind_def, andThen_ends]
      refine ih (fun y hy => hx y (by simp [hy])) fun hok => ?_
      have := hq (by
        intro y hy
        rcases List.mem_cons.1 hy with rfl | hy
        · exact ⟨b, hf⟩
        · exact hok y hy)
      rw [List.filter_cons, hf] at this
      exact this

theorem pureMap {W α β : Type} {N : Sem LibSig Exn W} {w : W} {xs : List α} {f : α → Except Exn β}
    {Q : List β → W → Prop} {X : Option Exn → W → Prop} (hx : ∀ x ∈ xs, ∀ e, f x = .error e → X (some e) w)
    (hq : ∀ ys, (∀ y, y ∈ ys ↔ ∃ x ∈ xs, f x = .ok y) → Q ys w) :
    wp N (Prog.mapAll xs fun x => liftE (f x)) (ends Q X) w := by
  induction xs generalizing Q with
  | nil => exact hq [] (by simp)
  | cons x xs ih =>
    unfold Prog.mapAll
    cases hf : f x with
    | error e => exact hx x (by simp) e hf
    | ok b =>
      show wp N (Prog.bind (Prog.mapAll xs fun x => liftE (f x)) _) _ w
      rw [wp_bind_def, andThen_ends]
      refine ih (fun y hy => hx y (by simp [hy])) fun ys hys => hq _ fun y => ?_
      simp only [List.mem_cons, hys]
      constructor
      · rintro (rfl | ⟨z, hz, he⟩)
        · exact ⟨x, .inl rfl, hf⟩
        · exact ⟨z, .inr hz, he⟩
      · rintro ⟨z, rfl | hz, he⟩
        · rw [hf] at he; cases he; exact .inl rfl
        · exact .inr ⟨z, hz, he⟩

/-! ### The recipients -/

/-- The device is chosen as a recipient with the single namespace to be used. -/
def Chosen (M : Mgr) (order : List Ns) (src dev : DeviceInfo) : Prop :=
  ¬ (src.bareJid = M.ownJid ∧ src.deviceId = M.ownDev) ∧ ∃ ns, FirstActive order src ns ∧ dev = { src with namespaces := [ns] }

/-- JID and device id -/
def addr (dev : DeviceInfo) : Jid × DevId := (dev.bareJid, dev.deviceId)

theorem active_ok {src : DeviceInfo} (hs : Seen M.undecided h src) :
    activeNamespaces src = .ok (src.namespaces.filter fun ns => decide (src.active.get ns = some true)) := by
  unfold activeNamespaces
  rw [if_neg]
  obtain ⟨l, _, hm, _⟩ := hs.namespaces
  simp only [List.any_eq_true, not_exists, not_and, Bool.not_eq_true]
  intro ns hns
  have := ((hm ns).1 hns).2
  cases hg : src.active.get ns with
  | none => rw [hg] at this; cases this
  | some b => rfl

theorem valid_iff {order : List Ns} {src : DeviceInfo} (hs : Seen M.undecided h src) :
    (∃ b, isValidRecipient M order src = .ok b) ∧ ((isValidRecipient M order src).toOption.getD false = true ↔
      ¬ (src.bareJid = M.ownJid ∧ src.deviceId = M.ownDev) ∧
      ∃ ns ∈ order, ns ∈ src.namespaces ∧ src.active.get ns = some true) := by
  unfold isValidRecipient
  split
  · rename_i h; exact ⟨⟨_, rfl⟩, by simp [Except.toOption, h]⟩
  · rename_i hn
    rw [active_ok hs]
    refine ⟨⟨_, rfl⟩, ?_⟩
    simp only [Except.map, Except.toOption, Option.getD_some, decide_eq_true_eq, ne_eq]
    rw [List.eq_nil_iff_forall_not_mem]
    simp only [mem_setInter, List.mem_filter, decide_eq_true_eq, Classical.not_forall, Classical.not_not]
    constructor
    · rintro ⟨ns, ⟨h1, h2⟩, h3⟩; exact ⟨hn, ns, h3, h1, h2⟩
    · rintro ⟨_, ns, h3, h1, h2⟩; exact ⟨ns, ⟨h1, h2⟩, h3⟩

theorem applyPriority_spec {order : List Ns} {src : DeviceInfo} (hs : Seen M.undecided h src) :
    ∃ nss, applyPriority M order src = .ok { src with namespaces := nss } ∧
      ((nss = [] ∧ ¬ ∃ ns ∈ order, ns ∈ src.namespaces ∧ src.active.get ns = some true) ∨
       ∃ ns, nss = [ns] ∧ FirstActive order src ns) := by
  unfold applyPriority
  rw [active_ok hs]
  refine ⟨_, rfl, ?_⟩
  have hmem : ∀ ns, ns ∈ (M.O.iter (src.namespaces.filter fun ns => decide (src.active.get ns = some true))).filter
      (fun ns => decide (ns ∈ order)) ↔ ns ∈ order ∧ ns ∈ src.namespaces ∧ src.active.get ns = some true := by
    intro ns; simp; grind
  generalize (M.O.iter (src.namespaces.filter fun ns => decide (src.active.get ns = some true))).filter
      (fun ns => decide (ns ∈ order)) = l at hmem
  obtain ⟨h1, h2⟩ := sortedBy_take_one (fun ns => order.idxOf ns) l
  cases hl : (sortedBy (fun ns => order.idxOf ns) l).take 1 with
  | nil =>
    have := h1.1 hl
    subst this
    refine .inl ⟨rfl, ?_⟩
    rintro ⟨ns, hns⟩
    have := (hmem ns).2 hns
    simp at this
  | cons ns rest =>
    rw [hl] at h2
    obtain ⟨h3, h4, h5⟩ := h2 ns (by simp)
    rw [h3]
    obtain ⟨a, b, c⟩ := (hmem ns).1 h4
    exact .inr ⟨ns, rfl, a, b, c, fun ns' ha hb hc => h5 ns' ((hmem ns').2 ⟨ha, hb, hc⟩)⟩

/-- What the first part of `encrypt` finds out about the recipients. -/
structure RecipientsOk (M : Mgr) (order : List Ns) (jids : List Jid) (h : List Ev) (x : List DeviceInfo × List Bundle)
    (infos : List (Jid × List DeviceInfo × List Bundle)) : Prop where
  asked : ∀ j, (∃ i ∈ infos, i.1 = j) ↔ j ∈ jids
  nodup : (infos.map (·.1)).Nodup
  info : ∀ i ∈ infos, InfoOk M i.1 h i.2
  devices : ∀ dev, dev ∈ x.1 ↔ ∃ i ∈ infos, ∃ src ∈ i.2.1, Chosen M order src dev
  addrs : (x.1.map addr).Nodup
  cache : ∀ b, b ∈ x.2 ↔ ∃ i ∈ infos, b ∈ i.2.2

theorem trace_infos (jids : List Jid) (hnd : jids.Nodup) :
    wp (Rec φ) (Prog.mapAll jids (getDeviceInformation' M)) (ends (fun tmp h' => (∃ t, h' = h ++ t) ∧
      ∃ infos : List (Jid × List DeviceInfo × List Bundle), infos.map (·.1) = jids ∧ infos.map (·.2) = tmp ∧
        ∀ i ∈ infos, InfoOk M i.1 h' i.2) fun _ _ => True) h := by
  induction jids generalizing h with
  | nil => exact ⟨⟨[], by simp⟩, [], rfl, rfl, by simp⟩
  | cons j jids ih =>
    unfold Prog.mapAll
    rw [wp_bind_def, andThen_ends]
    refine ends_mono (trace_getDeviceInformation' j) ?_ fun _ _ _ => trivial
    rintro x _ ⟨⟨t, rfl⟩, hx⟩
    rw [wp_bind_def, andThen_ends]
    refine ends_mono (ih (List.nodup_cons.1 hnd).2) ?_ fun _ _ _ => trivial
    rintro xs _ ⟨⟨t', rfl⟩, infos, h1, h2, h3⟩
    refine ⟨⟨_, List.append_assoc ..⟩, (j, x) :: infos, by simp [h1], by simp [h2], ?_⟩
    intro i hi
    rcases List.mem_cons.1 hi with rfl | hi
    · exact hx.mono fun e he => by simp only [List.mem_append] at he ⊢; grind
    · exact h3 i hi

theorem trace_recipientDevices (order : List Ns) (jids : List Jid) (hnd : jids.Nodup) :
    wp (Rec φ) (recipientDevices M order jids) (ends (fun x h' => (∃ t, h' = h ++ t) ∧ ∃ infos, RecipientsOk M order jids h' x infos)
      fun _ _ => True) h := by
  unfold recipientDevices
  rw [ends_bind]
  refine ends_mono (trace_infos _ (by simpa using hnd)) ?_ fun _ _ _ => trivial
  rintro tmp h' ⟨ht, infos, h1, rfl, h3⟩
  have hsrc : ∀ src, src ∈ dedup ((infos.map (·.2)).map (·.1)).flatten ↔ ∃ i ∈ infos, src ∈ i.2.1 := by
    intro src; simp; grind
  have hcache : ∀ b, b ∈ dedup ((infos.map (·.2)).map (·.2)).flatten ↔ ∃ i ∈ infos, b ∈ i.2.2 := by
    intro src; simp; grind
  generalize dedup ((infos.map (·.2)).map (·.1)).flatten = srcs at hsrc
  generalize dedup ((infos.map (·.2)).map (·.2)).flatten = cache at hcache
  have hseen : ∀ src ∈ M.O.iter srcs, Seen M.undecided h' src := by
    intro src hs
    obtain ⟨i, hi, hs⟩ := (hsrc src).1 (by simpa using hs)
    exact (h3 i hi).seen src hs
  rw [ends_bind]
  refine pureFilter (fun src hs e he => trivial) fun _ => ?_
  have hv : ∀ src, src ∈ (M.O.iter srcs).filter (fun x => (isValidRecipient M order x).toOption.getD false) ↔
      src ∈ M.O.iter srcs ∧ ¬ (src.bareJid = M.ownJid ∧ src.deviceId = M.ownDev) ∧
      ∃ ns ∈ order, ns ∈ src.namespaces ∧ src.active.get ns = some true := by
    intro src
    rw [List.mem_filter]
    constructor
    · rintro ⟨a, b⟩; exact ⟨a, (valid_iff (hseen src a)).2.1 b⟩
    · rintro ⟨a, b⟩; exact ⟨a, (valid_iff (hseen src a)).2.2 b⟩
  generalize (M.O.iter srcs).filter (fun x => (isValidRecipient M order x).toOption.getD false) = valid at hv
  rw [ends_bind]
  refine pureMap (fun _ _ _ _ => trivial) fun ys hys => ?_
  refine ⟨ht, infos, ?_⟩
  have hdev : ∀ dev, dev ∈ (dedup ys).filter (fun dev => decide (dev.namespaces.length > 0)) ↔
      ∃ i ∈ infos, ∃ src ∈ i.2.1, Chosen M order src dev := by
    intro dev
    simp only [List.mem_filter, mem_dedup, hys, decide_eq_true_eq, SetOrder.mem_iter]
    constructor
    · rintro ⟨⟨src, hs, he⟩, hlen⟩
      obtain ⟨h4, h5, h6⟩ := (hv src).1 hs
      obtain ⟨i, hi, hs'⟩ := (hsrc src).1 (by simpa using h4)
      obtain ⟨nss, hp, hn⟩ := applyPriority_spec (order := order) (hseen src h4)
      rw [hp] at he
      cases he
      rcases hn with ⟨rfl, _⟩ | ⟨ns, rfl, hf⟩
      · simp at hlen
      · exact ⟨i, hi, src, hs', h5, ns, hf, rfl⟩
    · rintro ⟨i, hi, src, hs, h5, ns, hf, rfl⟩
      have h4 : src ∈ M.O.iter srcs := by simpa using (hsrc src).2 ⟨i, hi, hs⟩
      obtain ⟨nss, hp, hn⟩ := applyPriority_spec (order := order) (hseen src h4)
      have hex : ∃ ns ∈ order, ns ∈ src.namespaces ∧ src.active.get ns = some true := ⟨ns, hf.mem, hf.namespaces, hf.active⟩
      refine ⟨⟨src, (hv src).2 ⟨h4, h5, hex⟩, ?_⟩, by simp⟩
      rw [hp]
      rcases hn with ⟨_, hno⟩ | ⟨ns', rfl, hf'⟩
      · exact absurd hex hno
      · have he : order.idxOf ns = order.idxOf ns' :=
          Nat.le_antisymm (hf.first ns' hf'.mem hf'.namespaces hf'.active) (hf'.first ns hf.mem hf.namespaces hf.active)
        have l1 := List.idxOf_lt_length_of_mem hf.mem
        have l2 := List.idxOf_lt_length_of_mem hf'.mem
        have e1 := List.getElem_idxOf l1
        have e2 := List.getElem_idxOf l2
        have : ns = ns' := by
          rw [← e1, ← e2]
          congr 1
        rw [this]
  refine ⟨?_, ?_, h3, hdev, ?_, hcache⟩
  · intro j
    have : j ∈ infos.map (·.1) ↔ j ∈ jids := by rw [h1]; simp
    simpa using this
  · rw [h1]; simpa using hnd
  · have hnd2 : (((dedup ys).filter (fun dev => decide (dev.namespaces.length > 0)))).Nodup :=
      (nodup_dedup ys).sublist List.filter_sublist
    refine nodup_map_on ?_ hnd2
    intro a ha b hb hab
    obtain ⟨i, hi, src, hs, _, ns, hf, rfl⟩ := (hdev a).1 ha
    obtain ⟨i', hi', src', hs', _, ns', hf', rfl⟩ := (hdev b).1 hb
    simp only [addr, Prod.mk.injEq] at hab
    have e1 := (h3 i hi).bareJid src hs
    have e2 := (h3 i' hi').bareJid src' hs'
    have hn : (infos.map (·.1)).Nodup := by rw [h1]; simpa using hnd
    have : i = i' := inj_of_nodup_map hn hi hi' (by rw [← e1, ← e2, hab.1])
    subst this
    have : src = src' := inj_of_nodup_map (h3 i hi).nodup hs hs' hab.2
    subst this
    have he : order.idxOf ns = order.idxOf ns' :=
      Nat.le_antisymm (hf.first ns' hf'.mem hf'.namespaces hf'.active) (hf'.first ns hf.mem hf.namespaces hf.active)
    have l1 := List.idxOf_lt_length_of_mem hf.mem
    have l2 := List.idxOf_lt_length_of_mem hf'.mem
    have e1 := List.getElem_idxOf l1
    have e2 := List.getElem_idxOf l2
    have : ns = ns' := by
      rw [← e1, ← e2]
      congr 1
    rw [this]

end SM
end Verif
