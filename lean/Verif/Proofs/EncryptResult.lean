import Verif.Proofs.EncryptUse
/-
What `encrypt` returns.
-/
namespace Verif

theorem split_cases {α : Type} {A B u v : List α} {e : α} (h : A ++ B = u ++ e :: v) : e ∈ B ∨ (e ∈ A ∧ ∀ f ∈ B, f ∈ v) := by
  rcases List.append_eq_append_iff.1 h with ⟨s, rfl, h2⟩ | ⟨s, rfl, h2⟩
  · exact .inl (by rw [h2]; simp)
  · cases s with
    | nil => exact .inl (by have : B = e :: v := by simpa using h2.symm
                            rw [this]; simp)
    | cons x s =>
      cases h2
      exact .inr ⟨by simp, fun f hf => by simp [hf]⟩

theorem foldl_setAdd_acc {α : Type} [DecidableEq α] {l acc : List α} (h : (acc ++ l).Nodup) : l.foldl setAdd acc = acc ++ l := by
  induction l generalizing acc with
  | nil => simp
  | cons x l ih =>
    have hx : x ∉ acc := by
      intro hx
      rw [List.nodup_append] at h
      exact h.2.2 x hx x (by simp) rfl
    have e : setAdd acc x = acc ++ [x] := by unfold setAdd; rw [if_neg hx]
    simp only [List.foldl_cons, e]
    rw [ih (by simpa using h)]
    simp

theorem foldl_setAdd {α : Type} [DecidableEq α] {l : List α} (h : l.Nodup) : l.foldl setAdd [] = l := by
  simpa using foldl_setAdd_acc (acc := []) (by simpa using h)

theorem mem_foldl_setAdd {α : Type} [DecidableEq α] {l acc : List α} {a : α} : a ∈ l.foldl setAdd acc ↔ a ∈ acc ∨ a ∈ l := by
  induction l generalizing acc with
  | nil => simp
  | cons x l ih => simp only [List.foldl_cons, ih, mem_setAdd, List.mem_cons]; grind

theorem filter_one {α β : Type} [DecidableEq β] {f : α → β} {l : List α} {a : α} (hn : (l.map f).Nodup) (ha : a ∈ l) :
    l.filter (fun x => decide (f x = f a)) = [a] := by
  induction l with
  | nil => cases ha
  | cons x l ih =>
    simp only [List.map_cons, List.nodup_cons, List.mem_map, not_exists, not_and] at hn
    rcases List.mem_cons.1 ha with rfl | ha
    · rw [List.filter_cons_of_pos (by simp)]
      congr 1
      rw [List.filter_eq_nil_iff]
      intro y hy
      simpa using hn.1 y hy
    · rw [List.filter_cons_of_neg (by simpa using fun h => hn.1 a ha h.symm)]
      exact ih hn.2 ha

theorem filterMap_filter' {α β : Type} {g : α → Option β} {p : β → Bool} {q : α → Bool} {l : List α}
    (h : ∀ a ∈ l, ∀ b, g a = some b → p b = q a) : (l.filterMap g).filter p = (l.filter q).filterMap g := by
  induction l with
  | nil => rfl
  | cons x l ih =>
    have ih := ih fun a ha => h a (by simp [ha])
    cases hg : g x with
    | none =>
      rw [List.filterMap_cons_none hg, ih]
      cases hq : q x with
      | true => rw [List.filter_cons_of_pos hq, List.filterMap_cons_none hg]
      | false => rw [List.filter_cons_of_neg (by simp [hq])]
    | some b =>
      have hb := h x (by simp) b hg
      rw [List.filterMap_cons_some hg]
      cases hq : q x with
      | true =>
        rw [hq] at hb
        rw [List.filter_cons_of_pos hb, List.filter_cons_of_pos hq, List.filterMap_cons_some hg, ih]
      | false =>
        rw [hq] at hb
        rw [List.filter_cons_of_neg (by simp [hb]), List.filter_cons_of_neg (by simp [hq]), ih]

namespace SM
open Spec
variable {M : Mgr} {jids : List Jid} {pt : Dict Ns Bytes} {prio : Option (List Ns)} {i : Option String}

theorem Agreed.addrs {devices out : List DeviceInfo} {t1 t v1 v2 tm} (ha : Agreed M devices i t1 t out v1 v2 tm) :
    ∀ a, a ∈ out.map addr ↔ a ∈ devices.map addr := by
  obtain ⟨⟨h0, _, hd⟩, _⟩ := ha
  exact hd.addrs

theorem not_eval_of_quiet {e : Ev} (h : Op.loud e.1 = false) (dev : DeviceInfo) : e.1 ≠ .evalTrust dev := by
  intro he; rw [he] at h; cases h

/-- Evaluations in the second part are evaluations of recipient devices. -/
theorem Agreed.evaluated (hdec : CallbackQuiet M.decide) {devices out : List DeviceInfo} {t1 t v1 v2 tm} (ha : Agreed M devices i t1 t out v1 v2 tm)
    {e : Ev} (he : e ∈ t) {dev : DeviceInfo} (hev : e.1 = .evalTrust dev) : addr dev ∈ out.map addr := by
  have hadd := ha.addrs
  obtain ⟨⟨h0, _, hd⟩, _⟩ := ha
  rw [hd.trace] at he
  simp only [List.mem_append, mem_evals] at he
  rcases he with (⟨d, h1, rfl⟩ | he) | ⟨d, h1, rfl⟩
  · cases hev
    rw [hadd]
    exact List.mem_map_of_mem (by simpa using h1)
  · exact absurd hev ((asked_quiet hdec hd.asked e he).2 dev)
  · cases hev
    exact List.mem_map_of_mem (by simpa using h1)

/-- The last evaluations are those of the last round. -/
theorem lastEval_iff (hdec : CallbackQuiet M.decide) {t1 t2 w order devices cache infos out v1 v2 v3 tm}
    (hp : Prep M jids prio t1 order devices cache infos) (ha : Agreed M devices i t1 t2 out v1 v2 tm)
    (hw : ∀ e ∈ w, ∀ dev', e.1 ≠ .evalTrust dev') {dev : DeviceInfo} {l : TrustLevel} :
    LastEval (t1 ++ t2 ++ evals (M.O.iter out) v3 ++ w) dev l ↔ dev ∈ out ∧ v3 dev = l := by
  constructor
  · rintro ⟨u, v, ht, hlast⟩
    rw [List.append_assoc] at ht
    rcases split_cases ht with h | ⟨h, hB⟩
    · rcases List.mem_append.1 h with h | h
      · obtain ⟨d, hd, h⟩ := mem_evals.1 h
        cases h
        exact ⟨by simpa using hd, rfl⟩
      · exact absurd rfl (hw _ h dev)
    · exfalso
      rcases List.mem_append.1 h with h | h
      · exact not_eval_of_quiet (hp.quiet _ h) dev rfl
      · obtain ⟨d, hd, hda⟩ := List.mem_map.1 (ha.evaluated hdec h rfl)
        have : (⟨.evalTrust d, .ok (v3 d)⟩ : Ev) ∈ v := hB _ (List.mem_append_left _ (mem_evals.2 ⟨d, by simpa using hd, rfl⟩))
        simp only [addr, Prod.mk.injEq] at hda
        exact hlast _ this d hda.1 hda.2 rfl
  · rintro ⟨hd, rfl⟩
    exact lastEval_of_evals (((M.O.perm out).map addr).nodup_iff.2 ha.nodup) (by simpa using hd) hw

theorem served_addr {t : List Ev} (ha : Addressed t) {ns j d m k s} (hs : Served t ns j d m k s) :
    (s.bareJid = j ∧ s.deviceId = d) ∧ k.bareJid = j ∧ k.deviceId = d := by
  obtain ⟨h1, e, h2, rfl, hh, hg⟩ := hs
  rcases hh with ⟨b, hb⟩ | ⟨s0, hs0, hl⟩ <;> rcases hg with ⟨ns', j', d', b', m', rfl⟩ | ⟨ns', s0', m', rfl⟩
  · cases hb
    exact ha.build _ _ _ _ _ _ _ (List.mem_append_right _ List.mem_cons_self)
  · cases hb
  · cases hs0
  · cases hs0
    have h3 := ha.load _ _ _ _ (List.mem_append_left _ (List.mem_of_getLast? hl))
    have h4 := ha.encrypt _ _ _ _ _ (List.mem_append_right _ List.mem_cons_self)
    exact ⟨⟨h4.1.1.trans h3.1, h4.1.2.trans h3.2⟩, h4.2.1.trans h3.1, h4.2.2.trans h3.2⟩

/-- Successful handouts return the session. -/
theorem served_given {t : List Ev} {ns j d m k s} (hs : Served t ns j d m k s) : (ns, s) ∈ given t := by
  obtain ⟨h1, e, h2, rfl, hh, hg⟩ := hs
  unfold given
  rw [List.mem_filterMap]
  refine ⟨e, by simp, ?_⟩
  rcases hh with ⟨b, hb⟩ | ⟨s0, hs0, hl⟩ <;> rcases hg with ⟨ns', j', d', b', m', rfl⟩ | ⟨ns', s0', m', rfl⟩
  · cases hb; rfl
  · cases hb
  · cases hs0
  · cases hs0; rfl

section
variable {trusted : List DeviceInfo} {bs : List Ns} {h : List Ev} {st : EncAll} {os : List Out} {cache : List Bundle}

theorem Outer.addrs (ho : Outer M pt cache trusted bs h st os) (hA : (trusted.map addr).Nodup) : (os.map fun o => addr o.dev).Nodup := by
  have : (os.map fun o => addr o.dev) = (os.map Out.dev).map addr := by simp
  rw [this]
  refine nodup_map_on (fun x hx y hy he => ?_) ho.nodup
  obtain ⟨o, h1, rfl⟩ := List.mem_map.1 hx
  obtain ⟨o', h2, rfl⟩ := List.mem_map.1 hy
  exact inj_of_nodup_map hA (ho.out o h1).1 (ho.out o' h2).1 he

theorem Outer.key_addr (ho : Outer M pt cache trusted bs h st os) (ha : Addressed h) {o : Out} (hm : o ∈ os) {k} (hk : o.key = some k) :
    (k.1.bareJid, k.1.deviceId) = addr o.dev := by
  unfold Out.key at hk
  split at hk
  · rename_i k' s hres
    cases hk
    have := (served_addr ha ((ho.out o hm).2.2.2.1 k' s hres)).2
    simp [addr, this.1, this.2]
  · cases hk

/-- The keys of a message, for one device. -/
theorem Outer.keys (ho : Outer M pt cache trusted bs h st os) (ha : Addressed h) (hA : (trusted.map addr).Nodup) {x : Message × PlainKM}
    (hx : x ∈ st.messages) : x.1.keys = (os.filter fun o => decide (o.ns = x.1.ns)).filterMap Out.key := by
  obtain ⟨_, _, _, _, hk, _⟩ := ho.messages x hx
  rw [hk, foldl_setAdd]
  have hn := ho.addrs hA
  have hsub : ((os.filter fun o => decide (o.ns = x.1.ns)).map fun o => addr o.dev).Nodup := hn.sublist (List.filter_sublist.map _)
  have hkey : ∀ o ∈ os.filter fun o => decide (o.ns = x.1.ns), ∀ k, o.key = some k → (k.1.bareJid, k.1.deviceId) = addr o.dev :=
    fun o ho' k hk => ho.key_addr ha (List.mem_filter.1 ho').1 hk
  generalize (os.filter fun o => decide (o.ns = x.1.ns)) = l at hsub hkey
  clear hk
  induction l with
  | nil => simp
  | cons o l ih =>
    simp only [List.map_cons, List.nodup_cons] at hsub
    have ih := ih hsub.2 fun o ho' => hkey o (by simp [ho'])
    cases hg : o.key with
    | none => rw [List.filterMap_cons_none hg]; exact ih
    | some k =>
      rw [List.filterMap_cons_some hg, List.nodup_cons]
      refine ⟨fun hm => ?_, ih⟩
      obtain ⟨o', h1, h2⟩ := List.mem_filterMap.1 hm
      refine hsub.1 (List.mem_map.2 ⟨o', h1, ?_⟩)
      rw [← hkey o' (by simp [h1]) k h2, hkey o (by simp) k hg]

theorem Outer.keysOf (ho : Outer M pt cache trusted bs h st os) (ha : Addressed h) (hA : (trusted.map addr).Nodup) {x : Message × PlainKM}
    (hx : x ∈ st.messages) (j : Jid) (d : DevId) :
    Spec.keysFor x.1 j d = (os.filter fun o => decide (o.ns = x.1.ns ∧ addr o.dev = (j, d))).filterMap Out.key := by
  unfold Spec.keysFor
  rw [ho.keys ha hA hx, filterMap_filter' (q := fun o => decide (addr o.dev = (j, d))), List.filter_filter]
  · congr 2
    funext o
    by_cases h1 : o.ns = x.1.ns <;> by_cases h2 : addr o.dev = (j, d) <;> simp [h1, h2]
  · intro o hm k hk
    rw [← ho.key_addr ha (List.mem_filter.1 hm).1 hk]
    simp

theorem Outer.errsOf (ho : Outer M pt cache trusted bs h st os) (j : Jid) (d : DevId) :
    Spec.errorsFor st.errors j d =
      (os.filter fun o => decide (addr o.dev = (j, d))).filterMap Out.err := by
  rw [Spec.errorsFor, ho.errors, filterMap_filter']
  intro o hm e he
  unfold Out.err at he
  split at he
  · cases he
  · cases he; simp [addr]

/-- Devices without outcome have no key and no error. -/
theorem Outer.none (ho : Outer M pt cache trusted bs h st os) (ha : Addressed h) (hA : (trusted.map addr).Nodup) {j : Jid} {d : DevId}
    (hno : ∀ o ∈ os, addr o.dev ≠ (j, d)) :
    (∀ x ∈ st.messages, Spec.keysFor x.1 j d = []) ∧ Spec.errorsFor st.errors j d = [] := by
  refine ⟨fun x hx => ?_, ?_⟩
  · rw [ho.keysOf ha hA hx, List.filterMap_eq_nil_iff]
    intro o hm
    simp only [List.mem_filter, decide_eq_true_eq] at hm
    exact absurd hm.2.2 (hno o hm.1)
  · rw [ho.errsOf, List.filterMap_eq_nil_iff]
    intro o hm
    simp only [List.mem_filter, decide_eq_true_eq] at hm
    exact absurd hm.2 (hno o hm.1)

theorem Outer.one (ho : Outer M pt cache trusted bs h st os) (ha : Addressed h) (hA : (trusted.map addr).Nodup) {o : Out} (hm : o ∈ os) :
    ((∃ x ∈ st.messages, x.1.ns = o.ns ∧ (∃ k, Spec.keysFor x.1 o.dev.bareJid o.dev.deviceId = [k]) ∧
        ∀ x' ∈ st.messages, x' ≠ x → Spec.keysFor x'.1 o.dev.bareJid o.dev.deviceId = []) ∧
      Spec.errorsFor st.errors o.dev.bareJid o.dev.deviceId = []) ∨
    ((∀ x ∈ st.messages, Spec.keysFor x.1 o.dev.bareJid o.dev.deviceId = []) ∧
      ∃ e, Spec.errorsFor st.errors o.dev.bareJid o.dev.deviceId = [e] ∧ e.ns = o.ns) := by
  have hone : os.filter (fun o' => decide (addr o'.dev = (o.dev.bareJid, o.dev.deviceId))) = [o] :=
    filter_one (f := fun o => addr o.dev) (ho.addrs hA) hm
  have hk : ∀ x ∈ st.messages, Spec.keysFor x.1 o.dev.bareJid o.dev.deviceId = ([o].filter fun o => decide (o.ns = x.1.ns)).filterMap Out.key := by
    intro x hx
    rw [ho.keysOf ha hA hx, ← hone, List.filter_filter]
    congr 2
    funext o'
    by_cases h1 : o'.ns = x.1.ns <;> by_cases h2 : addr o'.dev = (o.dev.bareJid, o.dev.deviceId) <;> simp [h1, h2]
  have he := ho.errsOf o.dev.bareJid o.dev.deviceId
  rw [hone] at he
  rw [he]
  cases hres : o.res with
  | ok ks =>
    left
    have e1 : o.err = Option.none := by unfold Out.err; rw [hres]
    have e2 : ∃ k, o.key = some k := by unfold Out.key; rw [hres]; exact ⟨_, rfl⟩
    obtain ⟨k, e2⟩ := e2
    obtain ⟨x, hx, hns, _⟩ := ho.served o hm
    refine ⟨⟨x, hx, hns, ⟨k, by rw [hk x hx]; simp [hns, e2]⟩, fun x' hx' hne => ?_⟩, by simp [e1]⟩
    rw [hk x' hx']
    have : o.ns ≠ x'.1.ns := by
      intro hc
      exact hne (inj_of_nodup_map (f := fun x : Message × PlainKM => x.1.ns) ho.once hx' hx (by rw [hns, hc]))
    simp [this]
  | error e =>
    right
    have e1 : o.key = Option.none := by unfold Out.key; rw [hres]
    refine ⟨fun x hx => ?_, ⟨_, by simp [Out.err, hres]; rfl, rfl⟩⟩
    rw [hk x hx]
    by_cases hc : o.ns = x.1.ns <;> simp [hc, e1]

theorem Outer.flat (ho : Outer M pt cache trusted bs h st os) (ha : Addressed h) (hA : (trusted.map addr).Nodup) :
    (st.messages.map fun x => x.1.keys.length).sum = (Spec.given h).length := by
  rw [ho.given]
  obtain ⟨parts, hos, hp⟩ := ho.parts
  have e1 : (st.messages.map fun x => x.1.keys.length) = (st.messages.map (·.1.keys)).map List.length := by simp
  have hn := ho.addrs hA
  have hkey : ∀ o ∈ os, ∀ k, o.key = some k → (k.1.bareJid, k.1.deviceId) = addr o.dev := fun o h1 k h2 => ho.key_addr ha h1 h2
  rw [e1, hp]
  subst hos
  have e2 : ∀ p ∈ parts, ((p.filterMap Out.key).foldl setAdd []).length = (p.filterMap Out.sess).length := by
    intro p hpm
    have hs : p.Sublist parts.flatten := List.sublist_flatten_of_mem hpm
    have hn' := hn.sublist (hs.map fun o => addr o.dev)
    have hk' : ∀ o ∈ p, ∀ k, o.key = some k → (k.1.bareJid, k.1.deviceId) = addr o.dev := fun o h1 => hkey o (hs.subset h1)
    rw [foldl_setAdd]
    · clear hn' hk' hs hpm
      induction p with
      | nil => rfl
      | cons o p ih =>
        cases hr : o.res with
        | ok x =>
          have h1 : ∃ k, o.key = some k := by unfold Out.key; rw [hr]; exact ⟨_, rfl⟩
          have h2 : ∃ k, o.sess = some k := by unfold Out.sess; rw [hr]; exact ⟨_, rfl⟩
          obtain ⟨k, h1⟩ := h1
          obtain ⟨s, h2⟩ := h2
          rw [List.filterMap_cons_some h1, List.filterMap_cons_some h2, List.length_cons, List.length_cons, ih]
        | error e =>
          have h1 : o.key = Option.none := by unfold Out.key; rw [hr]
          have h2 : o.sess = Option.none := by unfold Out.sess; rw [hr]
          rw [List.filterMap_cons_none h1, List.filterMap_cons_none h2, ih]
    · clear hs hpm
      induction p with
      | nil => simp
      | cons o p ih =>
        simp only [List.map_cons, List.nodup_cons] at hn'
        have ih := ih hn'.2 fun o ho' => hk' o (by simp [ho'])
        cases hg : o.key with
        | none => rw [List.filterMap_cons_none hg]; exact ih
        | some k =>
          rw [List.filterMap_cons_some hg, List.nodup_cons]
          refine ⟨fun hm => ?_, ih⟩
          obtain ⟨o', h1, h2⟩ := List.mem_filterMap.1 hm
          refine hn'.1 (List.mem_map.2 ⟨o', h1, ?_⟩)
          rw [← hk' o' (by simp [h1]) k h2, hk' o (by simp) k hg]
  clear hn hkey hp ho
  induction parts with
  | nil => rfl
  | cons p parts ih =>
    simp only [List.map_cons, List.sum_cons, List.flatten_cons, List.filterMap_append, List.length_append]
    rw [e2 p (by simp), ← ih fun p hp => e2 p (by simp [hp])]

end
end SM
end Verif
