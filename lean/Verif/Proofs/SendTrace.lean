import Verif.Proofs.TrustTrace
/-
The encryption loops of `encrypt`, for arbitrary answers.
-/
namespace Verif
namespace SM
open Spec
variable {φ : Ev → Prop} {M : Mgr} {h : List Ev} {pt : Dict Ns Bytes} {cache : List Bundle}

/-- What happened to one device in the encryption loops. -/
structure Out where
  dev : DeviceInfo
  ns : Ns
  km : PlainKM
  res : Except Exn (EncKM × Session)

namespace Out
def err (o : Out) : Option EncError :=
  match o.res with
  | .ok _ => none
  | .error e => some { ns := o.ns, bareJid := o.dev.bareJid, deviceId := o.dev.deviceId, exn := e }

def sess (o : Out) : Option (Ns × Session) :=
  match o.res with
  | .ok (_, s) => some (o.ns, s)
  | .error _ => none

def key (o : Out) : Option (EncKM × Option KeyExchange) :=
  match o.res with
  | .ok (k, s) => some (k, kexFor s)
  | .error _ => none

def failed (o : Out) : Bool :=
  match o.res with
  | .ok _ => false
  | .error _ => true

/-- The outcome is what the backend answered, or an exception that does not abort the encryption. -/
def Ok (h : List Ev) (o : Out) : Prop :=
  (∀ k s, o.res = .ok (k, s) → Served h o.ns o.dev.bareJid o.dev.deviceId o.km k s) ∧
  (∀ e, o.res = .error e → isNonCritical e = true ∧ ErrIn h e)

theorem Ok.mono {o : Out} {t : List Ev} (ho : o.Ok h) : o.Ok (h ++ t) := by
  refine ⟨fun k s hr => ?_, fun e he => ⟨(ho.2 e he).1, ?_⟩⟩
  · obtain ⟨h1, e, h2, rfl, h3, h4⟩ := ho.1 k s hr
    exact ⟨h1, e, h2 ++ t, by simp, h3, h4⟩
  · obtain ⟨x, hx, hy⟩ := (ho.2 e he).2
    exact ⟨x, List.mem_append_left _ hx, hy⟩
end Out

theorem given_append {h t : List Ev} : given (h ++ t) = given h ++ given t := by simp [given]

/-- `m` is the key material of the message for `ns`. -/
def FromPlaintext (pt : Dict Ns Bytes) (h1 : List Ev) (ns : Ns) (m : PlainKM) : Prop :=
  ∃ p c, pt.get ns = some p ∧ (⟨.encryptPlaintext ns p, .ok (c, m)⟩ : Ev) ∈ h1

/-- The bundle is one found in the cache, or was just downloaded. -/
def BundleFrom (cache : List Bundle) (h1 : List Ev) (ns : Ns) (dev : DeviceInfo) (b : Bundle) : Prop :=
  (b ∈ cache ∧ b.ns = ns ∧ b.bareJid = dev.bareJid ∧ b.deviceId = dev.deviceId) ∨
  h1.getLast? = some ⟨.downloadBundle ns dev.bareJid dev.deviceId, .ok b⟩

/-- Key material is handed out only for devices of `S`, only once for each device, for its selected namespace. -/
def Once (pt : Dict Ns Bytes) (cache : List Bundle) (S : List DeviceInfo) (h1 : List Ev) (e : Ev) : Prop :=
  Op.handsOut e.1 = true → ∃ dev ∈ S, ∃ ns m, dev.namespaces = [ns] ∧ HandsOut h1 e ns dev.bareJid dev.deviceId m ∧
    (∀ g1 f g2 ns' m', h1 = g1 ++ f :: g2 → ¬ HandsOut g1 f ns' dev.bareJid dev.deviceId m') ∧ FromPlaintext pt h1 ns m ∧
    ∀ b, e.1 = .buildActive ns dev.bareJid dev.deviceId b m → BundleFrom cache h1 ns dev b

theorem Once.mono {S S' : List DeviceInfo} {h1 : List Ev} {e : Ev} (ho : Once pt cache S h1 e) (hs : ∀ d ∈ S, d ∈ S') : Once pt cache S' h1 e := by
  intro hh
  obtain ⟨dev, hd, h'⟩ := ho hh
  exact ⟨dev, hs _ hd, h'⟩

theorem Once.other {S : List DeviceInfo} {h1 : List Ev} {e : Ev} (he : Op.handsOut e.1 = false) : Once pt cache S h1 e := by
  intro hh
  rw [he] at hh
  cases hh

/-- A device that was not served yet can be served. -/
theorem Once.next {S : List DeviceInfo} {e : Ev} {dev : DeviceInfo} {ns : Ns} {m : PlainKM} (hg : Guarded (Once pt cache S) h)
    (hns : dev.namespaces = [ns]) (hd : addr dev ∉ S.map addr) (he : HandsOut h e ns dev.bareJid dev.deviceId m)
    (hm : FromPlaintext pt h ns m) (hb : ∀ b, e.1 = .buildActive ns dev.bareJid dev.deviceId b m → BundleFrom cache h ns dev b) :
    Guarded (Once pt cache (S ++ [dev])) (h ++ [e]) := by
  refine (hg.mono fun _ _ ho => ho.mono fun d hd => by simp [hd]).snoc fun _ => ?_
  refine ⟨dev, by simp, ns, m, hns, he, ?_, hm, hb⟩
  rintro g1 f g2 ns' m' rfl hf
  obtain ⟨dev', hd', ns'', m'', _, hf', _⟩ := hg g1 f g2 rfl hf.op
  have := hf.unique hf'
  exact hd (List.mem_map.2 ⟨dev', hd', by simp [addr, this.2.1, this.2.2.1]⟩)

/-- Operations of the encryption loops -/
def Op.sends : Op → Bool
  | .loadSession .. | .downloadBundle .. | .buildActive .. | .encryptKM .. | .encryptPlaintext .. => true
  | _ => false

theorem Guarded.extend {S : List DeviceInfo} {t : List Ev} (hg : Guarded (Once pt cache S) h) (ht : ∀ e ∈ t, Op.handsOut e.1 = false) :
    Guarded (Once pt cache S) (h ++ t) := hg.append fun e he _ => .other (ht e he)

theorem FromPlaintext.mono {h h' : List Ev} {ns : Ns} {m : PlainKM} (hm : FromPlaintext pt h ns m) (hh : ∀ e ∈ h, e ∈ h') :
    FromPlaintext pt h' ns m := by
  obtain ⟨p, c, h1, h2⟩ := hm
  exact ⟨p, c, h1, hh _ h2⟩

/-- One device. -/
theorem trace_encryptForDevice (ns : Ns) (dev : DeviceInfo) (s : Option Session) (b : Option Bundle) (km : PlainKM) (S : List DeviceInfo)
    (hg : Guarded (Once pt cache S) h) (hns : dev.namespaces = [ns]) (hd : addr dev ∉ S.map addr)
    (hs : ∀ s', s = some s' → h.getLast? = some ⟨.loadSession ns dev.bareJid dev.deviceId, .ok (some s')⟩)
    (hm : FromPlaintext pt h ns km)
    (hb : ∀ b', b = some b' → b' ∈ cache ∧ b'.ns = ns ∧ b'.bareJid = dev.bareJid ∧ b'.deviceId = dev.deviceId) :
    wp (Rec φ) (encryptForDevice ns dev s b km) (ends
      (fun x h' => (∃ t, h' = h ++ t ∧ ∀ e ∈ t, Op.sends e.1 = true) ∧ Guarded (Once pt cache (S ++ [dev])) h' ∧
        Served h' ns dev.bareJid dev.deviceId km x.2 x.1 ∧ given h' = given h ++ [(ns, x.1)])
      (fun x h' => (∃ t, h' = h ++ t ∧ ∀ e ∈ t, Op.sends e.1 = true) ∧ Guarded (Once pt cache (S ++ [dev])) h' ∧
        given h' = given h ∧ ∀ y, x = some y → ErrIn h' y)) h := by
  have hg' : Guarded (Once pt cache (S ++ [dev])) h := hg.mono fun _ _ ho => ho.mono fun d hd => by simp [hd]
  have last : ∀ (h0 : List Ev) (o : Op) (e : Exn) (y : Exn), some e = some y → ErrIn (h0 ++ [⟨o, .error e⟩]) y := by
    rintro h0 o e _ ⟨⟩
    exact ⟨_, List.mem_append_right _ (List.mem_singleton.2 rfl), rfl⟩
  unfold encryptForDevice
  cases s with
  | none =>
    simp only
    rw [ends_bind]
    have build : ∀ (b : Bundle) (h0 t0 : List Ev), h0 = h ++ t0 → (∀ e ∈ t0, Op.sends e.1 = true) → Guarded (Once pt cache S) h0 →
        BundleFrom cache h0 ns dev b → given h0 = given h →
        wp (Rec φ) (call (.buildActive ns dev.bareJid dev.deviceId b km)) (ends
          (fun x h' => (∃ t, h' = h ++ t ∧ ∀ e ∈ t, Op.sends e.1 = true) ∧ Guarded (Once pt cache (S ++ [dev])) h' ∧
            Served h' ns dev.bareJid dev.deviceId km x.2 x.1 ∧ given h' = given h ++ [(ns, x.1)])
          (fun x h' => (∃ t, h' = h ++ t ∧ ∀ e ∈ t, Op.sends e.1 = true) ∧ Guarded (Once pt cache (S ++ [dev])) h' ∧
            given h' = given h ∧ ∀ y, x = some y → ErrIn h' y)) h0 := by
      rintro b _ t0 rfl ht0 hg0 hbf hgiv
      have hm' : FromPlaintext pt (h ++ t0) ns km := hm.mono fun e he => List.mem_append_left _ he
      have hall : ∀ a, ∀ e ∈ t0 ++ [(⟨.buildActive ns dev.bareJid dev.deviceId b km, a⟩ : Ev)], Op.sends e.1 = true := by
        intro a e he
        rcases List.mem_append.1 he with he | he
        · exact ht0 e he
        · cases List.mem_singleton.1 he; rfl
      have hone : ∀ a, Guarded (Once pt cache (S ++ [dev])) (h ++ t0 ++ [(⟨.buildActive ns dev.bareJid dev.deviceId b km, a⟩ : Ev)]) := by
        intro a
        refine Once.next hg0 hns hd (.inl ⟨b, rfl⟩) hm' ?_
        rintro b' hb'
        cases hb'
        exact hbf
      refine Rec.call ⟨⟨t0, rfl, ht0⟩, hg0.mono fun _ _ ho => ho.mono fun d hd => by simp [hd], hgiv, nofun⟩ (fun a _ => ?_) fun e _ => ?_
      · refine ⟨⟨_, List.append_assoc .., hall _⟩, hone _, ⟨_, _, [], rfl, .inl ⟨b, rfl⟩, .inl ⟨_, _, _, _, _, rfl⟩⟩, ?_⟩
        rw [given_append, hgiv]
        rfl
      · refine ⟨⟨_, List.append_assoc .., hall _⟩, hone _, ?_, last _ _ _⟩
        rw [given_append, hgiv]
        simp [given]
    unfold bundleFor
    cases b with
    | some b => exact build b h [] (by simp) (by simp) hg (.inl (hb b rfl)) rfl
    | none =>
      refine Rec.call ⟨⟨[], by simp, by simp⟩, hg', rfl, nofun⟩ (fun a _ => ?_) fun e _ => ?_
      · exact build a _ _ rfl (by simp [Op.sends]) (Guarded.extend hg (by simp [Op.handsOut])) (.inr (by simp)) (by simp [given])
      · exact ⟨⟨_, rfl, by simp [Op.sends]⟩, Guarded.extend hg' (by simp [Op.handsOut]), by simp [given], last _ _ _⟩
  | some s =>
    simp only
    rw [ends_bind]
    have hone : ∀ a, Guarded (Once pt cache (S ++ [dev])) (h ++ [(⟨.encryptKM ns s km, a⟩ : Ev)]) := fun a =>
      Once.next hg hns hd (.inr ⟨s, rfl, hs s rfl⟩) hm nofun
    refine Rec.call ⟨⟨[], by simp, by simp⟩, hg', rfl, nofun⟩ (fun a _ => ?_) fun e _ => ?_
    · refine ⟨⟨_, rfl, by simp [Op.sends]⟩, hone _, ⟨h, _, [], rfl, .inr ⟨s, rfl, hs s rfl⟩, .inr ⟨_, _, _, rfl⟩⟩, ?_⟩
      rw [given_append]
      rfl
    · exact ⟨⟨_, rfl, by simp [Op.sends]⟩, hone _, by simp [given], last _ _ _⟩

/-- The state of the inner loop is determined by the outcomes. -/
structure Inner (st st' : EncState) (os : List Out) : Prop where
  devices : ∀ d, d ∈ st'.devices ↔ d ∈ st.devices ∧ ∀ o ∈ os, o.dev = d → o.failed = false
  uniq : st.devices.Nodup → st'.devices.Nodup
  errors : st'.errors = st.errors ++ os.filterMap Out.err
  sessions : st'.sessions = st.sessions ++ os.filterMap Out.sess
  keys : st'.keys = (os.filterMap Out.key).foldl setAdd st.keys

theorem trace_encryptDevice (ns : Ns) (km : PlainKM) (st : EncState) (dev : DeviceInfo) (S : List DeviceInfo)
    (hg : Guarded (Once pt cache S) h) (hns : dev.namespaces = [ns]) (hd : addr dev ∉ S.map addr) (hm : FromPlaintext pt h ns km) :
    wp (Rec φ) (encryptDevice M ns cache km st dev) (ends
      (fun st' h' => (∃ t, h' = h ++ t ∧ ∀ e ∈ t, Op.sends e.1 = true) ∧ Guarded (Once pt cache (S ++ [dev])) h' ∧
        ∃ o : Out, o.dev = dev ∧ o.ns = ns ∧ o.km = km ∧ o.Ok h' ∧ Inner st st' [o] ∧ given h' = given h ++ [o].filterMap Out.sess)
      (fun _ h' => (∃ t, h' = h ++ t ∧ ∀ e ∈ t, Op.sends e.1 = true) ∧ Guarded (Once pt cache (S ++ [dev])) h')) h := by
  unfold encryptDevice
  have hg' : Guarded (Once pt cache (S ++ [dev])) h := hg.mono fun _ _ ho => ho.mono fun d hd => by simp [hd]
  rw [ends_bind]
  refine Rec.call ⟨⟨[], by simp, by simp⟩, hg'⟩ (fun s _ => ?_) fun e _ => ?_
  · simp only
    rw [wp_tryElse]
    refine wp_mono (trace_encryptForDevice ns dev s _ km S (Guarded.extend hg (by simp [Op.handsOut])) hns hd ?_
      (hm.mono fun e he => List.mem_append_left _ he) ?_) ?_
    · rintro s' rfl; simp
    · intro b hb
      have h1 := List.mem_of_find?_eq_some hb
      have h2 := List.find?_some hb
      simp only [decide_eq_true_eq] at h2
      exact ⟨by simpa using h1, h2⟩
    · have grow : ∀ h', (∃ t, h' = h ++ [⟨.loadSession ns dev.bareJid dev.deviceId, .ok s⟩] ++ t ∧ ∀ e ∈ t, Op.sends e.1 = true) →
          ∃ t, h' = h ++ t ∧ ∀ e ∈ t, Op.sends e.1 = true := by
        rintro _ ⟨t, rfl, ht⟩
        refine ⟨_, List.append_assoc .., ?_⟩
        intro e he
        rcases List.mem_append.1 he with he | he
        · cases List.mem_singleton.1 he; rfl
        · exact ht e he
      have hgl : given (h ++ [⟨.loadSession ns dev.bareJid dev.deviceId, .ok s⟩]) = given h := by simp [given]
      rintro (⟨s', k⟩ | e | _) h' hh
      · simp only [split3_ok]
        obtain ⟨ht, hg1, hsv, hgv⟩ := hh
        refine ⟨grow _ ht, hg1, ⟨dev, ns, km, .ok (k, s')⟩, rfl, rfl, rfl, ⟨?_, nofun⟩, ?_, by rw [hgv, hgl]; rfl⟩
        · rintro _ _ ⟨⟩; exact hsv
        · exact ⟨by simp [Out.failed], id, by simp [Out.err], by simp [Out.sess], by simp [Out.key]⟩
      · simp only [split3_raised]
        obtain ⟨ht, hg1, hgv, herr⟩ := hh
        split
        · rename_i hc
          refine ⟨grow _ ht, hg1, ⟨dev, ns, km, .error e⟩, rfl, rfl, rfl, ⟨nofun, ?_⟩, ?_, by rw [hgv, hgl]; exact (List.append_nil _).symm⟩
          · rintro _ ⟨⟩; exact ⟨hc, herr _ rfl⟩
          · refine ⟨?_, fun h => h.sublist List.filter_sublist, rfl, (List.append_nil _).symm, rfl⟩
            intro d
            simp only [mem_setDiff, List.mem_singleton, forall_eq, Out.failed]
            exact and_congr_right fun _ => ⟨fun h h' => absurd h'.symm h, fun h h' => by cases h h'.symm⟩
        · exact ⟨grow _ ht, hg1⟩
      · simp only [split3_crashed]
        exact ⟨grow _ hh.1, hh.2.1⟩
  · exact ⟨⟨_, rfl, by simp [Op.sends]⟩, Guarded.extend hg' (by simp [Op.handsOut])⟩

theorem Inner.append {st st' st'' : EncState} {os os' : List Out} (h1 : Inner st st' os) (h2 : Inner st' st'' os') :
    Inner st st'' (os ++ os') := by
  refine ⟨?_, fun h => h2.uniq (h1.uniq h), ?_, ?_, ?_⟩
  · intro d
    rw [h2.devices, h1.devices]
    simp only [List.mem_append]
    grind
  · rw [h2.errors, h1.errors, List.filterMap_append, List.append_assoc]
  · rw [h2.sessions, h1.sessions, List.filterMap_append, List.append_assoc]
  · rw [h2.keys, h1.keys, List.filterMap_append, List.foldl_append]

theorem Inner.nil {st : EncState} : Inner st st [] := ⟨by simp, id, by simp, by simp, by simp⟩

/-- The devices of one backend. -/
theorem trace_encryptDevices (ns : Ns) (km : PlainKM) (devs : List DeviceInfo) (st : EncState) (S : List DeviceInfo)
    (hg : Guarded (Once pt cache S) h) (hns : ∀ dev ∈ devs, dev.namespaces = [ns]) (hd : ((S ++ devs).map addr).Nodup)
    (hm : FromPlaintext pt h ns km) :
    wp (Rec φ) (Prog.fold devs st (encryptDevice M ns cache km)) (ends
      (fun st' h' => (∃ t, h' = h ++ t ∧ ∀ e ∈ t, Op.sends e.1 = true) ∧ Guarded (Once pt cache (S ++ devs)) h' ∧
        ∃ os : List Out, os.map Out.dev = devs ∧ (∀ o ∈ os, o.ns = ns ∧ o.km = km ∧ o.Ok h') ∧ Inner st st' os ∧
          given h' = given h ++ os.filterMap Out.sess)
      (fun _ h' => (∃ t, h' = h ++ t ∧ ∀ e ∈ t, Op.sends e.1 = true) ∧ Guarded (Once pt cache (S ++ devs)) h')) h := by
  induction devs generalizing h st S with
  | nil => exact ⟨⟨[], by simp, by simp⟩, by simpa using hg, [], rfl, by simp, .nil, by simp⟩
  | cons d devs ih =>
    unfold Prog.fold
    rw [wp_bind_def, andThen_ends]
    have hd' : addr d ∉ S.map addr := by
      intro hm
      simp only [List.map_append, List.map_cons, List.nodup_append] at hd
      exact hd.2.2 _ hm _ (by simp) rfl
    have e1 : S ++ d :: devs = (S ++ [d]) ++ devs := by simp
    refine ends_mono (trace_encryptDevice ns km st d S hg (hns d (by simp)) hd' hm) ?_ ?_
    · rintro st1 _ ⟨⟨t, rfl, ht⟩, hg1, o, ho1, ho2, ho3, ho4, hi, hgv⟩
      rw [e1] at hd ⊢
      refine ends_mono (ih (h := h ++ t) st1 (S ++ [d]) hg1 (fun x hx => hns x (by simp [hx])) hd
        (hm.mono fun e he => List.mem_append_left _ he)) ?_ ?_
      · rintro st2 _ ⟨⟨t', rfl, ht'⟩, hg2, os, h1, h2, h3, hgv'⟩
        refine ⟨⟨_, List.append_assoc .., ?_⟩, hg2, o :: os, by simp [ho1, h1], ?_, hi.append h3, ?_⟩
        · intro e he
          rcases List.mem_append.1 he with he | he
          · exact ht e he
          · exact ht' e he
        · intro x hx
          rcases List.mem_cons.1 hx with rfl | hx
          · exact ⟨ho2, ho3, ho4.mono⟩
          · exact h2 x hx
        · rw [hgv', hgv, List.append_assoc, ← List.filterMap_append]
          rfl
      · rintro _ _ ⟨⟨t', rfl, ht'⟩, hg2⟩
        refine ⟨⟨_, List.append_assoc .., ?_⟩, hg2⟩
        intro e he
        rcases List.mem_append.1 he with he | he
        · exact ht e he
        · exact ht' e he
    · rintro _ _ ⟨ht, hg1⟩
      refine ⟨ht, hg1.mono fun _ _ ho => ho.mono fun x hx => ?_⟩
      rw [e1]
      exact List.mem_append_left _ hx

/-- The state of the outer loop after the backends `done`, determined by the outcomes. -/
structure Outer (M : Mgr) (pt : Dict Ns Bytes) (cache : List Bundle) (trusted : List DeviceInfo) (done : List Ns) (h : List Ev) (st : EncAll)
    (os : List Out) : Prop where
  guard : Guarded (Once pt cache (os.map Out.dev)) h
  nodup : (os.map Out.dev).Nodup
  out : ∀ o ∈ os, o.dev ∈ trusted ∧ o.dev.namespaces = [o.ns] ∧ o.ns ∈ done ∧ o.Ok h
  all : ∀ dev ∈ trusted, ∀ ns ∈ done, dev.namespaces = [ns] → ∃ o ∈ os, o.dev = dev
  devices : ∀ d, d ∈ st.devices ↔ d ∈ trusted ∧ ∀ o ∈ os, o.dev = d → o.failed = false
  uniq : st.devices.Nodup
  errors : st.errors = os.filterMap Out.err
  sessions : st.sessions = os.filterMap Out.sess
  messages : ∀ x ∈ st.messages, x.1.ns ∈ done ∧ x.1.bareJid = M.ownJid ∧ x.1.deviceId = M.ownDev ∧
    (∃ p, pt.get x.1.ns = some p ∧ (⟨.encryptPlaintext x.1.ns p, .ok (x.1.content, x.2)⟩ : Ev) ∈ h) ∧
    x.1.keys = ((os.filter fun o => decide (o.ns = x.1.ns)).filterMap Out.key).foldl setAdd [] ∧
    ∃ o ∈ os, o.ns = x.1.ns
  once : (st.messages.map (·.1.ns)).Nodup
  served : ∀ o ∈ os, ∃ x ∈ st.messages, x.1.ns = o.ns ∧ x.2 = o.km
  given : given h = os.filterMap Out.sess
  parts : ∃ parts : List (List Out), os = parts.flatten ∧
    st.messages.map (·.1.keys) = parts.map fun p => (p.filterMap Out.key).foldl setAdd []

theorem set_new {K V : Type} [DecidableEq K] {d : Dict K V} {k : K} {v : V} (hk : k ∉ d.map (·.1)) : Dict.set d k v = d ++ [(k, v)] := by
  induction d with
  | nil => rfl
  | cons x d ih =>
    simp only [List.map_cons, List.mem_cons, not_or] at hk
    unfold Dict.set
    rw [if_neg (fun h => hk.1 h.symm), ih hk.2]
    rfl

theorem trace_encryptBackend {trusted : List DeviceInfo} {done : List Ns} {st : EncAll} {os : List Out}
    (ns : Ns) (hT : ∀ dev ∈ trusted, ∃ ns, dev.namespaces = [ns]) (hA : (trusted.map addr).Nodup)
    (hns : ns ∉ done) (ho : Outer M pt cache trusted done h st os) :
    wp (Rec φ) (encryptBackend M cache pt st ns) (ends
      (fun st' h' => (∃ t, h' = h ++ t ∧ ∀ e ∈ t, Op.sends e.1 = true) ∧ ∃ os', Outer M pt cache trusted (done ++ [ns]) h' st' os')
      (fun _ h' => (∃ t, h' = h ++ t ∧ ∀ e ∈ t, Op.sends e.1 = true) ∧ Guarded (Once pt cache trusted) h')) h := by
  have hg0 : Guarded (Once pt cache trusted) h := ho.guard.mono fun _ _ h1 => h1.mono fun d hd => by
    obtain ⟨o, h2, rfl⟩ := List.mem_map.1 hd
    exact (ho.out o h2).1
  have hbd : ∀ dev, dev ∈ st.devices.filter (fun dev => decide (dev.namespaces.head? = some ns)) ↔
      dev ∈ trusted ∧ dev.namespaces = [ns] := by
    intro dev
    simp only [List.mem_filter, decide_eq_true_eq, ho.devices]
    constructor
    · rintro ⟨⟨h1, _⟩, h2⟩
      obtain ⟨n, hn⟩ := hT dev h1
      rw [hn] at h2
      cases h2
      exact ⟨h1, hn⟩
    · rintro ⟨h1, h2⟩
      refine ⟨⟨h1, fun o h3 h4 => ?_⟩, by rw [h2]; rfl⟩
      obtain ⟨_, h5, h6, _⟩ := ho.out o h3
      rw [h4, h2] at h5
      cases h5
      exact absurd h6 hns
  unfold encryptBackend
  simp only
  have hbn : (st.devices.filter (fun dev => decide (dev.namespaces.head? = some ns))).Nodup := ho.uniq.sublist List.filter_sublist
  generalize st.devices.filter (fun dev => decide (dev.namespaces.head? = some ns)) = bd at hbd hbn
  split
  · rename_i hl
    have : bd = [] := List.eq_nil_of_length_eq_zero hl
    subst this
    refine ⟨⟨[], by simp, by simp⟩, os, ?_⟩
    refine ⟨ho.guard, ho.nodup, ?_, ?_, ho.devices, ho.uniq, ho.errors, ho.sessions, ?_, ho.once, ho.served, ho.given, ho.parts⟩
    · intro o h1
      obtain ⟨h2, h3, h4, h5⟩ := ho.out o h1
      exact ⟨h2, h3, by simp [h4], h5⟩
    · intro dev h1 n hn h2
      rcases List.mem_append.1 hn with hn | hn
      · exact ho.all dev h1 n hn h2
      · cases List.mem_singleton.1 hn
        have := (hbd dev).2 ⟨h1, h2⟩
        simp at this
    · intro x hx
      obtain ⟨h1, h2⟩ := ho.messages x hx
      exact ⟨by simp [h1], h2⟩
  · rename_i hl
    split
    · exact ⟨⟨[], by simp, by simp⟩, hg0⟩
    · rename_i p hp
      rw [ends_bind]
      refine Rec.call ⟨⟨[], by simp, by simp⟩, hg0⟩ (fun a _ => ?_) fun e _ => ?_
      · obtain ⟨content, km⟩ := a
        rw [ends_bind]
        have hfresh : ∀ dev ∈ bd, dev ∉ os.map Out.dev := by
          intro dev hd hm
          obtain ⟨o, h1, rfl⟩ := List.mem_map.1 hm
          obtain ⟨_, h3, h4, _⟩ := ho.out o h1
          have h5 := ((hbd _).1 hd).2
          rw [h3] at h5
          cases h5
          exact hns h4
        have hnd : (os.map Out.dev ++ M.O.iter bd).Nodup := by
          rw [List.nodup_append]
          refine ⟨ho.nodup, by simpa using hbn, ?_⟩
          rintro x hx y hy rfl
          exact hfresh x (by simpa using hy) hx
        have hsub : ∀ d ∈ os.map Out.dev ++ M.O.iter bd, d ∈ trusted := by
          intro d hd
          rcases List.mem_append.1 hd with hd | hd
          · obtain ⟨o, h1, rfl⟩ := List.mem_map.1 hd
            exact (ho.out o h1).1
          · exact ((hbd d).1 (by simpa using hd)).1
        have hna : ((os.map Out.dev ++ M.O.iter bd).map addr).Nodup :=
          nodup_map_on (fun x hx y hy hxy => inj_of_nodup_map hA (hsub x hx) (hsub y hy) hxy) hnd
        refine ends_mono (trace_encryptDevices ns km (M.O.iter bd) _ (os.map Out.dev)
          (Guarded.extend ho.guard (by simp [Op.handsOut])) (fun d hd => ((hbd d).1 (by simpa using hd)).2) hna ⟨p, content, hp, by simp⟩) ?_ ?_
        · rintro st' _ ⟨⟨t, rfl, ht⟩, hg, os', h1, h2, h3, hgv⟩
          have hmap : (os ++ os').map Out.dev = os.map Out.dev ++ M.O.iter bd := by rw [List.map_append, h1]
          have hnew : ∀ o ∈ os', o.dev ∈ bd := by
            intro o h
            have : o.dev ∈ M.O.iter bd := by rw [← h1]; exact List.mem_map_of_mem h
            simpa using this
          have hold : ∀ o ∈ os, o.ns ≠ ns := fun o h he => hns (he ▸ (ho.out o h).2.2.1)
          have hmsg : (⟨ns, M.ownJid, M.ownDev, content, st'.keys⟩ : Message) ∉ st.messages.map (·.1) := by
            intro hm
            obtain ⟨x, hx, he⟩ := List.mem_map.1 hm
            have := (ho.messages x hx).1
            rw [he] at this
            exact hns this
          refine ⟨⟨_, by rw [List.append_assoc], ?_⟩, os ++ os', ?_⟩
          · intro e he
            rcases List.mem_append.1 he with he | he
            · cases List.mem_singleton.1 he; rfl
            · exact ht e he
          · refine ⟨by rw [hmap]; exact hg, by rw [hmap]; exact hnd, ?_, ?_, ?_, ?_, ?_, ?_, ?_, ?_, ?_, ?_, ?_⟩
            · intro o h
              rcases List.mem_append.1 h with h | h
              · obtain ⟨h5, h6, h7, h8⟩ := ho.out o h
                exact ⟨h5, h6, by simp [h7], by rw [List.append_assoc]; exact h8.mono⟩
              · obtain ⟨h5, h6, h7⟩ := h2 o h
                have := (hbd _).1 (hnew o h)
                exact ⟨this.1, by rw [h5]; exact this.2, by simp [h5], h7⟩
            · intro dev hd n hn hdn
              rcases List.mem_append.1 hn with hn | hn
              · obtain ⟨o, h, h'⟩ := ho.all dev hd n hn hdn
                exact ⟨o, by simp [h], h'⟩
              · cases List.mem_singleton.1 hn
                have : dev ∈ M.O.iter bd := by simpa using (hbd dev).2 ⟨hd, hdn⟩
                rw [← h1] at this
                obtain ⟨o, h, h'⟩ := List.mem_map.1 this
                exact ⟨o, by simp [h], h'⟩
            · intro d
              show d ∈ st'.devices ↔ _
              rw [h3.devices]
              simp only [ho.devices, List.mem_append]
              grind
            · exact h3.uniq ho.uniq
            · show st'.errors = _
              rw [h3.errors, List.filterMap_append, ← ho.errors]
            · show st'.sessions = _
              rw [h3.sessions, List.filterMap_append, ← ho.sessions]
            · intro x hx
              have hx : x ∈ Dict.set st.messages ⟨ns, M.ownJid, M.ownDev, content, st'.keys⟩ km := hx
              rw [set_new hmsg] at hx
              rcases List.mem_append.1 hx with hx | hx
              · obtain ⟨h5, h6, h7, ⟨p', h8, h9⟩, h10, o, h11, h12⟩ := ho.messages x hx
                refine ⟨by simp [h5], h6, h7, ⟨p', h8, by simp [h9]⟩, ?_, o, by simp [h11], h12⟩
                rw [h10, List.filter_append]
                have : os'.filter (fun o => decide (o.ns = x.1.ns)) = [] := by
                  rw [List.filter_eq_nil_iff]
                  intro o ho' he
                  simp only [decide_eq_true_eq] at he
                  rw [(h2 o ho').1] at he
                  exact hns (he ▸ h5)
                rw [this, List.append_nil]
              · cases List.mem_singleton.1 hx
                refine ⟨by simp, rfl, rfl, ⟨p, hp, by simp⟩, ?_, ?_⟩
                · show st'.keys = _
                  rw [h3.keys, List.filter_append]
                  have e1 : os.filter (fun o => decide (o.ns = ns)) = [] := by
                    rw [List.filter_eq_nil_iff]
                    intro o ho' he
                    exact hold o ho' (by simpa using he)
                  have e2 : os'.filter (fun o => decide (o.ns = ns)) = os' := by
                    rw [List.filter_eq_self]
                    intro o ho'
                    simpa using (h2 o ho').1
                  rw [e1, e2, List.nil_append]
                · obtain ⟨d, hd⟩ := List.exists_mem_of_length_pos (Nat.pos_of_ne_zero hl)
                  have : d ∈ M.O.iter bd := by simpa using hd
                  rw [← h1] at this
                  obtain ⟨o, h, _⟩ := List.mem_map.1 this
                  exact ⟨o, by simp [h], (h2 o h).1⟩
            · show ((Dict.set st.messages ⟨ns, M.ownJid, M.ownDev, content, st'.keys⟩ km).map (·.1.ns)).Nodup
              rw [set_new hmsg, List.map_append, List.nodup_append]
              refine ⟨ho.once, by simp, ?_⟩
              rintro x hx y hy rfl
              cases List.mem_singleton.1 hy
              obtain ⟨z, hz, he⟩ := List.mem_map.1 hx
              have h4 := (ho.messages z hz).1
              rw [he] at h4
              exact hns h4
            · intro o h
              show ∃ x ∈ Dict.set st.messages ⟨ns, M.ownJid, M.ownDev, content, st'.keys⟩ km, _
              rw [set_new hmsg]
              rcases List.mem_append.1 h with h | h
              · obtain ⟨x, hx, hx'⟩ := ho.served o h
                exact ⟨x, by simp [hx], hx'⟩
              · exact ⟨_, List.mem_append_right _ (List.mem_singleton.2 rfl), (h2 o h).1.symm, (h2 o h).2.1.symm⟩
            · have e1 : Spec.given (h ++ [⟨.encryptPlaintext ns p, .ok (content, km)⟩]) = Spec.given h := by simp [Spec.given]
              rw [hgv, e1, ho.given, List.filterMap_append]
            · obtain ⟨parts, hp1, hp2⟩ := ho.parts
              refine ⟨parts ++ [os'], by simp [hp1], ?_⟩
              show (Dict.set st.messages ⟨ns, M.ownJid, M.ownDev, content, st'.keys⟩ km).map (·.1.keys) = _
              rw [set_new hmsg, List.map_append, hp2, List.map_append]
              congr 1
              show [st'.keys] = _
              rw [h3.keys]
              rfl
        · rintro _ _ ⟨⟨t, rfl, ht⟩, hg⟩
          refine ⟨⟨_, by rw [List.append_assoc], ?_⟩, hg.mono fun _ _ h1 => h1.mono hsub⟩
          intro e he
          rcases List.mem_append.1 he with he | he
          · cases List.mem_singleton.1 he; rfl
          · exact ht e he
      · exact ⟨⟨_, rfl, by simp [Op.sends]⟩, Guarded.extend hg0 (by simp [Op.handsOut])⟩

end SM
end Verif
