import Verif.Proofs.EncryptUse
import Verif.Props.DeviceList
/-
`encrypt`: who gets key material (C27, C30, C31, C36, C37, C68).  All statements are about every sequence of interactions `t` the call
can perform, with arbitrary answers and ending at any point: what storage, server, backends, application and concurrent calls do is
unconstrained, except for the hypotheses named in the statement.
-/
namespace Verif
open Spec SM

/-- Like `runProg_exec`: all answers come from the environment. -/
theorem runProg_answers {S : Sig} {E W α : Type} (env : W → (o : S.Op) → Except E (S.Ret o)) (next : W → Event S E → W)
    (n : Nat) (p : Prog S E α) (w : W) : ∀ e ∈ (runProg env next n p w).1, ∃ w', e.2 = env w' e.1 := by
  induction n generalizing p w with
  | zero => cases p <;> simp [runProg]
  | succ n ih =>
    cases p with
    | ret => simp [runProg]
    | raise => simp [runProg]
    | op o k =>
      intro e he
      simp only [runProg, List.mem_cons] at he
      rcases he with rfl | he
      · exact ⟨w, rfl⟩
      · exact ih _ _ e he

/-- Without concurrent calls, and as long as `create` and `purge_backend` are not involved, the loaded backends stay the same. -/
theorem lib_backends {w w' : World} {t : List Ev} (hr : Lib.Runs w t w') (ht : ∀ e ∈ t, ∀ bs, e.1 ≠ .setBackends bs) :
    ∀ bs, (⟨.getBackends, .ok bs⟩ : Ev) ∈ t → bs = w.backends := by
  induction t generalizing w with
  | nil => simp
  | cons e t ih =>
    obtain ⟨h1, h2⟩ := hr
    have hb : (Lib.next w e).backends = w.backends := by
      obtain ⟨o, a⟩ := e
      cases o <;> cases a <;> first | rfl | exact absurd rfl (ht _ List.mem_cons_self _)
    intro bs hm
    rcases List.mem_cons.1 hm with rfl | hm
    · have : (.ok bs : Except Exn (List Ns)) = .ok w.backends := h1
      cases this; rfl
    · rw [← hb]
      exact ih h2 (fun e he => ht e (by simp [he])) bs hm

/-! ### A chat for the examples -/

/-- "a" has the devices 7 and 8, "me" has the devices 1 and 2; the key of device 2 is not trusted, the key of device 8 is not known. -/
def World.chat : World where
  disk := fun k => match k with
    | .devList "a" => some (.ofInts [7, 8])
    | .devNamespaces "a" 7 => some (.ofStrs ["n", "o"])
    | .devActive "a" 7 => some (.ofBools [("n", true), ("o", true)])
    | .devLabel "a" 7 => some (.ofOptStr (some "phone"))
    | .devIdentityKey "a" 7 => some (.str (Base64.encode [7]))
    | .trust "a" [7] => some (.str "trusted")
    | .devNamespaces "a" 8 => some (.ofStrs ["n", "o"])
    | .devActive "a" 8 => some (.ofBools [("n", false), ("o", true)])
    | .devLabel "a" 8 => some (.ofOptStr none)
    | .trust "a" [8] => some (.str "trusted")
    | .devList "me" => some (.ofInts [1, 2])
    | .devNamespaces "me" 1 => some (.ofStrs ["n", "o"])
    | .devActive "me" 1 => some (.ofBools [("n", true), ("o", true)])
    | .devLabel "me" 1 => some (.ofOptStr none)
    | .devIdentityKey "me" 1 => some (.str (Base64.encode [1]))
    | .devNamespaces "me" 2 => some (.ofStrs ["n"])
    | .devActive "me" 2 => some (.ofBools [("n", true)])
    | .devLabel "me" 2 => some (.ofOptStr none)
    | .devIdentityKey "me" 2 => some (.str (Base64.encode [2]))
    | .trust "me" [2] => some (.str "distrusted")
    | _ => none
  backends := ["n", "o"]
  sync := false
  log := []

/-- Sessions of the example: one exists for device 7 of "a" and backend "n". -/
def chatSession (j : Jid) (d : DevId) (n : Nat) : Session :=
  ⟨"n", j, d, .active, true, ⟨[0], 0⟩, some 1, n, 0⟩

/-- Everything works; trust levels are named after what they evaluate to; servers deliver bundles with the device id as key. -/
def polite : World → (o : Op) → Except Exn o.Ret
  | _, .evalTrust dev => .ok (if dev.trustLevelName = "trusted" then .trusted else
      if dev.trustLevelName = "undecided" then .undecided else .distrusted)
  | _, .loadSession ns j d => .ok (if ns = "n" ∧ d = 7 then some (chatSession j d 0) else none)
  | _, .storeSession _ _ => .ok ()
  | _, .buildActive ns j d b m => .ok (⟨ns, j, d, .active, false, ⟨b.identityKey, 0⟩, none, 1, 0⟩, ⟨j, d, m.blob⟩)
  | _, .encryptKM _ s m => .ok (⟨s.bareJid, s.deviceId, m.blob⟩, { s with sendingChainLength := s.sendingChainLength + 1 })
  | _, .encryptPlaintext _ p => .ok (⟨false, p.length⟩, ⟨p.length⟩)
  | _, .downloadBundle ns j d => .ok ⟨ns, j, d, [UInt8.ofNat d.toNat], 0⟩
  | _, _ => .error (.app 0)

theorem polite_ok (w : World) (o : Op) (e : Exn) (h : polite w o = .error e) : e.isInternal = false := by
  cases o <;> cases h <;> rfl

theorem polite_addressed {t : List Ev} (h : ∀ e ∈ t, ∃ w, e.2 = Lib.env polite w e.1) : Addressed t where
  load ns j d s hm := by
    obtain ⟨w, hw⟩ := h _ hm
    simp only [Lib.env, polite] at hw
    split at hw
    · cases hw; exact ⟨rfl, rfl⟩
    · cases hw
  build ns j d b m s k hm := by
    obtain ⟨w, hw⟩ := h _ hm
    cases hw
    exact ⟨⟨rfl, rfl⟩, rfl, rfl⟩
  encrypt ns s m k s' hm := by
    obtain ⟨w, hw⟩ := h _ hm
    cases hw
    exact ⟨⟨rfl, rfl⟩, rfl, rfl⟩

theorem Mgr.ex_quiet : CallbackQuiet Mgr.ex.decide := by
  intro ds i t r h
  cases h
  simp

/-- The example run: device 7 gets its key from "n" with an existing session, device 8 from "o" with a new one. -/
def chatRun := runProg (Lib.env polite) Lib.next 100 (encrypt Mgr.ex ["a"] [("n", [1]), ("o", [1, 2])] none none) World.chat

theorem chat_exec : Exec (encrypt Mgr.ex ["a"] [("n", [1]), ("o", [1, 2])] none none) chatRun.1 (.ok
    ([(⟨"n", "me", 1, ⟨false, 1⟩, [(⟨"a", 7, 1⟩, none)]⟩, ⟨1⟩), (⟨"o", "me", 1, ⟨false, 2⟩, [(⟨"a", 8, 2⟩, some ⟨[8], 0⟩)]⟩, ⟨2⟩)], [])) :=
  runProg_exec (Lib.env polite) Lib.next 100 _ World.chat

theorem chat_runs : Lib.Runs World.chat chatRun.1 chatRun.2.2 := runProg_runs Lib (Lib.env polite) (Lib.env_ok polite polite_ok) 100 _ World.chat

theorem chat_backends (bs : List Ns) (h : (⟨.getBackends, .ok bs⟩ : Ev) ∈ chatRun.1) : bs = ["n", "o"] := by
  refine lib_backends chat_runs ?_ bs h
  have : chatRun.1.all (fun e => match e.1 with | .setBackends _ => false | _ => true) = true := by decide +kernel
  rw [List.all_eq_true] at this
  intro e he bs hb
  have := this e he
  rw [hb] at this
  cases this

theorem chat_once : BackendsOnce chatRun.1 := fun bs h => by rw [chat_backends bs h]; decide
theorem chat_stay : BackendsStay chatRun.1 := fun bs bs' h h' => by rw [chat_backends bs h, chat_backends bs' h']
theorem chat_addressed : Addressed chatRun.1 := by
  have h := runProg_answers (Lib.env polite) Lib.next 100 (encrypt Mgr.ex ["a"] [("n", [1]), ("o", [1, 2])] none none) World.chat
  exact polite_addressed h

/-- Two keys are handed out in the example. -/
theorem chat_handouts : (chatRun.1.filter fun e => Op.handsOut e.1).length = 2 := by decide +kernel

/-! ### C27 -/

/-- C27: whenever `encrypt` hands key material to a backend for a device, the application's last evaluation of the trust in this device
said trusted. -/
theorem C27_only_trusted (M : Mgr) (jids : List Jid) (pt : Dict Ns Bytes) (prio : Option (List Ns)) (i : Option String)
    (t : List Ev) (r : Res Exn (Dict Message PlainKM × List EncError)) (hdec : CallbackQuiet M.decide)
    (he : Exec (encrypt M jids pt prio i) t r) (hb : BackendsOnce t) :
    Guarded (fun h e => Op.handsOut e.1 = true →
      ∃ dev ns m, HandsOut h e ns dev.bareJid dev.deviceId m ∧ LastEval h dev .trusted) t := by
  intro h1 e h2 ht hh
  rcases (encrypt_run hdec jids pt prio i he hb).phases hdec with hq | ⟨t1, t2, t4, t5, order, devices, cache, infos, out, v1, v2, v3, tm, rfl, hp⟩
  · have := hq e (by rw [ht]; simp)
    revert this hh
    cases e.1 <;> simp [Op.handsOut, Op.encrypts]
  · obtain ⟨_, dev, src, ns, m, hi⟩ := hp.handout hdec ht hh
    exact ⟨dev, ns, m, hi.hands, hi.lastEval⟩

/-- The hypotheses are met by the example run. -/
example : ∃ h e h', chatRun.1 = h ++ e :: h' ∧ Op.handsOut e.1 = true ∧
    ∃ dev ns m, HandsOut h e ns dev.bareJid dev.deviceId m ∧ LastEval h dev .trusted := by
  have hl := chat_handouts
  cases hf : chatRun.1.filter fun e => Op.handsOut e.1 with
  | nil => rw [hf] at hl; cases hl
  | cons e l =>
    have hm : e ∈ chatRun.1.filter fun e => Op.handsOut e.1 := by rw [hf]; simp
    obtain ⟨hm, hh⟩ := List.mem_filter.1 hm
    obtain ⟨h1, h2, ht⟩ := List.append_of_mem hm
    exact ⟨h1, e, h2, ht, hh, C27_only_trusted _ _ _ _ _ _ _ Mgr.ex_quiet chat_exec chat_once h1 e h2 ht hh⟩

/-! ### C30, C31 -/

/-- C30: every device key material is handed out for belongs to one of the given JIDs or the own one, is not this device, and its stored
activity, as loaded during the call, says active for the namespace used. -/
theorem C30_only_recipients (M : Mgr) (jids : List Jid) (pt : Dict Ns Bytes) (prio : Option (List Ns)) (i : Option String)
    (t : List Ev) (r : Res Exn (Dict Message PlainKM × List EncError)) (hdec : CallbackQuiet M.decide)
    (he : Exec (encrypt M jids pt prio i) t r) (hb : BackendsOnce t) :
    Guarded (fun h e => Op.handsOut e.1 = true → ∃ ns j d m, HandsOut h e ns j d m ∧ (j ∈ jids ∨ j = M.ownJid) ∧
      ¬ (j = M.ownJid ∧ d = M.ownDev) ∧
      ∃ active, Loaded h (.devActive j d) (.ofBools active) ∧ active.get ns = some true) t := by
  intro h1 e h2 ht hh
  rcases (encrypt_run hdec jids pt prio i he hb).phases hdec with hq | ⟨t1, t2, t4, t5, order, devices, cache, infos, out, v1, v2, v3, tm, rfl, hp⟩
  · have := hq e (by rw [ht]; simp)
    revert this hh
    cases e.1 <;> simp [Op.handsOut, Op.encrypts]
  · obtain ⟨⟨s, rfl⟩, dev, src, ns, m, hi⟩ := hp.handout hdec ht hh
    obtain ⟨x, hx, hs⟩ := hi.source
    have hj := (hp.prep.recipients.asked x.1).1 ⟨x, hx, rfl⟩
    have hxi := hp.prep.recipients.info x hx
    rw [← hxi.bareJid src hs] at hj
    have hseen := hxi.seen src hs
    obtain ⟨e1, e2, _⟩ := hi.same
    refine ⟨ns, dev.bareJid, dev.deviceId, m, hi.hands, ?_, ?_, src.active, ?_, hi.first.active⟩
    · rw [← e1]
      simpa [setUnion] using hj
    · rw [← e1, ← e2]; exact hi.notOwn
    · rw [← e1, ← e2]; exact List.mem_append_left _ hseen.active

/-- C31: the effective order is the given one, or that of the loaded backends; the namespace used for a device is the first one in
this order among the namespaces loaded for the device with loaded activity true; and nothing was handed out for the device before. -/
theorem C31_priority (M : Mgr) (jids : List Jid) (pt : Dict Ns Bytes) (prio : Option (List Ns)) (i : Option String)
    (t : List Ev) (r : Res Exn (Dict Message PlainKM × List EncError)) (hdec : CallbackQuiet M.decide)
    (he : Exec (encrypt M jids pt prio i) t r) (hb : BackendsOnce t) :
    Guarded (fun h e => Op.handsOut e.1 = true → ∃ ns j d m, HandsOut h e ns j d m ∧
      (∃ bs order l active, h.head? = some ⟨.getBackends, .ok bs⟩ ∧ order = prio.getD bs ∧ (∀ n ∈ order, n ∈ bs) ∧
        Loaded h (.devNamespaces j d) (.ofStrs l) ∧ Loaded h (.devActive j d) (.ofBools active) ∧
        ns ∈ order ∧ ns ∈ l ∧ active.get ns = some true ∧
        ∀ ns' ∈ order, ns' ∈ l → active.get ns' = some true → order.idxOf ns ≤ order.idxOf ns') ∧
      ∀ h' f h'' ns' m', h = h' ++ f :: h'' → ¬ HandsOut h' f ns' j d m') t := by
  intro h1 e h2 ht hh
  rcases (encrypt_run hdec jids pt prio i he hb).phases hdec with hq | ⟨t1, t2, t4, t5, order, devices, cache, infos, out, v1, v2, v3, tm, rfl, hp⟩
  · have := hq e (by rw [ht]; simp)
    revert this hh
    cases e.1 <;> simp [Op.handsOut, Op.encrypts]
  · obtain ⟨⟨s, rfl⟩, dev, src, ns, m, hi⟩ := hp.handout hdec ht hh
    obtain ⟨x, hx, hs⟩ := hi.source
    have hxi := hp.prep.recipients.info x hx
    have hseen := hxi.seen src hs
    obtain ⟨e1, e2, _⟩ := hi.same
    obtain ⟨bs, t0, rfl, ho⟩ := hp.prep.chosen
    obtain ⟨l, hl, hm, _⟩ := hseen.namespaces
    have hord : order = prio.getD bs ∧ ∀ n ∈ order, n ∈ bs := by
      unfold effectiveOrder at ho
      split at ho
      · cases ho; exact ⟨rfl, fun _ h => h⟩
      · split at ho
        · cases ho
        · rename_i hn
          cases ho
          refine ⟨rfl, fun n hn' => ?_⟩
          apply Classical.byContradiction
          intro hnb
          refine hn (List.length_pos_of_mem (a := n) ?_)
          simp [hn', hnb]
    refine ⟨ns, dev.bareJid, dev.deviceId, m, hi.hands, ?_, hi.fresh⟩
    rw [← e1, ← e2]
    refine ⟨bs, order, l, src.active, rfl, hord.1, hord.2, List.mem_append_left _ hl, List.mem_append_left _ hseen.active, hi.first.mem,
      ((hm ns).1 hi.first.namespaces).1, hi.first.active, fun ns' h1 h2 h3 => ?_⟩
    exact hi.first.first ns' h1 ((hm ns').2 ⟨h2, by rw [h3]; rfl⟩) h3

/-! ### C36 -/

/-- C36: the bundle from which `encrypt` builds a session has the identity key for which the trust of the device was evaluated. -/
def C36_Claim : Prop :=
  ∀ (M : Mgr) (jids : List Jid) (pt : Dict Ns Bytes) (prio : Option (List Ns)) (i : Option String) (w w' : World) (t : List Ev)
    (r : Res Exn (Dict Message PlainKM × List EncError)), CallbackQuiet M.decide → BackendsOnce t →
    Exec (encrypt M jids pt prio i) t r → Lib.Runs w t w' →
    Guarded (fun h e => ∀ ns j d b m, e.1 = .buildActive ns j d b m →
      ∃ dev, dev.bareJid = j ∧ dev.deviceId = d ∧ LastEval h dev .trusted ∧ b.identityKey = dev.identityKey) t

/-- C36, the part that holds, if bundles downloaded for a device are labelled with this device: the bundle has the key for which trust was
evaluated, or it was downloaded immediately before.  Missing: in the latter case the code does not compare the keys, see `C36_refuted`. -/
theorem C36_evaluated_key_partial (M : Mgr) (jids : List Jid) (pt : Dict Ns Bytes) (prio : Option (List Ns)) (i : Option String)
    (t : List Ev) (r : Res Exn (Dict Message PlainKM × List EncError)) (hdec : CallbackQuiet M.decide)
    (he : Exec (encrypt M jids pt prio i) t r) (hb : BackendsOnce t)
    (hlab : ∀ ns j d b, (⟨.downloadBundle ns j d, .ok b⟩ : Ev) ∈ t → b.bareJid = j ∧ b.deviceId = d) :
    Guarded (fun h e => ∀ ns j d b m, e.1 = .buildActive ns j d b m →
      ∃ dev, dev.bareJid = j ∧ dev.deviceId = d ∧ LastEval h dev .trusted ∧
        (b.identityKey = dev.identityKey ∨ h.getLast? = some ⟨.downloadBundle ns j d, .ok b⟩)) t := by
  intro h1 e h2 ht ns j d b m hop
  have hh : Op.handsOut e.1 = true := by rw [hop]; rfl
  rcases (encrypt_run hdec jids pt prio i he hb).phases hdec with hq | ⟨t1, t2, t4, t5, order, devices, cache, infos, out, v1, v2, v3, tm, rfl, hp⟩
  · have := hq e (by rw [ht]; simp)
    rw [hop] at this
    cases this
  · obtain ⟨⟨s, rfl⟩, dev, src, ns', m', hi⟩ := hp.handout hdec ht hh
    have hu : ns = ns' ∧ j = dev.bareJid ∧ d = dev.deviceId ∧ m = m' := HandsOut.unique (.inl ⟨b, hop⟩) hi.hands
    obtain ⟨rfl, rfl, rfl, rfl⟩ := hu
    refine ⟨dev, rfl, rfl, hi.lastEval, ?_⟩
    rcases hi.bundle b hop with ⟨hc, _, hbj, hbd⟩ | hl
    · left
      obtain ⟨x', hx', hbx⟩ := (hp.prep.recipients.cache b).1 hc
      obtain ⟨dev', hd', hk, ns'', hdl⟩ := (hp.prep.recipients.info x' hx').cache b hbx
      obtain ⟨x, hx, hs⟩ := hi.source
      obtain ⟨e1, e2, e3⟩ := hi.same
      have hmem : (⟨.downloadBundle ns'' x'.1 dev'.deviceId, .ok b⟩ : Ev) ∈ t1 ++ t2 ++ evals (M.O.iter out) v3 ++ t4 ++ t5 := by
        have : (⟨.downloadBundle ns'' x'.1 dev'.deviceId, .ok b⟩ : Ev) ∈ t1 := hdl
        simp [this]
      obtain ⟨e4, e5⟩ := hlab _ _ _ _ hmem
      have hx1 : x'.1 = x.1 := by
        rw [← e4, hbj, ← e1, (hp.prep.recipients.info x hx).bareJid src hs]
      have hxx : x' = x := inj_of_nodup_map hp.prep.recipients.nodup hx' hx hx1
      subst hxx
      have : dev' = src := inj_of_nodup_map (hp.prep.recipients.info x' hx).nodup hd' hs (by rw [← e5, hbd, e2])
      rw [hk, this, e3]
    · exact .inr hl

/-- Like `polite`, but the server delivers bundles with the key `[66]`, and there are no sessions. -/
def switching : World → (o : Op) → Except Exn o.Ret
  | _, .downloadBundle ns j d => .ok ⟨ns, j, d, [66], 0⟩
  | _, .loadSession .. => .ok none
  | w, o => polite w o

theorem switching_ok (w : World) (o : Op) (e : Exn) (h : switching w o = .error e) : e.isInternal = false := by
  cases o <;> cases h <;> rfl

/-- C36 is false of the code: with the trusted key of device 7 of "a" in storage, a session is built from a bundle with another key. -/
theorem C36_refuted : ¬ C36_Claim := by
  intro h
  let x := runProg (Lib.env switching) Lib.next 100 (encrypt Mgr.ex ["a"] [("n", [1])] (some ["n"]) none) World.chat
  have he : Exec (encrypt Mgr.ex ["a"] [("n", [1])] (some ["n"]) none) x.1 x.2.1 := runProg_exec (Lib.env switching) Lib.next 100 _ World.chat
  have hr : Lib.Runs World.chat x.1 x.2.2 := runProg_runs Lib (Lib.env switching) (Lib.env_ok switching switching_ok) 100 _ World.chat
  have hset : x.1.all (fun e => match e.1 with | .setBackends _ => false | _ => true) = true := by decide +kernel
  have hev : x.1.all (fun e => match e.1 with | .evalTrust dev => decide (dev.identityKey ≠ [66]) | _ => true) = true := by decide +kernel
  have hbu : x.1.any (fun e => match e.1 with | .buildActive _ _ _ b _ => decide (b.identityKey = [66]) | _ => false) = true := by decide +kernel
  generalize x = x at he hr hset hev hbu
  have hb : BackendsOnce x.1 := by
    intro bs hbs
    rw [lib_backends hr ?_ bs hbs]
    · decide
    · rw [List.all_eq_true] at hset
      intro e he bs hb
      have := hset e he
      rw [hb] at this
      cases this
  have hg := h Mgr.ex ["a"] [("n", [1])] (some ["n"]) none World.chat _ _ _ Mgr.ex_quiet hb he hr
  rw [List.any_eq_true] at hbu
  obtain ⟨e, hem, he2⟩ := hbu
  obtain ⟨h1, h2, ht⟩ := List.append_of_mem hem
  split at he2
  · rename_i ns j d b m hop
    obtain ⟨dev, _, _, ⟨u, v, hu, _⟩, hk⟩ := hg h1 e h2 ht ns j d b m hop
    rw [List.all_eq_true] at hev
    have := hev ⟨.evalTrust dev, .ok .trusted⟩ (by rw [ht, hu]; simp)
    simp only [decide_eq_true_eq] at this he2
    rw [← hk] at this
    exact this he2
  · cases he2

/-! ### C37 -/

/-- C37: if the priority order names a namespace that is not loaded, looking at the loaded backends is the only interaction, and
`UnknownNamespace` is raised. -/
theorem C37_unknown_priority (M : Mgr) (jids : List Jid) (pt : Dict Ns Bytes) (l : List Ns) (i : Option String) (bs : List Ns)
    (t : List Ev) (r : Res Exn (Dict Message PlainKM × List EncError)) (he : Exec (encrypt M jids pt (some l) i) (⟨.getBackends, .ok bs⟩ :: t) r)
    (hl : ∃ ns ∈ l, ns ∉ bs) : t = [] ∧ r = .raised .unknownNamespace := by
  have ho : effectiveOrder bs (some l) = .error .unknownNamespace := by
    obtain ⟨ns, h1, h2⟩ := hl
    unfold effectiveOrder
    simp only
    rw [if_pos]
    exact List.length_pos_of_mem (a := ns) (by simp [h1, h2])
  cases he with
  | op _ h =>
    have h : Exec (Prog.bind (liftE (effectiveOrder bs (some l))) _) t r := h
    rw [ho] at h
    cases h
    exact ⟨rfl, rfl⟩

/-- Otherwise it is not raised by the check. -/
example : ∃ t, Exec (encrypt Mgr.ex ["a"] [] (some ["x", "n"]) none) t (.raised .unknownNamespace) ∧ t = [⟨.getBackends, .ok ["n", "o"]⟩] := by
  have he := runProg_exec (Lib.env polite) Lib.next 30 (encrypt Mgr.ex ["a"] [] (some ["x", "n"]) none) World.chat
  exact ⟨_, he, rfl⟩

/-! ### C68 -/

/-- C68: the key material handed to a backend is the one that came with the encryption of the plaintext given for exactly this backend. -/
theorem C68_key_material (M : Mgr) (jids : List Jid) (pt : Dict Ns Bytes) (prio : Option (List Ns)) (i : Option String)
    (t : List Ev) (r : Res Exn (Dict Message PlainKM × List EncError)) (hdec : CallbackQuiet M.decide)
    (he : Exec (encrypt M jids pt prio i) t r) (hb : BackendsOnce t) :
    Guarded (fun h e => Op.handsOut e.1 = true → ∃ ns j d m, HandsOut h e ns j d m ∧
      ∃ p c, pt.get ns = some p ∧ (⟨.encryptPlaintext ns p, .ok (c, m)⟩ : Ev) ∈ h) t := by
  intro h1 e h2 ht hh
  rcases (encrypt_run hdec jids pt prio i he hb).phases hdec with hq | ⟨t1, t2, t4, t5, order, devices, cache, infos, out, v1, v2, v3, tm, rfl, hp⟩
  · have := hq e (by rw [ht]; simp)
    revert this hh
    cases e.1 <;> simp [Op.handsOut, Op.encrypts]
  · obtain ⟨_, dev, src, ns, m, hi⟩ := hp.handout hdec ht hh
    exact ⟨ns, _, _, m, hi.hands, hi.content⟩

end Verif
