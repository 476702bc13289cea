import Verif.Props.DecryptAfter
/-
A genuine life of the library, used by examples and refutations: the state after the first `create` in a friendly world.
-/
namespace Verif
open SM

deriving instance DecidableEq for Res

/-- Nothing is stored, nothing is loaded. -/
def World.fresh : World := ⟨fun _ => none, [], false, []⟩

/-- Everything works; the first random number is 0; servers have empty device lists. -/
def genuine : World → (o : Op) → Except Exn o.Ret
  | _, .tokenBytes _ => .ok [1, 2, 3]
  | _, .randBelow _ => .ok 0
  | _, .downloadList _ _ => .ok []
  | _, .uploadList _ _ => .ok ()
  | _, .generatePreKeys _ _ => .ok ()
  | _, .numVisible _ => .ok 100
  | _, .getBundle ns j d => .ok ⟨ns, j, d, [1, 2, 3], 0⟩
  | _, .uploadBundle _ => .ok ()
  | _, .deleteBundle _ _ => .ok ()
  | _, .downloadBundle ns j d => .ok ⟨ns, j, d, [UInt8.ofNat d.toNat], 0⟩
  | _, .purge _ => .ok ()
  | _, .purgeJid _ _ => .ok ()
  | _, .loadSession ns j d => .ok (some (⟨ns, j, d, .active, true, ⟨[0], 0⟩, some 1, 4, 0⟩))
  | _, .storeSession _ _ => .ok ()
  | _, .encryptEmpty _ => .ok (⟨true, 0⟩, ⟨0⟩)
  | _, .buildActive ns j d b m => .ok (⟨ns, j, d, .active, false, ⟨b.identityKey, 0⟩, none, 1, 0⟩, ⟨j, d, m.blob⟩)
  | _, .encryptKM _ s m => .ok (⟨s.bareJid, s.deviceId, m.blob⟩, { s with sendingChainLength := s.sendingChainLength + 1 })
  | _, .sendMessage m _ => if m.ns = "o" then .error .messageSendingFailed else .ok ()
  | _, .deleteHidden _ => .ok ()
  | _, _ => .error (.app 0)

theorem genuine_ok (w : World) (o : Op) (e : Exn) (h : genuine w o = .error e) : e.isInternal = false := by
  cases o <;> first
    | (cases h; done)
    | (cases h; rfl)
    | (simp only [genuine] at h; split at h <;> cases h; rfl)

/-- A run in the friendly world. -/
def genuineRun {α : Type} (p : P α) (w : World) := runProg (Lib.env genuine) Lib.next 400 p w

theorem genuineRun_exec {α : Type} (p : P α) (w : World) : Exec p (genuineRun p w).1 (genuineRun p w).2.1 := runProg_exec ..
theorem genuineRun_runs {α : Type} (p : P α) (w : World) : Lib.Runs w (genuineRun p w).1 (genuineRun p w).2.2 :=
  runProg_runs Lib (Lib.env genuine) (Lib.env_ok genuine genuine_ok) 400 p w

/-- The first `create`. -/
def firstCreate := genuineRun (create Mgr.ex ["n", "o"] (some "pc") 5) World.fresh

theorem firstCreate_result : firstCreate.2.1 = .ok 1 := by decide +kernel

/-- The state after it. -/
def World.started : World := firstCreate.2.2

theorem World.started_hist : Hist Lib World.fresh [(Mgr.ex, .create ["n", "o"] (some "pc") 5)] World.started := by
  have he : Exec ((Call.create ["n", "o"] (some "pc") 5).run Mgr.ex) firstCreate.1 (.ok ()) := by
    have h := genuineRun_exec (create Mgr.ex ["n", "o"] (some "pc") 5) World.fresh
    have h' : Exec (create Mgr.ex ["n", "o"] (some "pc") 5) firstCreate.1 (.ok 1) := firstCreate_result ▸ h
    exact exec_seq_ok.2 ⟨_, _, [], by simp, h', .ret _⟩
  exact .cons he (genuineRun_runs _ _) (.nil _)

/-- One more call. -/
theorem Hist.snoc {W : Type} {N : Sem LibSig Exn W} {w w1 w2 : W} {cs : List (Mgr × Call)} (h : Hist N w cs w1) {M : Mgr} {c : Call} {t : List Ev}
    {r : Res Exn Unit} (he : Exec (c.run M) t r) (hr : N.Runs w1 t w2) : Hist N w (cs ++ [(M, c)]) w2 := by
  induction h with
  | nil => exact .cons he hr (.nil _)
  | cons he' hr' _ ih => exact .cons he' hr' (ih hr)

/-- A deterministic world. -/
structure Friendly where
  answer : World → (o : Op) → Except Exn o.Ret
  ok : ∀ w o e, answer w o = .error e → e.isInternal = false

/-- A run in it. -/
def Friendly.run (F : Friendly) {α : Type} (p : P α) (w : World) := runProg (Lib.env F.answer) Lib.next 1000 p w

theorem Friendly.exec (F : Friendly) {α : Type} (p : P α) (w : World) : Exec p (F.run p w).1 (F.run p w).2.1 := runProg_exec ..
theorem Friendly.runs (F : Friendly) {α : Type} (p : P α) (w : World) : Lib.Runs w (F.run p w).1 (F.run p w).2.2 :=
  runProg_runs Lib (Lib.env F.answer) (Lib.env_ok F.answer F.ok) 1000 p w

theorem Friendly.hist (F : Friendly) {w w1 : World} {cs : List (Mgr × Call)} (h : Hist Lib w cs w1) (M : Mgr) (c : Call) :
    Hist Lib w (cs ++ [(M, c)]) (F.run (c.run M) w1).2.2 := h.snoc (F.exec _ _) (F.runs _ _)

/-- A run in it in which the process dies after `n` interactions. -/
def Friendly.cut (F : Friendly) (n : Nat) {α : Type} (p : P α) (w : World) := runProg (Lib.env F.answer) Lib.next n p w

theorem Friendly.cut_exec (F : Friendly) (n : Nat) {α : Type} (p : P α) (w : World) : Exec p (F.cut n p w).1 (F.cut n p w).2.1 := runProg_exec ..
theorem Friendly.cut_runs (F : Friendly) (n : Nat) {α : Type} (p : P α) (w : World) : Lib.Runs w (F.cut n p w).1 (F.cut n p w).2.2 :=
  runProg_runs Lib (Lib.env F.answer) (Lib.env_ok F.answer F.ok) n p w

theorem Friendly.cut_hist (F : Friendly) (n : Nat) {w w1 : World} {cs : List (Mgr × Call)} (h : Hist Lib w cs w1) (M : Mgr) (c : Call) :
    Hist Lib w (cs ++ [(M, c)]) (F.cut n (c.run M) w1).2.2 := h.snoc (F.cut_exec n _ _) (F.cut_runs n _ _)

/-- The friendly world. -/
def Friendly.genuine : Friendly := ⟨Verif.genuine, genuine_ok⟩

end Verif
