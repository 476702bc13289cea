import Verif.Proofs.Sample
import Verif.Spec.Life
/-
Lives of accounts for examples.
-/
namespace Verif
open SM Spec

theorem Spec.Life.snoc {own : Jid} {x : XEdDSA} {s s1 s2 : Use} {cs : List (Mgr × Call)} {c : Mgr × Call} (h : Life own x s cs s1)
    (hs : Step own x s1 c s2) : Life own x s (cs ++ [c]) s2 := by
  induction h with
  | nil => exact .cons hs (.nil _)
  | cons h' _ ih => exact .cons h' (ih hs)

/-- Nothing happened yet. -/
def Use.fresh : Use := ⟨World.fresh, []⟩

/-- After the first `create`. -/
def Use.started : Use := ⟨World.started, [Mgr.ex]⟩

theorem fresh_new : New Use.fresh := ⟨nofun, rfl⟩

theorem started_life : Life "me" Mgr.ex.x Use.fresh [(Mgr.ex, .create ["n", "o"] (some "pc") 5)] Use.started := by
  have h := genuineRun_exec (create Mgr.ex ["n", "o"] (some "pc") 5) World.fresh
  have h' : Exec (create Mgr.ex ["n", "o"] (some "pc") 5) firstCreate.1 (.ok 1) := firstCreate_result ▸ h
  exact .cons (Step.create (s := Use.fresh) Mgr.ex ["n", "o"] (some "pc") 5 rfl rfl h' (genuineRun_runs _ _)) (.nil _)

/-- One more call in a deterministic world. -/
def Friendly.use (F : Friendly) (M : Mgr) (c : Call) (s : Use) : Use := ⟨(F.run (c.run M) s.world).2.2, s.mgrs⟩

theorem Friendly.life (F : Friendly) {own : Jid} {x : XEdDSA} {s s1 : Use} {cs : List (Mgr × Call)} (h : Life own x s cs s1) {M : Mgr} {c : Call}
    (hM : M ∈ s1.mgrs) (hc : ∀ bs l f, c ≠ .create bs l f) : Life own x s (cs ++ [(M, c)]) (F.use M c s1) :=
  h.snoc (.call M c hM hc (F.exec _ _) (F.runs _ _))

/-- One more call, in which the process dies after `n` interactions. -/
def Friendly.useCut (F : Friendly) (n : Nat) (M : Mgr) (c : Call) (s : Use) : Use := ⟨(F.cut n (c.run M) s.world).2.2, s.mgrs⟩

theorem Friendly.lifeCut (F : Friendly) (n : Nat) {own : Jid} {x : XEdDSA} {s s1 : Use} {cs : List (Mgr × Call)} (h : Life own x s cs s1) {M : Mgr}
    {c : Call} (hM : M ∈ s1.mgrs) (hc : ∀ bs l f, c ≠ .create bs l f) : Life own x s (cs ++ [(M, c)]) (F.useCut n M c s1) :=
  h.snoc (.call M c hM hc (F.cut_exec n _ _) (F.cut_runs n _ _))

/-- Starting again. -/
def Friendly.again (F : Friendly) (M : Mgr) (bs : List Ns) (label : Option String) (s : Use) : Use :=
  ⟨(F.run (create M bs label 5) s.world).2.2, s.mgrs ++ returned M (F.run (create M bs label 5) s.world).2.1⟩

theorem Friendly.lifeAgain (F : Friendly) {own : Jid} {x : XEdDSA} {s s1 : Use} {cs : List (Mgr × Call)} (h : Life own x s cs s1) {M : Mgr}
    (hj : M.ownJid = own) (hx : M.x = x) (bs : List Ns) (label : Option String) :
    Life own x s (cs ++ [(M, .create bs label 5)]) (F.again M bs label s1) :=
  h.snoc (.create M bs label 5 hj hx (F.exec _ _) (F.runs _ _))

/-- The device 7 of "a" became known. -/
def Use.met : Use := Friendly.genuine.use Mgr.ex (.getDeviceInformation "a") (Friendly.genuine.use Mgr.ex (.updateDeviceList "n" "a" [(7, some "x")]) Use.started)

theorem met_life : Life "me" Mgr.ex.x Use.fresh
    [(Mgr.ex, .create ["n", "o"] (some "pc") 5), (Mgr.ex, .updateDeviceList "n" "a" [(7, some "x")]), (Mgr.ex, .getDeviceInformation "a")] Use.met :=
  Friendly.genuine.life (Friendly.genuine.life started_life (M := Mgr.ex) (c := .updateDeviceList "n" "a" [(7, some "x")]) (by simp [Use.started]) nofun)
    (M := Mgr.ex) (c := .getDeviceInformation "a") (by simp [Friendly.use, Use.started]) nofun

end Verif
