import Verif.Props.KeySecrecy
import Verif.Wrong.Basics
/-
Wrong programs that hand out the secret part of the identity key or replace it, and the claims that reject them (C09, C111).  See Wrong/Encrypt.lean for the method.
-/
namespace Verif
namespace Wrong
open SM Spec

/-- C111 for a program in place of a call. -/
def C111 (run : Mgr → Call → P Unit) : Prop :=
  ∀ (M : Mgr) (c : Call) (σ : Bytes → Bytes), SamePublic M.x σ →
    ((∃ a b d e, c = .encrypt a b d e) → ∀ ds i t r, Exec (M.decide ds i) t r → ∀ e ∈ t, Op.keyless e.1 = true) → ∀ t r, Exec (run M c) t r →
    ∃ t', Exec (run M c) t' r ∧ Along (OtherKey σ) t t'

theorem C111_real : C111 fun M c => c.run M := fun M c σ hσ hd _ _ he => C111_secret M c σ hσ hd he

/-- After the same answers, a program does the same. -/
theorem exec_next {α : Type} : ∀ {p : P α} {u : List Ev} {e e' : Ev} {v v' : List Ev} {r r' : Res Exn α},
    Exec p (u ++ e :: v) r → Exec p (u ++ e' :: v') r' → e.1 = e'.1
  | _, [], _, _, _, _, _, _, .op _ _, .op _ _ => rfl
  | _, _ :: _, _, _, _, _, _, _, .op _ h, .op _ h' => exec_next h h'

/-- What is done with a key pair that was obtained. -/
def handling (f : Mgr → IdentityKeyPair → P Unit) (M : Mgr) : Call → P Unit
  | .getIdentityKeyPair => do
    let kp ← IdentityKeyPair.get
    f M kp
  | c => c.run M

/-- The answers of the storage, with this secret. -/
def asked (k : Bytes) : List Ev := [⟨.load .ikpIsSeed, .ok (some (.bool true))⟩, ⟨.load .ikpKey, .ok (some (.str (Base64.encode k)))⟩]

/-- What follows once the key pair is known. -/
theorem handling_exec {f : Mgr → IdentityKeyPair → P Unit} {M : Mgr} {k : Bytes} {t : List Ev} {r} (h : Exec (f M (.seed k)) t r) :
    Exec (handling f M .getIdentityKeyPair) (asked k ++ t) r := by
  refine .op _ (.op _ ?_)
  simp only [Prog.bind, Maybe.fmap, checkBytes, Base64.decode_encode]
  exact h

theorem other_same {σ : Bytes → Bytes} {e e' : Ev} (h : OtherKey σ e e') (hk : Op.keyless e.1 = true) : e' = e := by
  cases h <;> first | rfl | cases hk

theorem other_loaded {σ : Bytes → Bytes} {v : JVal} {s : Bytes} {e' : Ev} (h : OtherKey σ ⟨.load .ikpKey, .ok (some v)⟩ e') (hv : checkBytes v = .ok s) :
    e' = ⟨.load .ikpKey, .ok (some (.str (Base64.encode (σ s))))⟩ := by
  cases h with
  | same _ hk => cases hk
  | malformed _ _ h' => rw [hv] at h'; cases h'
  | loaded _ s' h' => rw [hv] at h'; cases h'; rfl

theorem C111_not {f : Mgr → IdentityKeyPair → P Unit} (g : Bytes → Op) (hf : ∀ s, ∃ t r, Exec (f Mgr.exPublic (.seed s)) (⟨g s, .error (.app 0)⟩ :: t) r)
    (hk : ∀ s, Op.keyless (g s) = true) (hg : g [1, 2, 3] ≠ g [9, 2, 3]) : ¬ C111 (handling f) := by
  intro hc
  obtain ⟨t, r, h1⟩ := hf [1, 2, 3]
  obtain ⟨u, x, h2⟩ := hf [9, 2, 3]
  obtain ⟨t', h3, h4⟩ := hc Mgr.exPublic .getIdentityKeyPair otherFirst (fun s => by cases s <;> exact ⟨rfl, rfl⟩) (fun ⟨_, _, _, _, h⟩ => by cases h) _ _ (handling_exec h1)
  cases h4 with
  | cons a h4 =>
    cases h4 with
    | cons b h4 =>
      cases h4 with
      | cons c _ =>
        cases other_same a rfl
        cases other_loaded (s := [1, 2, 3]) b (by simp only [checkBytes, Base64.decode_encode])
        cases other_same c (hk _)
        exact hg (exec_next (u := asked [9, 2, 3]) h3 (handling_exec h2))

/-- The secret is stored as the public key of the own device (sm:395-398: the wrong attribute). -/
def secretForPublic (M : Mgr) (kp : IdentityKeyPair) : P Unit :=
  Sto.storeBytes (.devIdentityKey M.ownJid M.ownDev) (match kp with | .seed s => s | .priv p => p)

/-- The secret is part of a bundle that is uploaded. -/
def candid (M : Mgr) (kp : IdentityKeyPair) : P Unit :=
  call (.uploadBundle ⟨"n", M.ownJid, M.ownDev, (match kp with | .seed s => s | .priv p => p), 0⟩)

theorem C111_secretForPublic : ¬ C111 (handling secretForPublic) :=
  C111_not (fun s => .store (.devIdentityKey "me" 1) (.str (Base64.encode s))) (fun _ => ⟨_, _, .op _ (.raise _)⟩) (fun _ => rfl)
    (fun h => by
      have h : Base64.encode [1, 2, 3] = Base64.encode [9, 2, 3] := by injection h with _ h; injection h
      exact absurd h (by decide +kernel))

theorem C111_candid : ¬ C111 (handling candid) :=
  C111_not (fun s => .uploadBundle ⟨"n", "me", 1, s, 0⟩) (fun _ => ⟨_, _, .op _ (.raise _)⟩) (fun _ => rfl) (fun h => by injection h with h; injection h with _ _ _ h; cases h)

/-! ### C09: several calls at a time, once a pair is stored -/

/-- C09, what holds of it, for a program. -/
def C09 (get : P IdentityKeyPair) : Prop :=
  ∀ (m m' : Disk) (kp : IdentityKeyPair), Spec.HoldsIkp m kp → ∀ runs : List (List Ev × Res Exn IdentityKeyPair), (∀ x ∈ runs, Exec get x.1 x.2) →
    ∀ t : List Ev, Shuffle (runs.map (·.1)) t → KV.Runs m t m' → m' = m ∧ ∀ x ∈ runs, ∀ kp', x.2 = .ok kp' → kp' = kp

theorem C09_real : C09 IdentityKeyPair.get := fun _ _ _ h runs hex _ hs hr => C09_concurrent_stored_partial h runs hex hs hr

theorem shuffle_alone {α : Type} : ∀ t : List α, Shuffle [t] t
  | [] => .nil (by simp)
  | e :: t => .cons (pre := []) (post := []) (e := e) (shuffle_alone t)

/-- A private key is stored. -/
def holding : Disk := fun k => match k with
  | .ikpKey => some (.str (Base64.encode [5]))
  | .ikpIsSeed => some (.bool false)
  | _ => none

/-- Whatever is stored, a key pair is generated (identity_key_pair.py:67-73 forgotten). -/
def renewing : P IdentityKeyPair := do
  let (isSeed, key) ← IdentityKeyPair.generate
  pure (.of isSeed key)

/-- Only seeds are taken from storage; a private key is replaced by a new seed. -/
def seedsOnly : P IdentityKeyPair := do
  let kp ← IdentityKeyPair.get
  match kp with
  | .seed s => pure (.seed s)
  | .priv _ => renewing

/-- The flag is not looked at (identity_key_pair.py:88: always a seed). -/
def flagless : P IdentityKeyPair := do
  let (_, key) ← onNothing IdentityKeyPair.load IdentityKeyPair.generate
  pure (.seed key)

theorem C09_not {get : P IdentityKeyPair} (h : (match (mapTrial get holding).2.1 with | .ok kp => decide (kp ≠ .priv [5]) | _ => false) = true) : ¬ C09 get := by
  intro hc
  have h' := (hc holding _ (.priv [5]) ⟨_, rfl, rfl, Base64.decode_encode _⟩ [((mapTrial get holding).1, (mapTrial get holding).2.1)]
    (fun x hx => by cases List.mem_singleton.1 hx; exact mapTrial_exec get holding) _ (shuffle_alone _) (mapTrial_runs get holding)).2 _ (.head _)
  revert h h'
  generalize (mapTrial get holding).2.1 = r
  intro h h'
  match r, h, h' with
  | .ok kp, h, h' => exact of_decide_eq_true h (h' kp rfl)

theorem C09_renewing : ¬ C09 renewing := C09_not (by decide +kernel)
theorem C09_seedsOnly : ¬ C09 seedsOnly := C09_not (by decide +kernel)
theorem C09_flagless : ¬ C09 flagless := C09_not (by decide +kernel)

end Wrong
end Verif
