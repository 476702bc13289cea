import Verif.Model.Storage
/-
omemo/identity_key_pair.py
-/
namespace Verif

/-- `IdentityKeyPairSeed` (identity_key_pair.py:122-157) and `IdentityKeyPairPriv` (identity_key_pair.py:160-195). -/
inductive IdentityKeyPair where
  | seed (s : Bytes)
  | priv (p : Bytes)
deriving DecidableEq, Repr

/-- `IdentityKeyPairSeed(key) if is_seed else IdentityKeyPairPriv(key)` (identity_key_pair.py:88). -/
def IdentityKeyPair.of (isSeed : Bool) (key : Bytes) : IdentityKeyPair :=
  if isSeed then .seed key else .priv key

/-- The two key derivations of the `xeddsa` library used here (identity_key_pair.py:144, 148, 186): not modelled,
arbitrary functions. -/
structure XEdDSA where
  seedToPriv : Bytes → Bytes
  seedToPub : Bytes → Bytes
  privToPub : Bytes → Bytes

/-- `IdentityKeyPair.as_priv` (identity_key_pair.py:143-144, 181-182). -/
def IdentityKeyPair.asPriv (x : XEdDSA) : IdentityKeyPair → IdentityKeyPair
  | .seed s => .priv (x.seedToPriv s)
  | .priv p => .priv p

/-- `IdentityKeyPair.identity_key` (identity_key_pair.py:146-148, 184-186). -/
def IdentityKeyPair.identityKey (x : XEdDSA) : IdentityKeyPair → Bytes
  | .seed s => x.seedToPub s
  | .priv p => x.privToPub p

/-- `except NothingException` around a block (Python re-raises everything else). -/
def onNothing {α : Type} (p : P α) (h : P α) : P α :=
  p.tryCatch fun e => if e = .nothingException then h else throwE e

/-- The `try` block of `IdentityKeyPair.get` (identity_key_pair.py:67-73). -/
def IdentityKeyPair.load : P (Bool × Bytes) := do
  let isSeed ← Maybe.fromJust (← Sto.loadBool .ikpIsSeed)
  let key ← Maybe.fromJust (← Sto.loadBytes .ikpKey)
  pure (isSeed, key)

/-- The handler in `IdentityKeyPair.get` (identity_key_pair.py:74-84). -/
def IdentityKeyPair.generate : P (Bool × Bytes) := do
  let key ← call (.tokenBytes 32)
  call (.store .ikpIsSeed (.bool true))
  Sto.storeBytes .ikpKey key
  pure (true, key)

/-- `IdentityKeyPair.get` (identity_key_pair.py:46-88). -/
def IdentityKeyPair.get : P IdentityKeyPair := do
  let (isSeed, key) ← onNothing IdentityKeyPair.load IdentityKeyPair.generate
  pure (.of isSeed key)

end Verif
