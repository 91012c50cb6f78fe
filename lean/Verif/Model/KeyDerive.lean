import Verif.Model.Plan

/-!
# Which key can sign for which (bdk_tmp_plan/src/lib.rs:363-419) and signing with a key map (requirements.rs:116-210)
-/

namespace Verif.Planner

/-- master fingerprint and path: `KeySource` and the origin part of a descriptor key -/
abbrev KeySource := Nat × Path

/-- `miniscript::DescriptorPublicKey`: a single public key or an extended key, with an optional origin.  `wildcard` is 0 for
none, so a `DefiniteDescriptorKey` is a value whose wildcard is 0. -/
inductive DPub (Pub XPub : Type) where
  | single (origin : Option KeySource) (key : Pub)
  | xpub (origin : Option KeySource) (xkey : XPub) (deriv : Path) (wildcard : Nat)
deriving DecidableEq, Repr

/-- `miniscript::DescriptorSecretKey`, as far as signing reads it -/
inductive DSec (Sec XPrv : Type) where
  | single (key : Sec)
  | xprv (xkey : XPrv)

/-- `slice.strip_prefix(prefix)` -/
def stripPrefix : Path → Path → Option Path
  | [], l => some l
  | _ :: _, [] => none
  | p :: ps, x :: xs => if p = x then stripPrefix ps xs else none

/-- lib.rs:405-419 `path_to_child` -/
def pathToChild (parent childOrigin : KeySource) (childDerivation : Option Path) : Option Path :=
  if parent.1 = childOrigin.1 then
    match stripPrefix parent.2 childOrigin.2 with
    | none => none
    | some rest => some (rest ++ childDerivation.getD [])
  else none

variable {Pub XPub : Type}

/-- lib.rs:372-381, 391-398: the origin of an extended key, or the key itself as a root.  `fp` is `xkey_fingerprint`. -/
def rootOf (fp : XPub → Nat) (origin : Option KeySource) (xkey : XPub) : KeySource := origin.getD (fp xkey, [])

/-- lib.rs:368-384 `CanDerive for KeySource` -/
def sourceCanDerive (fp : XPub → Nat) (self : KeySource) : DPub Pub XPub → Option Path
  | .single none _ => none
  | .single (some origin) _ => pathToChild self origin none
  | .xpub origin xkey deriv _ => pathToChild self (rootOf fp origin xkey) (some deriv)

/-- lib.rs:386-403 `CanDerive for DescriptorPublicKey` -/
def dpubCanDerive [DecidableEq Pub] [DecidableEq XPub] (fp : XPub → Nat) (self key : DPub Pub XPub) : Option Path :=
  if self = key then some []
  else match self with
    | .xpub origin xkey _ _ => sourceCanDerive fp (rootOf fp origin xkey) key
    | .single _ _ => none

/-- The cryptography that signing calls: bip32 private derivation (it can fail, with negligible probability), the two
signature hashes (they fail for a wrong index or missing prevouts), Schnorr signing with and without the taproot
tweak (the `unwrap` on the tweak is taken to succeed). -/
structure Crypto (Sec XPrv Msg : Type) where
  derivePriv : XPrv → Path → Option XPrv
  secOf : XPrv → Sec
  keySpendHash : Option Msg
  scriptSpendHash : Bytes → Option Msg
  sign : Sec → Msg → Bytes
  signTweaked : Sec → Option Bytes → Msg → Bytes

/-- requirements.rs:87-90 `SigningError` -/
inductive SigningError where
  | sighash
  | derivation
deriving DecidableEq, Repr

variable {Sec XPrv Msg Key Ak : Type}

/-- requirements.rs:148-155, 187-194: the secret key to sign with -/
def signingKey (cr : Crypto Sec XPrv Msg) (s : DSec Sec XPrv) (hint : Path) : Option Sec :=
  match s with
  | .single k => some k
  | .xprv x => (cr.derivePriv x hint).map cr.secOf

/-- `auth_data.schnorr_sigs.insert(key, sig)` -/
def Material.insertSig [DecidableEq Key] (m : Material Key) (k : Key) (s : SchnorrSig) : Material Key :=
  { m with schnorrSigs := fun k' => if k' = k then some s else m.schnorrSigs k' }

/-- requirements.rs:184-208, the loop over the keys of a script spend.  The material is returned in every case, since an
error keeps the signatures already put in. -/
def signKeys [DecidableEq Key] (cr : Crypto Sec XPrv Msg) (keymap : Ak → Option (DSec Sec XPrv)) (hashTy : Nat) (msg : Msg)
    (modified : Bool) (m : Material Key) : List (PlanKey Key Ak) → Material Key × Except SigningError Bool
  | [] => (m, .ok modified)
  | k :: ks =>
    match keymap k.assetKey with
    | none => signKeys cr keymap hashTy msg modified m ks
    | some s =>
      match signingKey cr s k.derivationHint with
      | none => (m, .error .derivation)
      | some sec =>
        signKeys cr keymap hashTy msg true (m.insertSig k.descriptorKey ⟨cr.sign sec msg, hashTy⟩) ks

/-- requirements.rs:117-210 `sign_with_keymap`; `hashTy` is 0 (`Default`) if none is given.  `todo!()` for `Legacy`. -/
def signWithKeymap [DecidableEq Key] (cr : Crypto Sec XPrv Msg) (keymap : Ak → Option (DSec Sec XPrv)) (hashTy : Nat)
    (m : Material Key) : RequiredSignatures Key Ak → Out (Material Key × Except SigningError Bool)
  | .legacy => .panic
  | .tapKey k root =>
    match cr.keySpendHash with
    | none => .ret (m, .error .sighash)
    | some msg =>
      match keymap k.assetKey with
      | none => .ret (m, .ok false)
      | some s =>
        match signingKey cr s k.derivationHint with
        | none => .ret (m, .error .derivation)
        | some sec => .ret (m.insertSig k.descriptorKey ⟨cr.signTweaked sec root msg, hashTy⟩, .ok true)
  | .tapScript leaf ks =>
    match cr.scriptSpendHash leaf with
    | none => .ret (m, .error .sighash)
    | some msg => .ret (signKeys cr keymap hashTy msg false m ks)

end Verif.Planner
