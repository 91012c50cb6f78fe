import Verif.Model.KeyDerive

/-!
# Vocabulary for signing
-/

namespace Verif.Planner
variable {Sec XPrv Msg : Type}

/-- the secret a signer is expected to use: a single secret key is used as it is, an extended one is first derived along the
hint -/
def Spec.secretFor (cr : Crypto Sec XPrv Msg) : DSec Sec XPrv → Path → Option Sec
  | .single k, _ => some k
  | .xprv x, hint => (cr.derivePriv x hint).map cr.secOf

end Verif.Planner
