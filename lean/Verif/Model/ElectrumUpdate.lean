import Verif.Model.Electrum
import Verif.Model.Tracker

/-!
# Model of the conversion of an electrum update to a wallet update (bdk_electrum/src/lib.rs, bdk_electrum_example)
-/

namespace Verif.Electrum
open Verif

variable {K : Type} [LinearOrder K] {P T : Type} [LinearOrder P] [ChainPosition P] [AsTransaction T] [LinearOrder T]

/-- bdk_electrum/src/lib.rs:252-267 `into_keychain_scan` (`Cow<T>` is `T`) -/
def ElectrumUpdate.intoKeychainScan (e : ElectrumUpdate K P) (newTxs : List T) (cg : ChainGraph P T) (so : SpendOrder) :
    Except (NewError P) (KeychainScan K P T) :=
  match cg.inflateUpdate e.chainUpdate newTxs so with
  | .ok u => .ok ⟨u, e.lastActive⟩
  | .error err => .error err

/-- bdk_electrum_example/src/main.rs:232-240: `batch_transaction_get` of the missing transactions (one request), then
`into_keychain_scan`; `none` is an error of the client -/
def ElectrumUpdate.fetch (e : ElectrumUpdate K P) (cg : ChainGraph P T) (get : Txid → Option T) : Option (List T) :=
  (e.missingFullTxs cg.graph).mapM get

end Verif.Electrum
