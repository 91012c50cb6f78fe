import Verif.Model.Cli
import Verif.Model.MachineIndex

/-!
# The commands of bdk_cli_lib that only print

`Balance`, `Txout list`, `Address list` and `Address index`.  They take the lock of the tracker and change nothing.  What a command prints is
a list of lines; `Address::from_script` is a parameter (`addr`, `none` = the script has no address), and so is the iteration order of
the hash sets (`so`).
-/

namespace Verif.Cli
variable {K D P T A : Type} [LinearOrder K] [DescriptorOps D] [LinearOrder P] [ChainPosition P] [AsTransaction T]

/-- `for x in list { … unwrap() …; println!(…) }`: the lines printed, and whether the loop got to its end (`false`: it panicked at a
line that could not be made, the lines before it have been printed) -/
def printAll {α β : Type} (line : α → Option β) : List α → List β × Bool
  | [] => ([], true)
  | x :: l => match line x with
    | none => ([], false)
    | some y => let r := printAll line l; (y :: r.1, r.2)

/-- bdk_cli_lib/src/lib.rs:247-252, the closure of the `fold` -/
def balanceCmdStep (b : Build) (s : Nat × Nat) (e : (K × Nat) × FullTxOut P) : Option (Nat × Nat) :=
  if (ChainPosition.height e.2.chainPosition).isConfirmed then
    (b.unsigned 64 ((s.1 : Int) + e.2.txout.value)).map fun c => (c, s.2)
  else
    (b.unsigned 64 ((s.2 : Int) + e.2.txout.value)).map fun u => (s.1, u)

/-- lib.rs:242-257 `run_balance_cmd`: the two numbers printed, `confirmed` and `unconfirmed`; `none` = panic -/
def runBalanceCmd (b : Build) (t : Tracker K D P T) (so : SpendOrder) : Option (Nat × Nat) :=
  (t.fullUtxos so).foldlM (balanceCmdStep b) (0, 0)

/-- lib.rs:143-159 `TxOutCmd::List` -/
structure TxoFlags where
  unspent : Bool
  spent : Bool
  confirmed : Bool
  unconfirmed : Bool
deriving DecidableEq, Repr

/-- lib.rs:298-305 one line of the listing -/
structure TxoLine (K P A : Type) where
  index : K × Nat
  value : Nat
  outpoint : OutPoint
  address : A
  spentBy : Option (P × Txid)

/-- lib.rs:272-281 the first choice -/
def txoChosen (t : Tracker K D P T) (so : SpendOrder) (f : TxoFlags) : List ((K × Nat) × FullTxOut P) :=
  match f.unspent, f.spent with
  | true, false => t.fullUtxos so
  | false, true => (t.fullTxouts so).filter fun e => e.2.spentBy.isSome
  | _, _ => t.fullTxouts so

/-- lib.rs:283-292 the second -/
def txoListed (t : Tracker K D P T) (so : SpendOrder) (f : TxoFlags) : List ((K × Nat) × FullTxOut P) :=
  match f.confirmed, f.unconfirmed with
  | true, false => (txoChosen t so f).filter fun e => (ChainPosition.height e.2.chainPosition).isConfirmed
  | false, true => (txoChosen t so f).filter fun e => !(ChainPosition.height e.2.chainPosition).isConfirmed
  | _, _ => txoChosen t so f

/-- lib.rs:259-309 `run_txo_cmd` -/
def runTxoCmd (addr : Script → Option A) (t : Tracker K D P T) (so : SpendOrder) (f : TxoFlags) : List (TxoLine K P A) × Bool :=
  printAll (fun e => (addr e.2.txout.spk).map fun a => ⟨e.1, e.2.txout.value, e.2.outpoint, a, e.2.spentBy⟩) (txoListed t so f)

/-- lib.rs:222-238 `AddressCmd::List`: index, address, used; `none` = panic before anything is printed -/
def runAddressList (b : Build) (addr : Script → Option A) (t : Tracker Keychain D P T) (change : Bool) :
    Option (List (Nat × A × Bool) × Bool) :=
  let k := if change then Keychain.internal else Keychain.external
  (t.txoutIndex.revealedSpksOfKeychainM b k).map fun l =>
    printAll (fun e => (addr e.2).map fun a => (e.1, a, t.txoutIndex.inner.isUsed (toLex (k, e.1)))) l

/-- lib.rs:216-221 `AddressCmd::Index`, with txout_index.rs:330-332 `last_revealed_indices` -/
def runAddressIndex (t : Tracker Keychain D P T) : List (Keychain × Nat) := t.txoutIndex.lastRevealed.entries

/-- bdk_cli_lib/src/lib.rs:89-103 `impl FromStr for CoinSelectionAlgo` (`none` = the error "unknown coin selection algorithm") -/
def Algo.ofString (s : String) : Option Algo :=
  match s with
  | "largest-first" => some .largestFirst
  | "smallest-first" => some .smallestFirst
  | "oldest-first" => some .oldestFirst
  | "newest-first" => some .newestFirst
  | "bnb" => some .branchAndBound
  | _ => none

/-- bdk_cli_lib/src/lib.rs:105-120 `impl Display for CoinSelectionAlgo` -/
def Algo.display : Algo → String
  | .largestFirst => "largest-first"
  | .smallestFirst => "smallest-first"
  | .oldestFirst => "oldest-first"
  | .newestFirst => "newest-first"
  | .branchAndBound => "bnb"

end Verif.Cli
