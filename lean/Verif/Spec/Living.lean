import Verif.Spec.Process
import Verif.Spec.SyncElectrum

/-!
# Specification vocabulary for example wallets that live with honest servers, through restarts and crashes

`Verif.Spec.Sync` has the life of a wallet in memory, `Verif.Spec.Process` has runs of a program on the bytes of a file, whatever
the server says.  Here a wallet lives on its file: each command is a new run of the program, which may die anywhere.
-/

namespace Verif.Spec
open Verif Verif.Cli Verif.Sync KeychainStore DescriptorOps
variable {D Key Ak Sec XPrv Msg T P : Type} [DescriptorOps D] [LinearOrder P] [ChainPosition P] [LinearOrder T] [AsTransaction T]
  [DecidableEq Key]

/-- commands that ask no server (the server may be asked to broadcast) -/
def OfOwner : Command P T → Prop
  | .print | .address _ | .send .. => True
  | .syncElectrum .. | .syncEsplora .. => False

/-- What a `Scan` or `Sync` of the esplora example has in hand when it is about to change the wallet `t`: an honest server has shown
it the moment `v'` of the world, `v` being the moment of the last command that is in the file. -/
inductive EsploraFetch (t : Tracker Keychain D ConfirmationTime T) (v : View ConfirmationTime T) :
    View ConfirmationTime T → Command ConfirmationTime T → Prop where
  | scan (s : Esplora.Server T) (w) (o o' : Orders ConfirmationTime T) (gap par fuel n time : Nat) (sc) : s.Shows w → Later t v w →
      (∀ spk, (w.confirmed spk).length ≤ fuel) →
      Esplora.scan s o t.chainGraph.chain.checkpoints par fuel (n + 1) Keychain (spksOfAllKeychains t.txoutIndex) [] [] gap time = .ok sc →
      EsploraFetch t v (viewOf w) (.syncEsplora sc o')
  | sync (s : Esplora.Server T) (w) (o o' : Orders ConfirmationTime T) (so : SpendOrder) (f : Flags) (par fuel n time : Nat) (spks txids u) :
      s.Shows w → Later t v w → (∀ spk, (w.confirmed spk).length ≤ fuel) → syncSpks t f.resolve = some spks → spks.length ≤ u64Max →
      syncTxids t f.resolve = some txids →
      Esplora.scanWithoutKeychain s o t.chainGraph.chain.checkpoints spks txids (syncOutpoints t so f.resolve) par fuel (n + 1) time = .ok u →
      EsploraFetch t v (viewOf w) (.syncEsplora (scanOfGraph u) o')

/-- the same for the electrum example -/
inductive ElectrumFetch (t : Tracker Keychain D TxHeight T) (v : View TxHeight T) : View TxHeight T → Command TxHeight T → Prop where
  | scan (s : Electrum.Server) (get : Txid → Option T) (w v') (ho : Electrum.Order) (so : SpendOrder) (o : Orders TxHeight T)
      (gap bs n time : Nat) (e txs sc) : ShowsView s get w v' → Follows t v v' → 0 < bs →
      Electrum.scan s ho t.chainGraph.chain.checkpoints (spksOfAllKeychains t.txoutIndex) [] [] gap bs (n + 1) time = .ok e →
      e.fetch t.chainGraph get = some txs → e.intoKeychainScan txs t.chainGraph so = .ok sc → ElectrumFetch t v v' (.syncElectrum sc o)
  | sync (s : Electrum.Server) (get : Txid → Option T) (w v') (ho : Electrum.Order) (so so' : SpendOrder) (o : Orders TxHeight T) (f : Flags)
      (bs n time : Nat) (spks txids e txs sc) : ShowsView s get w v' → Follows t v v' → 0 < bs → syncSpks t f.resolve = some spks →
      spks.length ≤ u64Max → syncTxids t f.resolve = some txids →
      updateOfChain (Electrum.scanWithoutKeychain s ho t.chainGraph.chain.checkpoints spks txids (syncOutpoints t so f.resolve) bs (n + 1)
        time) = .ok e →
      e.fetch t.chainGraph get = some txs → e.intoKeychainScan txs t.chainGraph so' = .ok sc → ElectrumFetch t v v' (.syncElectrum sc o)

/-- the changesets in the file -/
def changesetsIn (cd : Codec (KeychainChangeSet Keychain P T)) (disk : Option Bytes) : Option (List (KeychainChangeSet Keychain P T)) :=
  (found cd disk).map Prod.fst

/-- a run that found something unreadable at the end of the file does not die, or fail, in its own first write -/
def NoDoubleFault (e : Option IterError) (es : List (Event P T)) : Prop :=
  e ≠ none → ∀ pre c post, es = pre ++ .storeFailed c :: post → diskOf pre ≠ []

/-- The life of a wallet of one of the example programs, on its file.  It starts without a file.  Each step is one run of the program:
a run that dies while it creates the file; a start that goes no further; a command of the owner; a command that an honest server
answers.  A command may end in any way: the program may die before, in the middle of, or after any of its writes, and a write may
fail.  `v` is the moment of the last command whose changes are in the file. -/
inductive Lived [DecidableEq D] (Fetch : Tracker Keychain D P T → View P T → View P T → Command P T → Prop)
    (env : Env D Key Ak Sec XPrv Msg T) (cd : Codec (KeychainChangeSet Keychain P T)) (dom : KeychainChangeSet Keychain P T → Prop)
    (cp : Nat) (external : D) (internal : Option D) : Option Bytes → View P T → Prop where
  | new {v} : v.Sound → Lived Fetch env cd dom cp external internal none v
  | creating {v} (k : Nat) : Lived Fetch env cd dom cp external internal none v →
      Lived Fetch env cd dom cp external internal (some (crashInCreate k)) v
  | stopped {disk disk' v} (s : Started D P T) : Lived Fetch env cd dom cp external internal disk v →
      start cd cp external internal disk = (disk', s) → Lived Fetch env cd dom cp external internal disk' v
  | owner {disk disk' v es} (t : Tracker Keychain D P T) (e : Option IterError) (f f' : KeychainStore) (cmd : Command P T) (ok1 ok2 : Bool) :
      Lived Fetch env cd dom cp external internal disk v → start cd cp external internal disk = (disk', .running t e f) → OfOwner cmd →
      Cut (runCommand env t cmd ok1 ok2).1 es → Effects cd f es f' → NoDoubleFault e es →
      (∀ c, Event.stored c ∈ es ∨ Event.storeFailed c ∈ es → dom c) → Lived Fetch env cd dom cp external internal (some f'.bytes) v
  | fetched {disk disk' v v' es} (t : Tracker Keychain D P T) (e : Option IterError) (f f' : KeychainStore) (cmd : Command P T)
      (ok1 ok2 : Bool) (v'' : View P T) :
      Lived Fetch env cd dom cp external internal disk v → start cd cp external internal disk = (disk', .running t e f) → Fetch t v v' cmd →
      Cut (runCommand env t cmd ok1 ok2).1 es → Effects cd f es f' → NoDoubleFault e es →
      (∀ c, Event.stored c ∈ es ∨ Event.storeFailed c ∈ es → dom c) →
      (v'' = v' ∧ (changesetsIn cd (some f'.bytes) ≠ changesetsIn cd disk ∨ es = (runCommand env t cmd true true).1) ∨
        v'' = v ∧ changesetsIn cd (some f'.bytes) = changesetsIn cd disk) →
      Lived Fetch env cd dom cp external internal (some f'.bytes) v''

end Verif.Spec
