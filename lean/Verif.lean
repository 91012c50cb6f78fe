import Verif.Base.OMap
import Verif.Base.Types
import Verif.Model.SparseChain
import Verif.Lemmas.SparseChain
import Verif.Lemmas.SparseChain2
import Verif.Lemmas.SparseChain3
import Verif.Props.SparseChain
import Verif.Model.TxGraph
import Verif.Spec.KeyDerive
import Verif.Spec.TxGraph
import Verif.Lemmas.TxGraph
import Verif.Lemmas.Walk
import Verif.Props.Demo
import Verif.Props.TxGraph
import Verif.Model.ChainGraph
import Verif.Spec.ChainGraph
import Verif.Lemmas.ChainGraph
import Verif.Lemmas.ChainGraph2
import Verif.Props.ChainGraph
import Verif.Model.SpkIndex
import Verif.Spec.SpkIndex
import Verif.Lemmas.SpkIndex
import Verif.Lemmas.SpkIndex2
import Verif.Props.SpkIndex
import Verif.Model.KeychainIndex
import Verif.Model.KeychainAll
import Verif.Spec.KeychainIndex
import Verif.Lemmas.KeychainIndex
import Verif.Lemmas.KeychainIndex2
import Verif.Lemmas.KeychainIndex3
import Verif.Lemmas.KeychainIndex4
import Verif.Props.KeychainIndex
import Verif.Props.KeychainListing
import Verif.Model.Tracker
import Verif.Spec.Tracker
import Verif.Lemmas.Tracker
import Verif.Props.Tracker
import Verif.Model.Persist
import Verif.Model.Codec
import Verif.Model.FileStore
import Verif.Spec.FileStore
import Verif.Lemmas.Codec
import Verif.Lemmas.FileStore
import Verif.Props.Persist
import Verif.Props.FileStore
import Verif.Model.CoinSelect
import Verif.Model.Bnb
import Verif.Spec.CoinSelect
import Verif.Lemmas.CoinSelect
import Verif.Lemmas.Bnb
import Verif.Lemmas.Bnb2
import Verif.Props.CoinSelect
import Verif.Props.Bnb
import Verif.Model.Electrum
import Verif.Spec.Electrum
import Verif.Lemmas.Electrum
import Verif.Lemmas.Electrum2
import Verif.Lemmas.Electrum3
import Verif.Lemmas.Electrum4
import Verif.Props.Electrum
import Verif.Model.ElectrumUpdate
import Verif.Props.ElectrumUpdate
import Verif.Model.Plan
import Verif.Model.KeyDerive
import Verif.Spec.Miniscript
import Verif.Lemmas.Plan
import Verif.Lemmas.Plan2
import Verif.Lemmas.Plan3
import Verif.Lemmas.Plan4
import Verif.Lemmas.Plan5
import Verif.Props.Plan
import Verif.Props.PlanWeight
import Verif.Props.KeyDerive
import Verif.Props.Accessors
import Verif.Model.Cli
import Verif.Spec.Cli
import Verif.Lemmas.Cli
import Verif.Lemmas.Cli2
import Verif.Lemmas.Cli3
import Verif.Props.Cli
import Verif.Props.CreateTx
import Verif.Model.Esplora
import Verif.Spec.Esplora
import Verif.Lemmas.Esplora
import Verif.Lemmas.Esplora2
import Verif.Lemmas.Esplora3
import Verif.Lemmas.Esplora4
import Verif.Lemmas.Esplora5
import Verif.Lemmas.Esplora6
import Verif.Lemmas.Esplora7
import Verif.Lemmas.Esplora8
import Verif.Lemmas.Esplora9
import Verif.Props.Esplora
import Verif.Model.Sync
import Verif.Spec.Sync
import Verif.Lemmas.Sync
import Verif.Lemmas.Sync2
import Verif.Lemmas.Sync3
import Verif.Lemmas.Sync4
import Verif.Lemmas.Sync5
import Verif.Lemmas.Sync6
import Verif.Lemmas.Sync7
import Verif.Lemmas.Sync8
import Verif.Props.SyncDemo
import Verif.Props.Sync
import Verif.Model.SyncElectrum
import Verif.Spec.SyncElectrum
import Verif.Lemmas.SyncElectrum
import Verif.Lemmas.SyncElectrum2
import Verif.Lemmas.SyncElectrum3
import Verif.Props.SyncElectrum
import Verif.Props.SyncElectrum2
import Verif.Lemmas.Grew
import Verif.Spec.AnyServer
import Verif.Lemmas.AnyServer
import Verif.Lemmas.AnyServer2
import Verif.Props.AnyServer
import Verif.Model.Float32
import Verif.Spec.Float32
import Verif.Lemmas.Float32
import Verif.Lemmas.Fee
import Verif.Props.Fee
import Verif.Model.Machine
import Verif.Lemmas.Machine
import Verif.Props.Machine
import Verif.Model.MachineSelect
import Verif.Spec.MachineSelect
import Verif.Lemmas.MachineSelect
import Verif.Lemmas.MachineSelect2
import Verif.Lemmas.MachineSelect3
import Verif.Props.MachineSelect
import Verif.Model.Process
import Verif.Spec.Process
import Verif.Lemmas.Process
import Verif.Lemmas.Process2
import Verif.Lemmas.Process3
import Verif.Lemmas.Process4
import Verif.Props.Process
import Verif.Model.SharedFile
import Verif.Spec.SharedFile
import Verif.Lemmas.SharedFile
import Verif.Props.SharedFile
import Verif.Spec.Living
import Verif.Lemmas.Living
import Verif.Lemmas.Living2
import Verif.Lemmas.Living3
import Verif.Props.Living
import Verif.Lemmas.Quiet
import Verif.Props.Quiet
import Verif.Spec.Rescan
import Verif.Lemmas.Rescan
import Verif.Props.Rescan
import Verif.Props.Limits
import Verif.Spec.Ledger
import Verif.Props.Ledger
import Verif.Model.Overlap
import Verif.Spec.Overlap
import Verif.Props.Overlap
import Verif.Props.LimitsGraph
import Verif.Model.MachineIndex
import Verif.Lemmas.MachineIndex
import Verif.Lemmas.MachineIndex2
import Verif.Lemmas.MachineIndex3
import Verif.Props.MachineIndex
import Verif.Model.MachineTracker
import Verif.Props.MachineTracker
import Verif.Model.CliRead
import Verif.Spec.CliRead
import Verif.Props.CliRead
import Verif.Spec.Accounting
import Verif.Lemmas.Accounting
import Verif.Props.Accounting
import Verif.Spec.Exchange
import Verif.Props.Exchange
import Verif.Spec.Insertion
import Verif.Props.Insertion
import Verif.Props.InsertionGraph
import Verif.Props.InsertionLimit
import Verif.Spec.AccountingUpdate
import Verif.Props.AccountingUpdate
import Verif.Tests.Common
import Verif.Tests.SparseChain
import Verif.Tests.TxGraph
import Verif.Tests.ChainGraph
import Verif.Tests.SpkIndex
import Verif.Tests.KeychainIndex
import Verif.Tests.Tracker
import Verif.Tests.CoinSelect
import Verif.Tests.FileStore
import Verif.Model.Ieee
import Verif.Model.IeeeSelect
import Verif.Spec.Ieee
import Verif.Lemmas.Ieee
import Verif.Lemmas.IeeeSelect
import Verif.Lemmas.IeeeDebug
import Verif.Lemmas.IeeeRelease
import Verif.Props.Ieee
import Verif.Spec.Devices
import Verif.Lemmas.Devices
import Verif.Props.Devices
import Verif.Spec.Pruned
import Verif.Lemmas.Pruned
import Verif.Props.Pruned
import Verif.Model.Locks
import Verif.Spec.Locks
import Verif.Lemmas.Locks
import Verif.Lemmas.LocksCli
import Verif.Lemmas.LocksRun
import Verif.Props.Locks
import Verif.Props.Shown
