# Formal model of LLFourn/bdk_core_staging in Lean 4

## Approach

The Rust code in `/repo` is read as text and re-expressed, function by function, as total computable Lean
functions. Every definition carries a comment citing the file and lines it models and any simplification.
Properties (`properties.jsonl`, C01 …) are stated in files `Verif/Props/*.lean`, apart from the model
(`Verif/Model/*.lean`) and the helper lemmas (`Verif/Lemmas/*.lean`). Small specifications that the
statements use live in the `Props` files or in `Verif/Spec/*.lean`.

### Modelling conventions

* `BTreeMap<K,V>`/`BTreeSet<K>`: `OMap K V` / `OSet K`: strictly sorted association lists (sortedness is carried by
  the type), so that equality of maps is equality of states. Iteration order is ascending key order, as in Rust.
* `HashMap`/`HashSet`: the same extensional containers; **wherever Rust iterates one**, the model applies an
  arbitrary permutation `HashOrder` given as an explicit parameter and theorems quantify over it.
* `&mut self` methods return the new state. `Result`/`Option` stay data. A reachable `panic!`/`expect`/`unreachable!`
  /index-out-of-bounds/arithmetic-overflow is an explicit error value, never a default.
* `u32` heights and indices are `Nat` with explicit bounds where the bound matters (`u32::MAX` sentinel in
  `determine_changeset`, BIP32 limit). Txids are `Fin (2^256)` because min/max txid are used as range sentinels.
* Values (satoshi) are `Nat`; signed results are `Int`. `KeychainTracker::balance` sums are checked u64 additions (overflow = panic value);
  elsewhere the main models use unbounded sums. Model/Machine (C67) and Model/MachineSelect (C68) repeat the functions that add amounts on
  `u64`/`i64`/`u32` with the overflow behaviour of a debug build (panic) and of a release build (wrap), and the theorems relate them.
* Generic parameters (`P: ChainPosition`, `T: AsTransaction`, keychain `K`, index `I`) stay generic.

## Trusted base

* Lean 4.33.0 kernel; axioms at most `propext`, `Classical.choice`, `Quot.sound` (each theorem; `vcheck` prints them).
* That the model is a faithful reading of `/repo` (comments cite lines). The Rust code is not executed.
  As a check on that reading, `Verif/Tests/*.lean` runs the repository's own unit tests on the model: every test of
  `bdk_chain/tests`, `bdk_file_store/tests` and the tests inside `bdk_chain/src` and `bdk_coin_select/src` is transcribed and evaluated by the
  kernel (the large ones with smaller numbers; of the branch-and-bound tests only those at feerate 0, as their weights come from a module that is
  not in the repository). These are tests of the model, not proofs, and no claim of the manifest rests on them.
* Standard-library containers behave as documented. (In particular `BTreeMap::range` panics on inverted bounds, as its documentation
  says; current implementations skip that check while a map has never held anything, so on such a map the calls of C15, C58 and C59 that the model
  says panic return an empty list instead.) `bitcoin`, `miniscript`, `bincode`, serde, the OS file API, the
  electrum/esplora servers are parameters with the assumptions named at their definition.

* The tapscript interpreter in `Spec/Miniscript.lean` (opcodes that the supported miniscript fragments compile to) and the
  `Sequence`/`LockTime` comparisons of rust-bitcoin 0.29 are read from their documentation; `pk_h` in taproot leaves commits
  to the hash of the x-only key, as in miniscript 9.

## Properties: what is modelled and how it is proved

| id | modelled | method |
|----|----------|--------|
| C01–C03 | `SparseChain::determine_changeset`, `apply_changeset` over `OMap` | exact case analysis against an independent specification (agreement height, first invalid height) |
| C04 | all mutators of SparseChain | invariant by induction over an operation list |
| C05 | step function with state × result | case analysis |
| C06–C08 | changesets, append, prune | extensionality of maps; induction over changeset lists; witness (`decide`) for failure with limit |
| C09–C11, C15 | range scans with sentinel keys, prune | lawfulness of `ChainPosition`; list lemmas on sorted maps |
| C12, C13 | insert_tx_preview / insert_checkpoint_preview incl. panic paths as error values | specialising C01/C02; witness for the doc deviation of insert_checkpoint |
| C14 | well-formed histories | invariant; witnesses for invalidate and limit 0; `C14_invalidate_exact` says exactly when `invalidate_checkpoints` keeps it |
| C03, C06, C07, C09, C13, C29, C49, C62 with a checkpoint limit (`Props/Limits.lean`, `Props/LimitsGraph.lean`) | the same operations on a chain that has a limit | an operation is the unlimited operation followed by pruning (`C11_op_then_prune`), and pruning keeps exactly the newest n |
| C16 | `ChainPosition` instances | direct |
| C17–C21 | `TxGraph` | extensionality; fold lemmas; invariant over histories |
| C22, C23 | `TxDescendants` iterator (explicit DFS stack + visited) | well-founded termination; reachability closure invariant |
| C24–C29 | `ChainGraph` | invariants over histories of operations, quantified over hash orders |
| C30–C32 | `SpkTxOutIndex` | invariant over histories; commutation of scans |
| C33–C38 | `KeychainTxOutIndex` with descriptors as abstract script functions | invariant over histories; witnesses for the defects found |
| C39, C40 | `KeychainTracker::balance`, `FullTxOut` | sum partition; decision logic |
| C41 | `Persist` state machine with failing backend | invariant over schedules |
| C42–C44 | `KeychainStore` over byte lists + cursor; codec a lawful parameter with a concrete bincode instance | induction over entries; every crash prefix |
| C45, C46 | `CoinSelector` (all of coin_selector.rs) with feerates and products in `f32` arithmetic | arithmetic on finite sums; induction on the loop |
| C47, C48 | `Bnb`, `BnbIter`, the strategy closure and `coin_select_bnb` as a state machine | the machine refines a recursive depth-first walk (`take_visit`); coverage invariant incl. the duplicate-skipping rule |
| C49–C51 | bdk_electrum `scan` in full (`prepare_update`, `populate_with_spks/txids/outpoints`, `determine_tx_height`, the retry after a reorganisation) against an arbitrary time-indexed server; release build (`debug_assert` left out); the retry loop carries a rounds bound with an explicit `pending` outcome | invariants on the update under construction (`Prep`, `Upd`), induction over scripts and rounds; witnesses for the reorg defects |
| C52, C53 | taproot planner (`plan_steps`, `combine`, `try_complete`, weights) over a miniscript AST; independent tapscript interpreter as specification | structural induction; witnesses for defects |
| C56 | `path_to_child`, `can_derive` over descriptor keys; BIP32 as a lawful structure | case analysis on paths |
| C57 | `sign_with_keymap` over a key map and abstract crypto | induction over the required keys, C52_requirements_exact |
| C58 | the remaining read accessors of `SparseChain`, `TxGraph`, `ChainGraph` and changesets | unfolding to `get`; sortedness of maps |
| C60 | bdk_cli_lib `create_tx` end to end (planning, sorting, selection, change, lock time, sequence, signing loop) over abstract crypto and descriptors; BIP141 weight specified separately (Spec/CreateTx.lean) | decomposition of a run into its steps (`Steps`), then C39 (coins), C45-C48 (selection), C52/C53 (plans, weights), C57 (signatures) applied to it |
| C54 | bdk_cli_lib `run_address_cmd`, `create_tx`, `Send`, `init` and the sync step of the electrum and esplora examples, as a transition system: one action per critical section, any interleaving of threads, a crash between or inside actions, writes and broadcasts that may fail | every action is a list of tracker calls whose changesets are what it writes (`step_ops`); replay simulation; invariants for pending transactions and reserved scripts; witnesses for the three losing cases; that shown addresses are right (Props/Shown, for threads too) by induction over `Run`, lossless or not |
| C59 | the listing methods of `KeychainTxOutIndex` and `set_lookahead_for_all` | the reachability invariant of C33; range filters over a sorted map |
| C61 | `ElectrumUpdate`: `missing_full_txs`, `into_keychain_scan`, `into_confirmation_time_update`, `scan_without_keychain` | loop invariant of C49 for the time loop; C28 for inflating; C50 with an unreachable gap |
| C62 | bdk_esplora `EsploraExt::scan`, `scan_without_keychain`, paging, batches of threads, `map_confirmation_time`; server = oracle indexed by request number (threads of a batch: by thread and page, which covers every interleaving) | loop invariants over any server; for a fixed world: paging by induction over pages, stop gap by induction over batches, insertion never refused since a world has no double spends; witnesses for the dependence on `parallel_requests` and for the transaction lost in a reorganisation |
| C63 | bdk_esplora_example `Scan`, `Sync` (flags, requests, `apply_update`), `spks_of_all_keychains`, `From<ChainGraph>` (Model/Sync) | C62 gives the update as the honest answer for the set of transactions asked for; a world has no double spends, so the update displaces nothing that exists and is accepted (Lemmas/Sync, Sync5, Sync6); the index part by induction over reveal and scan (Sync2, Sync3); blocks (Sync4); what is asked for (Sync7); lives by induction (Sync8); concrete worlds generated from a list of transactions (Props/SyncDemo) for non-vacuity and findings |
| C64 | bdk_electrum_example `Scan`, `Sync` (flags, requests, fetching of the missing transactions, `apply_update`) (Model/SyncElectrum); an honest server = a view of chain and mempool plus script histories that mirror it (Spec/SyncElectrum) | C50/C61 give the update as the honest answer for the set of transactions asked for, then the same `Answer`/`After` lemmas as C63; lives by induction; generated worlds for non-vacuity and the finding |
| C65 | the commands of C63/C64 with a server about which nothing is assumed (Spec/AnyServer: `Healthy`, `Reported`, `AnyLife`) | C51/C62 (any update a scan returns is well-formed and made of what was reported) and `apply_any` (what any well-formed update does to a wallet in working order); lives by induction; the lockout from the header request that fails; concrete lies for the findings |
| C66 | IEEE 754 binary32 as a function on rationals (Model/Float32: `roundEven`, `log2Q`, `f32`), used for every product, sum and difference of the coin selector | the rounding is the unique one IEEE 754 prescribes (Spec/Float32: `IsF32`, `IsRounded`); monotonicity and exactness on whole numbers up to 2^24 give the one-satoshi bound, the relative error gives the bound for all sizes and for sums of parts; findings evaluated by the kernel |
| C67 | `calculate_fee`, `sent_and_received`, `net_value`, `balance`, `balance_at`, `Balance` sums on `u64`/`i64`, parametrised by the build profile (Model/Machine) | each machine sum is the exact sum modulo 2^64; equality where the exact result fits; witnesses for overflow |
| C68 | `CoinSelector`, `finish`, `select_until_finished`, `Bnb`, `coin_select_bnb` on `u32`/`u64`/`i64` with saturating casts, per build profile (Model/MachineSelect) | bounds on every product and sum; step-by-step simulation of the search by the exact one |
| C69 | bdk_cli_lib `init`, every command and the `Scan`/`Sync` arms of both programs, run on the byte file of bdk_file_store (Model/Process): a run may end normally, in an error, in a panic, or die anywhere, also inside of a write or of the creation of the file; a history is any number of runs | each command's effects are shaped (a failed write is the last effect; nothing empty is written); the file position stays at the end of the readable part, so a write keeps what was there; what is visible is preceded by its write, and indices only grow when more is loaded; `CleanHistory` excludes the double fault of C43 |
| C70 | several stores on one file (Model/SharedFile): the content is shared, each store has its own position, calls in any order, each call one step without faults; a program at work (bdk_cli_lib `init`, commands, Model/Process) while any history of other runs goes on. Positive: invariant "the file is sound, and every store that is up to date is at its end", by induction over the history. Negative: an append depends only on the bytes before the position, so that what others have written since is gone |
| C71 | the methods of KeychainTxOutIndex and the height arithmetic of SparseChain with the build profile as a parameter (Model/MachineIndex): a debug build is the model of C33-C38, a release build wraps around and has no `debug_assert!`; refinement (whatever a debug build answers a release build answers), an ownership invariant for every build, exact results of the calls that overflow, witnesses of what goes wrong; the tracker the same way (Model/MachineTracker: determine and apply changesets, insert previews and loading, with the `debug_assert!` of chain_graph.rs:334) |
| C72 | `Balance`, `Txout list`, `Address list`, `Address index` of bdk_cli_lib (Model/CliRead): the values printed and the panics, with the address of a script as a parameter | sums of a fold that splits a list in two; the flags by cases over their sixteen combinations; C39 for the outputs, C59 for the revealed scripts, C54 for the addresses shown earlier |
| C73 | `insert_tx` and `apply_update` of the tracker together with `full_utxos`, `sent_and_received`, `net_value`, `calculate_fee` (models of C12, C21, C26, C31, C39) | the effect on chain (C26), graph and index as sets of outputs without positions; two lists with the same outputs have the same sum; partition of the unspent outputs by what the transaction spends and creates |
| C74 | `apply_update` of `SparseChain` and `ChainGraph` applied in both directions (models of C03, C18, C26; vocabulary `Spec.Exchange`) | what a chain is after an accepted update (C03, C26) shows that the answer invalidates no block and moves no transaction; a conflict between a transaction only one side has and one of the other would be a double spend inside `a`, `b` or `a'`, which reachable chain graphs exclude; equality of values from equality of blocks, positions, transactions and outputs; counterexample with an orphan |
| C75 | `insert_tx`, `insert_checkpoint` of `SparseChain` and `ChainGraph` iterated over a list (`Spec.Insertion`: `insertAll`, `cgInsertAll`, models of C12, C13, C17, C26) | what one accepted insertion does and when it is accepted (C12, C13), induction over the list for the result and for the exact condition under which blocks-first succeeds; for chain graphs a simulation by the chain alone, as nothing is displaced; equality of values by extensionality; counterexamples by evaluation; with a limit, one insertion commutes with forgetting (a changeset that removes no block may be applied before or after it, by C07 with limits), so insertion of a list does (`Props/InsertionLimit`) |
| C76 | `f32` with infinities and NaN (`Model/Ieee`), the coin selector's functions over it (`Model/IeeeSelect`: every expression in which a rate occurs is a field of `Rates`) | rounding threshold from the nearest-value characterisation of C66; the functions with the rates of a finite non-negative option equal those of C68 (function by function, induction over the search); debug soundness by inverting every checked operation, with no bound on sizes; NaN by equality of rates with rate 0; the release finding by computing the wrap-around; concrete cases by evaluation |
| C77 | two `KeychainTracker`s, the message is the other's chain graph and revealed indices (`Spec/Devices`) | invariant 'a recorded output is at a revealed script' over all histories; scanning the merged graph's additions records exactly what is new (outputs of a txid are a function of it); then C74 for the chain graphs and equality of the record maps gives equal reports; the finding by evaluation |
| C78 | a `KeychainTracker` with and one without a checkpoint limit, run side by side (`Spec/Pruned`) | simulation: the limited chain's blocks are some of the other's, transactions and tip are equal; an update within reach has the same agreement point and invalidation range in both; lifted through `fix_conflicts` and the script index to every call, then induction over the history; the findings by evaluation |
| C79 | `Spec/Living.lean`: `Lived`, the inductive life of an example wallet on its file (creation that dies, starts, owner's commands, commands answered by an honest server; every run may be cut anywhere); `EsploraFetch`/`ElectrumFetch` tie the command's argument to what the scan function of `Model/Esplora`/`Model/Electrum` returned | invariant `lived_inv` (the changesets in the file rebuild a wallet that is `Synced` with the moment of the last command in the file), from `run_found` (what a cut run leaves in the file), `esplora_delivers`/`electrum_delivers` (C63/C64 for one command) and `owner_replay` (owner's changesets keep `Synced`); theorems for both examples in `Props/Living.lean` with a concrete life with a torn write and a reorganisation |
| C80 | Only transactions move money. Nothing new is modelled. `SameMoney` says `full_txouts`, `full_utxos` and `balance_at` are the same. Index calls: every operation without scanning keeps the script-index's outputs, spends and scripts of recorded outputs; `insert_checkpoint` and the limit keep all transaction positions (lemmas about the changeset of C13/C78); balance by C39's buckets; histories by induction over `Tracker.Op`. | `Lemmas/Quiet.lean`, `Props/Quiet.lean` |
| C81 | nothing new; `Spec/Rescan.lean`: `Watched`, the closure of the stored scripts under payments and lookahead, as an inductive predicate without any order of scanning; `Scans`, any sequence of scans of outputs of the set | invariant `Between` over any scans (soundness), `quiet_scan` (a scan without additions stores nothing new), completeness by induction over `Watched`, termination by counting the outputs at revealed scripts; `Props/Rescan.lean` |
| C82 | The history adds up. Nothing new is modelled: the history is `transactions_in_chain` with `sent_and_received`/`net_value` of each transaction. `Spec/Ledger` states when the records are complete (`Truthful`, `AllRecorded`, `ParentsInChain`, `DistinctInputs`) | unspent outputs and spent outputs together are, outpoint by outpoint, the outputs received (no output counted twice by C25 and C39); an insertion keeps the conditions, a quiet rescan (C81) establishes completeness; witnesses that each of two conditions is needed |
| C83 | Appends to one file that overlap in time. `Model/Overlap`: an append is the writes of the encoder, in any pieces, and the cut; the system calls of any number of stores come in any order, and a store may stop at any call. | `C83_earlier_stays`: invariant that the file begins with the former content and no store is inside of it. `C83_mixture`: induction over the calls, every byte is from a store that has written it for its place, or zero. `C83_one_at_a_time`/`C83_dies_between`: refinement to the append of C70 and the crash of C44. `C83_same_changeset`: stores that write the same bytes; invariant that the file is the old content and a prefix of them. Findings `C83_mixed`, `C83_lost_both` on the bincode encoding. |
| C84 | Threads and the two mutexes of the example programs. `Model/Locks`: a command is a program of steps (take a lock, release it, one use of what is behind the locks, one request to the network, panic); any number of threads, any interleaving, any answers of the network, a panic at any point; a panic poisons the mutexes held and `lock().unwrap()` of a poisoned mutex panics. | `Shaped`: the store is taken only by the holder of the tracker, requests are made without locks; invariant of the machine (`Inv`), from which no deadlock, termination (15 steps a command) and protection follow. `C84_atomic`: forward simulation by threads whose sections are single steps; `C84_as_C54`: those are runs of the `step` of C54 (each section is proved equal to the action of C54). `C84_killed`: a kill at any moment, also inside a section, is a crash of C54 (what is written and printed only grows within a section). `C84_poisoned_frozen` after a panic under the lock. Not modelled: what `list`, `index`, `balance` and the txout commands print while they hold the lock (C72 does), the reading for a scan (C63/C64 do). |
| C55 | `KeychainTracker` | histories, reusing C08, C29, C35 |

## Not modelled

The sign of a zero `f32`, networking and TLS, serde field layout beyond the
bincode codec of C42, address encoding, the internals of secp256k1 / BIP32 / hashing / miniscript script encoding (they are
parameters of the models of the planner and of the commands), command line parsing and the text format of what the
examples print (C72 models the values printed).

Concurrency: the only shared state of the code is the pair of mutexes around the tracker and the database in bdk_cli_lib. The
model of C54 treats each region between taking and releasing the locks as one action and interleaves actions of any number of
threads; C84 derives that from threads that are interleaved step by step (every use of the tracker, the store and the network is a step;
trusted: `std::sync::Mutex` gives a lock to one thread at a time, is poisoned by a panic of its holder, and is free after a panic). A write that fails is modelled as leaving nothing that can be
read back (C43 covers what a torn write leaves in the file). C70 interleaves several stores on one file; there each call
(open, read to the end, append) is one step; C83 takes an append apart into its system calls. A `write` is one step in C83, too
(POSIX makes writes to a regular file atomic with respect to each other).
