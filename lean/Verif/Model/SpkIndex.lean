import Verif.Model.TxGraph

/-!
# Model of `SpkTxOutIndex` (bdk_chain/src/spk_txout_index.rs)

`u64` sums of values are exact naturals (the sum of all bitcoin values is far below `u64::MAX`).
-/

namespace Verif

/-- `OutPoint` with all zero txid and vout 0 (spk_txout_index.rs:127-130) -/
def minOutPoint : OutPoint := ⟨minTxid, ⟨0, by decide⟩⟩
/-- `OutPoint` with all ones (spk_txout_index.rs:131-134) -/
def maxOutPoint : OutPoint := ⟨maxTxid, ⟨2 ^ 32 - 1, by decide⟩⟩

/-- spk_txout_index.rs:30-41 `struct SpkTxOutIndex<I>`; `spk_indices` is a `HashMap` that is never iterated -/
structure SpkIndex (I : Type) [LinearOrder I] where
  spks : OMap I Script
  spkIndices : OMap Script I
  unused : OSet I
  txouts : OMap OutPoint (I × TxOut)
  spkTxouts : OSet (I ×ₗ OutPoint)
deriving DecidableEq

namespace SpkIndex
variable {I : Type} [LinearOrder I]

/-- spk_txout_index.rs:43-53 `Default` -/
def empty : SpkIndex I := ⟨OMap.empty, OMap.empty, OMap.empty, OMap.empty, OMap.empty⟩

/-- spk_txout_index.rs:255-257 `index_of_spk` -/
def indexOfSpk (x : SpkIndex I) (s : Script) : Option I := x.spkIndices.get s

/-- spk_txout_index.rs:58-68 `scan_txout!` and 97-99 `scan_txout`: new state and returned index -/
def scanTxout (x : SpkIndex I) (op : OutPoint) (txout : TxOut) : SpkIndex I × Option I :=
  match x.spkIndices.get txout.spk with
  | some i =>
    ({ x with
        txouts := x.txouts.insert op (i, txout)
        spkTxouts := x.spkTxouts.add (toLex (i, op))
        unused := x.unused.remove i }, some i)
  | none => (x, none)

/-- spk_txout_index.rs:82-93 `scan`, of a list of `(outpoint, txout)` in the order `for_each_txout` gives them -/
def scan (x : SpkIndex I) (l : List (OutPoint × TxOut)) : SpkIndex I × OSet I :=
  l.foldl (fun s e =>
    let r := s.1.scanTxout e.1 e.2
    (r.1, match r.2 with | some i => s.2.add i | none => s.2)) (x, OMap.empty)

/-- spk_txout_index.rs:102-108 `txouts` -/
def allTxouts (x : SpkIndex I) : List (I × OutPoint × TxOut) := x.txouts.entries.map (fun e => (e.2.1, e.1, e.2.2))

/-- spk_txout_index.rs:111-118 `txouts_in_tx` -/
def txoutsInTx (x : SpkIndex I) (t : Txid) : List (I × OutPoint × TxOut) :=
  (x.txouts.entries.filter (fun e => decide ((⟨t, ⟨0, by decide⟩⟩ : OutPoint) ≤ e.1) &&
    decide (e.1 ≤ (⟨t, ⟨2 ^ 32 - 1, by decide⟩⟩ : OutPoint)))).map (fun e => (e.2.1, e.1, e.2.2))

/-- spk_txout_index.rs:136-146: translation of a bound on indices to one on `(index, outpoint)` -/
def mapBound (b : Bound I) (inc exc : OutPoint) : Bound (I ×ₗ OutPoint) :=
  match b with
  | .included i => .included (toLex (i, inc))
  | .excluded i => .excluded (toLex (i, exc))
  | .unbounded => .unbounded

/-- spk_txout_index.rs:121-149 `outputs_in_range`; `none` = `BTreeSet::range` panics -/
def outputsInRange (x : SpkIndex I) (lo hi : Bound I) : Option (List (I × OutPoint)) :=
  let l := mapBound lo minOutPoint maxOutPoint
  let h := mapBound hi maxOutPoint minOutPoint
  if Bound.rangePanics l h then none
  else some ((x.spkTxouts.toList.filter (fun e => l.geB e && h.leB e)).map ofLex)

/-- spk_txout_index.rs:154-158 `txout` -/
def txout (x : SpkIndex I) (o : OutPoint) : Option (I × TxOut) := x.txouts.get o

/-- spk_txout_index.rs:163-165 `spk_at_index` -/
def spkAtIndex (x : SpkIndex I) (i : I) : Option Script := x.spks.get i

/-- spk_txout_index.rs:175-185 `insert_spk` -/
def insertSpk (x : SpkIndex I) (i : I) (s : Script) : SpkIndex I × Bool :=
  match x.spkIndices.get s with
  | none => ({ x with spkIndices := x.spkIndices.insert s i, spks := x.spks.insert i s, unused := x.unused.add i }, true)
  | some _ => (x, false)

/-- spk_txout_index.rs:204-211 `unused_spks`; the outer `none` = `range` panics, an inner one = the `expect` panics -/
def unusedSpks (x : SpkIndex I) (lo hi : Bound I) : Option (List (I × Option Script)) :=
  if Bound.rangePanics lo hi then none
  else some ((x.unused.toList.filter (fun i => lo.geB i && hi.leB i)).map (fun i => (i, x.spkAtIndex i)))

/-- spk_txout_index.rs:217-219 `is_used` -/
def isUsed (x : SpkIndex I) (i : I) : Bool := !x.unused.mem i

/-- spk_txout_index.rs:231-233 `mark_used` -/
def markUsed (x : SpkIndex I) (i : I) : SpkIndex I × Bool :=
  ({ x with unused := x.unused.remove i }, x.unused.mem i)

/-- spk_txout_index.rs:248: `self.outputs_in_range(index..=index).next().is_some()` (this range never panics) -/
def hasOutputs (x : SpkIndex I) (i : I) : Bool :=
  match x.outputsInRange (.included i) (.included i) with
  | some (_ :: _) => true
  | _ => false

/-- spk_txout_index.rs:242-252 `unmark_used` -/
def unmarkUsed (x : SpkIndex I) (i : I) : SpkIndex I × Bool :=
  if !x.spks.contains i then (x, false)
  else if x.hasOutputs i then (x, false)
  else ({ x with unused := x.unused.add i }, !x.unused.mem i)

/-- spk_txout_index.rs:264-280 `sent_and_received` -/
def sentAndReceived (x : SpkIndex I) (tx : Tx) : Nat × Nat :=
  (tx.input.foldl (fun s o => match x.txout o with | some e => s + e.2.value | none => s) 0,
   tx.output.foldl (fun r o => if (x.indexOfSpk o.spk).isSome then r + o.value else r) 0)

/-- `v as i64` for `v : u64` -/
def asI64 (v : Nat) : Int := if v < 2 ^ 63 then (v : Int) else (v : Int) - 2 ^ 64

/-- spk_txout_index.rs:287-290 `net_value` -/
def netValue (x : SpkIndex I) (tx : Tx) : Int :=
  let sr := x.sentAndReceived tx
  asI64 sr.2 - asI64 sr.1

/-- spk_txout_index.rs:299-311 `is_relevant` -/
def isRelevant (x : SpkIndex I) (tx : Tx) : Bool :=
  (tx.input.find? (fun o => x.txouts.contains o)).isSome ||
  (tx.output.find? (fun o => x.spkIndices.contains o.spk)).isSome

/-- The mutating methods (`scan` is a sequence of `scan_txout`) -/
inductive Op (I : Type) where
  | insertSpk (i : I) (s : Script)
  | scanTxout (o : OutPoint) (x : TxOut)
  | markUsed (i : I)
  | unmarkUsed (i : I)
deriving DecidableEq

/-- one call -/
def step (x : SpkIndex I) : Op I → SpkIndex I
  | .insertSpk i s => (x.insertSpk i s).1
  | .scanTxout o t => (x.scanTxout o t).1
  | .markUsed i => (x.markUsed i).1
  | .unmarkUsed i => (x.unmarkUsed i).1

/-- a sequence of calls on a new index -/
def run (h : List (Op I)) : SpkIndex I := h.foldl step empty

end SpkIndex
end Verif
