import Verif.Spec.ChainGraph

/-!
# Specification vocabulary for the exchange of states between two parties (C74)
-/

namespace Verif.Spec
open Verif
variable {P T : Type} [LinearOrder P] [AsTransaction T]

/-- `b` has, for every transaction both have, those of its parents that `a` has -/
def ParentsShared (a b : ChainGraph P T) : Prop :=
  ∀ p c, InChain a.chain p → InChain a.chain c → InChain b.chain c → ChildOf a.graph p c → InChain b.chain p

/-- the two graphs hold the same version of every transaction both have in full -/
def SameVersions (g g' : TxGraph T) : Prop := ∀ k x y, g.getTx k = some x → g'.getTx k = some y → x = y

end Verif.Spec
