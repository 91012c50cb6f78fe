import Verif.Model.Locks

/-!
# Vocabulary of C84: threads whose sections are single steps
-/

namespace Verif.Locks
open Verif Verif.Cli
variable {σ α β : Type}

/-- a program executed alone until it releases the tracker; `none` if it does not come to that -/
def toEnd (s : σ) : Prog σ α β → Option (σ × Prog σ α β)
  | .unlock .tracker k => some (s, k)
  | .unlock .store k => toEnd s k
  | .lock _ k => toEnd s k
  | .use f k => toEnd (f s) (k s)
  | .done => none
  | .fail => none
  | .net _ _ => none

/-- a whole section executed alone, from taking the tracker to releasing it -/
def sectionOf (s : σ) : Prog σ α β → Option (σ × Prog σ α β)
  | .lock .tracker k => toEnd s k
  | _ => none

/-- threads without locks, for which everything from taking the tracker to releasing it is one step, as in C54 -/
structure Atomic (σ α β : Type) where
  shared : σ
  requests : List (Nat × β)
  prog : Nat → Prog σ α β

/-- what happens next: a whole section of a thread, a request, or a thread stops for good between sections -/
inductive AMove (α : Type) where
  | section_ (i : Nat)
  | request (i : Nat) (a : α)
  | stop (i : Nat)

/-- one move -/
def Atomic.move (s : Atomic σ α β) : AMove α → Option (Atomic σ α β)
  | .section_ i => (sectionOf s.shared (s.prog i)).map fun e => { s with shared := e.1, prog := set s.prog i e.2 }
  | .request i a =>
    match s.prog i with
    | .net b k => some { s with requests := s.requests ++ [(i, b)], prog := set s.prog i (k a) }
    | _ => none
  | .stop i => some { s with prog := set s.prog i .done }

/-- moves one after the other -/
def Atomic.run (s : Atomic σ α β) : List (AMove α) → Option (Atomic σ α β)
  | [] => some s
  | m :: l => match s.move m with
    | none => none
    | some s' => s'.run l

section
variable {D Key Ak Sec XPrv Msg P T : Type}
variable [DecidableEq Key] [DecidableEq Ak]
variable [DecidableEq D] [DescriptorOps D]
variable [LinearOrder P] [ChainPosition P] [AsTransaction T] [LinearOrder T]

/-- as many threads as there are lists of commands -/
def threadsOf (env : Env D Key Ak Sec XPrv Msg T) (l : List (List (Command P T))) (i : Nat) : Code D P T :=
  match l[i]? with
  | some cs => codeOf env cs
  | none => .done

/-- the states that these threads can get into, starting with `x` behind the locks -/
def Reaches (env : Env D Key Ak Sec XPrv Msg T) (l : List (List (Command P T))) (x : Shared D P T) (ms : List (Move (Reply P T)))
    (s : State (Shared D P T) (Reply P T) Request) : Prop :=
  (State.init x (threadsOf env l)).run ms = some s

/-- not the call of the `broadcast` closure, which happens without a lock -/
def underLock : Event P T → Bool
  | .broadcast .. => false
  | _ => true

/-- the transactions handed to the network -/
def handed (es : List (Event P T)) : List BuiltTx := es.filterMap fun e => match e with | .broadcast tx _ => some tx | _ => none

/-- the transactions that the threads asked the network to take -/
def asked (rs : List (Nat × Request)) : List BuiltTx := rs.filterMap fun r => match r.2 with | .broadcast tx => some tx | _ => none

end
end Verif.Locks
