import Verif.World
import Verif.StakingCredit
import Verif.Adsc

/-!
# The chain with all of the staking pallet

`World` has the staking ledger but leaves open when rewards are paid and slashes are applied. Here the rest
of pallets/staking (delegations, elections, the mining pool, payouts, staking for credit, offences and deferred
slashes), the credit pallet (pallets/credit) and ADSC (pallets/adsc) are added on the same accounts, as in
`construct_runtime!` (runtime/src/lib.rs:1551-1624): a reward leaves the mining pool when it is paid, and a slash
is what an offence leads to.

## Simplifications

* The rewards which the credit pallet computes in a block, the eras that end and the sessions of offences are
  arguments of the operations (as in `Delegation` and `Slashing`), hence arbitrary.
* The exposures of validators, which decide the size of a slash, are an arbitrary function of era and validator.
* The fields of the single models for ledger and balances are not used: each call sees those of the chain.
-/

namespace Verif.Chain

open Verif

/-- Parameters of the pallets (runtime/src/lib.rs). -/
structure Cfg where
  world : World.Cfg
  stk : StakingCredit.Cfg
  slash : Slashing.Cfg
  adsc : Adsc.Cfg

/-- Parameters of the delegations: those of the ledger are the ones of the chain. -/
def Cfg.dele (cfg : Cfg) : Delegation.Cfg := { cfg.stk.dele with led := cfg.world.ledger }

/-- Parameters of staking for credit. -/
def Cfg.stake (cfg : Cfg) : StakingCredit.Cfg := { cfg.stk with dele := cfg.dele }

/-- Parameters of slashing. -/
def Cfg.offences (cfg : Cfg) : Slashing.Cfg := { cfg.slash with led := cfg.world.ledger }

/-- The accounts with the pallets of `World`, and the storage of the other pallets. -/
structure State where
  w : World.State
  stk : StakingCredit.State
  slash : Slashing.State
  adsc : Adsc.State

/-- The staking ledger on the accounts of the chain. -/
def led (c : State) : Ledger.State := { c.w.ledger with bank := c.w.bank }

/-- The accounts after the staking pallet has changed its ledger and balances. -/
def put (w : World.State) (s : Ledger.State) : World.State :=
  World.settle { w with ledger := s, bank := s.bank }

/-- Staking for credit, as it sees the chain. -/
def stkOn (c : State) : StakingCredit.State := { c.stk with dele := { c.stk.dele with led := led c } }

/-- Whatever happens. -/
inductive Op where
  | world (op : World.Op)
  /-- a call of the staking ledger, with the number of slashing spans given by the caller -/
  | bond (op : Ledger.Op) (numSpans : Nat)
  | dele (op : Delegation.Op)
  | stake (op : StakingCredit.Op)
  | credit (op : Credit.Op)
  | slash (op : Slashing.Op)
  | adsc (op : Adsc.Op)

/-- Of the ledger, only the election window changes from outside. -/
def worldOwn : World.Op → Bool
  | .ledger (.external ..) => true
  | .ledger _ => false
  | _ => true

/-- The calls of the ledger: payouts, slashes, eras and removals happen inside of the staking pallet. -/
def bondOwn : Ledger.Op → Bool
  | .payout .. => false
  | .slash .. => false
  | .newEra => false
  | .kick _ => false
  | .external .. => false
  | _ => true

def deleOwn : Delegation.Op → Bool
  | .ledger _ => false
  | _ => true

def creditOwn : Credit.Op → Bool
  | .external .. => false
  | _ => true

def slashOwn : Slashing.Op → Bool
  | .ledger .. => false
  | _ => true

def adscOwn : Adsc.Op → Bool
  | .external .. => false
  | _ => true

/-- One step of the chain. What does not belong to a pallet has no effect, except that changes of the environment of
the credit pallet and of ADSC take place without touching the balances. -/
def step (cfg : Cfg) (c : State) : Op → State
  | .world op => if worldOwn op then { c with w := World.step cfg.world c.w op } else c
  | .bond op n =>
    if bondOwn op then
      let s := (Slashing.ledgerCall cfg.offences { c.slash with led := led c } op n).1
      { c with slash := s, w := put c.w s.led }
    else c
  | .dele op =>
    if deleOwn op then
      let s := (Delegation.step cfg.dele (stkOn c).dele op).1
      { c with stk := { c.stk with dele := s }, w := put c.w s.led }
    else c
  | .stake op =>
    let s := (StakingCredit.step cfg.stake (stkOn c) op).1
    { c with stk := s, w := put c.w s.dele.led }
  | .credit op =>
    let s := (Credit.step cfg.stk.credit { c.stk.credit with bank := c.w.bank } op).1
    { c with stk := { c.stk with credit := s }, w := if creditOwn op then World.settle { c.w with bank := s.bank } else c.w }
  | .slash op =>
    if slashOwn op then
      let s := (Slashing.step cfg.offences { c.slash with led := led c } op).1
      { c with slash := s, w := put c.w s.led }
    else c
  | .adsc op =>
    let s := (Adsc.step cfg.adsc { c.adsc with bank := c.w.bank } op).1
    { c with adsc := s, w := if adscOwn op then World.settle { c.w with bank := s.bank } else c.w }

/-- A history. -/
def run (cfg : Cfg) (c : State) : List Op → State
  | [] => c
  | op :: ops => run cfg (step cfg c op) ops

end Verif.Chain
