import Verif.StakingCredit

/-!
# The first block of staking and credit

`build` of the staking pallet (pallets/staking/src/lib.rs:1009-1050) and of the credit pallet
(pallets/credit/src/lib.rs:337-349). The pallets are built in the order of `construct_runtime!`
(runtime/src/lib.rs:1551-1624): balances (line 1563), staking (1566), credit (1584).

## Simplifications

* `force_era`, `invulnerables` and `slash_reward_fraction` are copied to storage and left out here.
* The balances of the accounts after the genesis of the balances pallet are arbitrary, without locks.
-/

namespace Verif.Genesis

open Verif

/-- An entry of `stakers`, pallets/staking/src/lib.rs:985-990. -/
structure Staker where
  stash : AccId
  controller : AccId
  amount : Balance
  /-- `StakerStatus::Validator` -/
  validator : Bool
deriving DecidableEq, Repr

/-- The part of the chain specification for staking and credit, pallets/staking/src/lib.rs:976-992,
pallets/credit/src/lib.rs:330-335. -/
structure Spec where
  historyDepth : Nat := 84
  validatorCount : Nat := 0
  minValidators : Nat := 0
  eraReward : Balance := 0
  stakers : List Staker := []
  delegations : List (AccId × List AccId) := []
  settings : List Credit.Setting := []
  users : List (AccId × Credit.Data) := []

/-- One staker, pallets/staking/src/lib.rs:1022-1040: without enough money the node does not start (`none`); the results
of `bond` and `validate` are dropped. The account exists if it can pay the minimum, so its reference count can be raised. -/
def addStaker (cfg : Ledger.Cfg) (s : Ledger.State) (x : Staker) : Option Ledger.State :=
  if x.amount ≤ s.bank.free x.stash then
    let t := (Ledger.step cfg s (.bond x.stash x.controller x.amount .staked true)).1
    some (if x.validator then (Ledger.step cfg t (.validate x.controller (0, false))).1 else t)
  else none

/-- All stakers in order. -/
def addStakers (cfg : Ledger.Cfg) (s : Ledger.State) : List Staker → Option Ledger.State
  | [] => some s
  | x :: xs =>
    match addStaker cfg s x with
    | none => none
    | some t => addStakers cfg t xs

/-- The delegations in order, pallets/staking/src/lib.rs:1041-1047; a failure stops the node. `k` is the storage of the
credit pallet at that time. -/
def addDelegations (cfg : StakingCredit.Cfg) (k : Credit.State) (s : Delegation.State) : List (AccId × List AccId) → Option Delegation.State
  | [] => some s
  | (d, vs) :: ds =>
    match Delegation.delegate cfg.dele s d vs (Credit.passThreshold cfg.credit k d) with
    | .error _ => none
    | .ok t => addDelegations cfg k t ds

/-- `build` of the staking pallet, pallets/staking/src/lib.rs:1011-1049; the minimal bond is the existential deposit
(967-973). -/
def buildStaking (cfg : StakingCredit.Cfg) (k : Credit.State) (bank : Bank) (g : Spec) : Option Delegation.State :=
  let s0 := Delegation.genesis bank bank.ed
  let s1 := { s0 with eraReward := g.eraReward, validatorCount := g.validatorCount, minValidators := g.minValidators, historyDepth := g.historyDepth }
  match addStakers cfg.dele.led s1.led g.stakers with
  | none => none
  | some l => addDelegations cfg k { s1 with led := l } g.delegations

/-- Staking first, then credit. -/
def build (cfg : StakingCredit.Cfg) (bank : Bank) (g : Spec) : Option StakingCredit.State :=
  match buildStaking cfg { bank := bank } bank g with
  | none => none
  | some s => some { dele := s, credit := Credit.genesis bank g.settings g.users, balances := ∅ }

end Verif.Genesis
