import Verif.Chain

/-!
# The payouts to delegators together with the credit pallet

`Delegation` leaves open what `get_reward` of the credit pallet returns, and the credit model leaves open who calls
it. Here the loop of `pay_delegators` (pallets/staking/src/lib.rs:2676-2807) calls `get_reward`
(pallets/credit/src/lib.rs:1433-1505) on the storage of the credit pallet, in the order of the payments, on the
chain with all pallets (`Chain`).

## Simplifications

* `on_initialize` of the credit pallet, which may lower daily rewards at the start of an era, and the other hooks of a
  block are operations of their own, before or after the payouts.
* Both pallets divide the block number by the same `BlocksPerEra` (runtime/src/lib.rs:623, 1269, 1279).
* `force_undelegate` (pallets/staking/src/lib.rs:1908-1921) lowers credit and undelegates; these are two operations here.
* A payout uses one state of devices (`get_eras_offline`) and settings for all delegators of a block.
-/

namespace Verif.Payout

open Verif Delegation

/-- Variables of the payout loop and the credit records. -/
structure Loop where
  l : Delegation.Loop
  core : Credit.Core

/-- `pay_delegator`, pallets/staking/src/lib.rs:2740-2807, with the call of `get_reward` at 2752-2754. -/
def payDelegator (cfg : Credit.Cfg) (k : Credit.State) (s : Delegation.State) (d : Delegator) (era : Nat) (pool : Balance) :
    Except Credit.Fail ((Delegation.State × Balance × Option Payment) × Credit.Core) :=
  if d.since.getD era = era then .ok ((s, 0, none), k.core)
  else match Credit.getReward cfg k d.who (d.since.getD era) (era - 1) with
    | .error e => .error e
    | .ok (core, amount) => .ok (Delegation.payDelegator s d era pool fun _ _ _ => amount, core)

/-- The payout loop, pallets/staking/src/lib.rs:2700-2725; a panic of the credit pallet ends everything. -/
def payLoop (cfg : StakingCredit.Cfg) (k : Credit.State) (era : Nat) : Nat → Loop → Except Credit.Fail Loop
  | 0, x => .ok x
  | n + 1, x =>
    match nextDelegator cfg.dele x.l.s x.l.last with
    | none => .ok { x with l := { x.l with full := false } }
    | some a =>
      match x.l.s.delegators.get a with
      | none => .ok { x with l := { x.l with full := false } }
      | some d =>
        match payDelegator cfg.credit { k with core := x.core } x.l.s d era x.l.pool with
        | .error e => .error e
        | .ok (r, core) =>
          let l1 : Delegation.Loop := { x.l with s := r.1, pool := x.l.pool - r.2.1, paid := x.l.paid ++ r.2.2.toList }
          if l1.pool = 0 then .ok ⟨{ l1 with full := false }, core⟩
          else
            let q := payReferer l1.s d.who r.2.1 l1.pool
            let l2 : Delegation.Loop := { l1 with s := q.1, pool := l1.pool - q.2 }
            if l2.pool = 0 then .ok ⟨{ l2 with full := false }, core⟩
            else payLoop cfg k era n ⟨{ l2 with last := some (cfg.dele.key a) }, core⟩

/-- `pay_delegators`, pallets/staking/src/lib.rs:2676-2738. -/
def payDelegators (cfg : StakingCredit.Cfg) (k : Credit.State) (s : Delegation.State) :
    Except Credit.Fail ((Delegation.State × List Payment) × Credit.Core) :=
  if poolOf cfg.dele s = 0 then .ok ((s, []), k.core)
  else
    match payLoop cfg k (Credit.currentEra cfg.credit k) s.perBlock ⟨⟨s, poolOf cfg.dele s, s.lastKey, true, []⟩, k.core⟩ with
    | .error e => .error e
    | .ok x => .ok (({ x.l.s with pool := some x.l.pool, lastKey := if x.l.full then x.l.last else s.lastKey }, x.l.paid), x.core)

/-- `on_initialize` of the staking pallet, pallets/staking/src/lib.rs:2150-2181, in the next block. -/
def onBlock (cfg : StakingCredit.Cfg) (k : Credit.State) (s : Delegation.State) :
    Except Credit.Fail ((Delegation.State × List Payment) × Credit.Core) :=
  let s1 := { s with block := s.block + 1 }
  if s.led.era.getD 0 = 0 then .ok ((s1, []), k.core)
  else if s1.block % cfg.dele.blocksPerEra = 0 then
    .ok (({ s1 with perBlock := (s.count + (cfg.dele.blocksPerEra - 2) - 1) / (cfg.dele.blocksPerEra - 2) + 1, lastKey := none }, []), k.core)
  else payDelegators cfg k s1

/-- What happens on the chain: anything of `Chain`, or the payouts of the next block. -/
inductive Op where
  | chain (op : Chain.Op)
  | block

/-- `get_reward` is called, and payouts are made, at the start of blocks only; `init_delegator_history` is called by
`do_delegate` only, and `delegate_any` by the staking for credit. -/
def own : Chain.Op → Bool
  | .dele (.block _) => false
  | .dele (.delegateAny ..) => false
  | .credit (.getReward ..) => false
  | .credit (.initDelegatorHistory _) => false
  | _ => true

/-- `do_delegate` asks the credit pallet whether the credit suffices, pallets/staking/src/lib.rs:2395-2396. -/
def fill (cfg : Chain.Cfg) (c : Chain.State) : Chain.Op → Chain.Op
  | .dele (.delegate d vs _) => .dele (.delegate d vs (Credit.passThreshold cfg.stk.credit c.stk.credit d))
  | op => op

/-- What calls of the staking pallet do in the credit pallet: `do_delegate` starts the history of an account that becomes
a delegator (pallets/staking/src/lib.rs:2438), `force_unstaking_delegate` deletes the credit (2126). `before` and
`after` are the delegators. -/
def effect (cfg : Credit.Cfg) (before after : FMap AccId Delegator) (k : Credit.State) : Chain.Op → Credit.State
  | .dele (.delegate d _ _) =>
    if before.contains d = false ∧ after.contains d = true then
      { k with core := Credit.initDelegatorHistory (Credit.currentEra cfg k) k.core d }
    else k
  | .dele (.forceUnstaking true d) => (Credit.step cfg k (.slashCredit d (some Credit.u64Max))).1
  | _ => k

/-- There is one block number. -/
def sync (c : Chain.State) : Chain.State := { c with stk := { c.stk with credit := { c.stk.credit with block := c.stk.dele.block } } }

/-- The credit pallet in the next block. -/
def creditNext (c : Chain.State) : Credit.State := { c.stk.credit with block := c.stk.dele.block + 1 }

/-- Payments made by a step, or a panic in the hook of a block (which stops the chain). -/
inductive Out where
  | paid (ps : List Payment)
  | halted

/-- Payments of a step. -/
def Out.payments : Out → List Payment
  | .paid ps => ps
  | .halted => []

/-- A call. -/
def call (cfg : Chain.Cfg) (c : Chain.State) (op : Chain.Op) : Chain.State :=
  let t := sync (Chain.step cfg c (fill cfg c op))
  { t with stk := { t.stk with credit := effect cfg.stk.credit c.stk.dele.delegators t.stk.dele.delegators t.stk.credit op } }

/-- One step. -/
def step (cfg : Chain.Cfg) (c : Chain.State) : Op → Chain.State × Out
  | .chain op => (if own op then call cfg c op else c, .paid [])
  | .block =>
    match onBlock cfg.stake (creditNext c) (Chain.stkOn c).dele with
    | .error _ => (c, .halted)
    | .ok ((s, ps), core) =>
      ({ c with stk := { c.stk with dele := s, credit := { creditNext c with core := core } }, w := Chain.put c.w s.led }, .paid ps)

/-- A history: the final state and each operation with the state it ran in and its payments. -/
def run (cfg : Chain.Cfg) (c : Chain.State) : List Op → Chain.State × List (Chain.State × Op × Out)
  | [] => (c, [])
  | op :: ops =>
    let r := step cfg c op
    let t := run cfg r.1 ops
    (t.1, (c, op, r.2) :: t.2)

end Verif.Payout
