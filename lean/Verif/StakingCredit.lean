import Verif.Credit
import Verif.Delegation

/-
Staking for credit, pallets/staking/src/lib.rs:1055-1084, 3142-3231, on top of the models of the credit
pallet and of the delegations.

The balances are those of the delegation state (`dele.led.bank`); the `bank` of the credit state is not
used by the functions called here. The block number is the one of the credit state.
-/

namespace Verif.StakingCredit

open Verif.Credit (Level)

/-- Constants of both pallets. -/
structure Cfg where
  credit : Credit.Cfg
  dele : Delegation.Cfg
  /-- `account_id`, lib.rs:2381-2383 -/
  pallet : AccId

/-- `DelegatorBalances` is lib.rs:944-946. -/
structure State where
  credit : Credit.State
  dele : Delegation.State
  balances : FMap AccId Balance

inductive Err where
  | signature | unauthorized | notAllowUpdate | targetNotCorrect | noCredit | targetLow | notEnough
  | bank | credit (f : Credit.Fail) | delegation (e : Delegation.Err)
deriving DecidableEq, Repr

inductive Out where
  /-- the event `StakingDelegate` -/
  | raised (who : AccId) (level : Nat)
  | failed (e : Err)
  | other
deriving DecidableEq, Repr

/-- The free balance of an account. -/
def free (s : State) (a : AccId) : Balance := s.dele.led.bank.free a

/-- `delegate_any`, lib.rs:2385-2393, with the credit test and the history of a new delegator
(`do_delegate`, lib.rs:2395-2450); `order` are the keys of `Validators` in storage order. -/
def delegateAny (cfg : Cfg) (s : State) (who : AccId) (order : List AccId) : Except Err State :=
  match Delegation.delegateAny cfg.dele { s.dele with block := s.credit.block } who order
      (Credit.passThreshold cfg.credit s.credit who) with
  | .error e => .error (.delegation e)
  | .ok d =>
    .ok { s with
      dele := d
      credit := if s.dele.delegators.contains who then s.credit
        else { s.credit with core :=
          Credit.initDelegatorHistory (Credit.currentEra cfg.credit s.credit) s.credit.core who } }

/-- `T::Currency::transfer(&who, &Self::account_id(), …)` and the update of `DelegatorBalances`,
lib.rs:3165-3173. -/
def pay (cfg : Cfg) (s : State) (who : AccId) (v : Balance) : Except Err State :=
  match s.dele.led.bank.transfer who cfg.pallet v true with
  | .error _ => .error .bank
  | .ok b =>
    .ok { s with
      dele := { s.dele with led := { s.dele.led with bank := b } }
      balances := s.balances.insert who ((s.balances.get who).getD 0 + v) }

/-- `add_or_update_credit` of the credit pallet. -/
def addCredit (cfg : Cfg) (s : State) (who : AccId) (gap campaign : Nat) : Except Err State :=
  match Credit.addOrUpdateCredit cfg.credit s.credit who gap (some campaign) with
  | .error f => .error (.credit f)
  | .ok c => .ok { s with credit := c }

/-- Delegation of accounts of a level above zero, lib.rs:3175-3178, 3224-3227. -/
def delegateAbove (cfg : Cfg) (s : State) (who : AccId) (dst : Nat) (order : List AccId) : Except Err State :=
  if 0 < dst then delegateAny cfg s who order else .ok s

/-- `do_staking_delegate`, lib.rs:3142-3181. -/
def doStakingDelegate (cfg : Cfg) (s : State) (who : AccId) (dst : Nat) (order : List AccId) :
    Except Err State :=
  let campaign := s.credit.defaultCampaign
  let prices := Credit.creditBalance s.credit who (some campaign)
  if prices.length = 0 then .error .notAllowUpdate
  else if prices.length ≤ dst then .error .targetNotCorrect
  else match Credit.creditScore s.credit.core who with
    | none => .error .noCredit
    | some score =>
      let cur := (Level.ofScore score).toU8
      if dst ≤ cur then .error .targetLow
      else
        (pay cfg s who (prices.getD dst 0 - prices.getD cur 0)).bind fun s1 =>
        (addCredit cfg s1 who (Level.gap (Level.ofU8 dst) (Level.ofU8 cur)) campaign).bind fun s2 =>
        delegateAbove cfg s2 who dst order

/-- The `while` loop of `do_usdt_staking_delegate`, lib.rs:3208-3217, with `fuel` levels left. -/
def climb (prices : List Balance) (cur : Nat) (remaining : Balance) : Nat → Nat → Nat
  | 0, dst => dst
  | fuel + 1, dst =>
    if dst < prices.length - 1 then
      if prices.getD (dst + 1) 0 - prices.getD cur 0 ≤ remaining then climb prices cur remaining fuel (dst + 1)
      else dst
    else dst

/-- The level and the remaining amount at the start, lib.rs:3194-3207. -/
def entry (prices : List Balance) (score : Option Nat) (usdt : Balance) : Option (Nat × Balance) :=
  match score with
  | some n => some ((Level.ofScore n).toU8, usdt)
  | none => if usdt < prices.getD 0 0 then none else some (0, usdt - prices.getD 0 0)

/-- `do_usdt_staking_delegate`, lib.rs:3183-3231; also returns the level of the event. The conversions
`as u8` are those of levels below 256. -/
def doUsdt (cfg : Cfg) (s : State) (who : AccId) (usdt dpr : Balance) (order : List AccId) :
    Except Err (State × Nat) :=
  let campaign := s.credit.defaultUsdtCampaign
  let prices := Credit.creditBalance s.credit who (some campaign)
  if prices.length = 0 then .error .notAllowUpdate
  else match entry prices (Credit.creditScore s.credit.core who) usdt with
    | none => .error .notEnough
    | some (cur, remaining) =>
      let dst := climb prices cur remaining prices.length cur
      (addCredit cfg s who (Level.gap (Level.ofU8 dst) (Level.ofU8 cur)) campaign).bind fun s1 =>
      (delegateAbove cfg { s1 with credit := Credit.setStakingBalance s1.credit who usdt dpr } who dst order).map
        fun s2 => (s2, dst)

inductive Op where
  /-- `staking_delegate`, lib.rs:1055-1068; `signed` is the verdict of `verify_atomos_signature` -/
  | stake (who : AccId) (signed : Bool) (dst : Nat) (order : List AccId)
  /-- `usdt_staking_delegate`, lib.rs:1073-1084; the CreditAdmin privilege is read from the credit state -/
  | usdt (admin who : AccId) (usdt dpr : Balance) (order : List AccId)
  /-- `unset_delegate_balance`, lib.rs:2133-2145 -/
  | unset (admin who : AccId)

/-- The extrinsics; an error rolls the call back. -/
def step (cfg : Cfg) (s : State) : Op → State × Out
  | .stake who signed dst order =>
    if signed = false then (s, .failed .signature)
    else match doStakingDelegate cfg s who dst order with
      | .error e => (s, .failed e)
      | .ok s' => (s', .raised who dst)
  | .usdt admin who usdt dpr order =>
    if s.credit.isAdmin admin = false then (s, .failed .unauthorized)
    else match doUsdt cfg s who usdt dpr order with
      | .error e => (s, .failed e)
      | .ok (s', dst) => (s', .raised who dst)
  | .unset admin who =>
    if s.credit.isAdmin admin = false then (s, .failed .unauthorized)
    else ({ s with balances := s.balances.erase who }, .other)

end Verif.StakingCredit
