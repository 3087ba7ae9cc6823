import Verif.Slashing

/-
Delegations, referrals, elections and the mining pool of pallets/staking/src/lib.rs.

The bonding part (validators, ledgers, balances) is `Verif.Ledger`. Not modelled: weights, events other than
the returned outputs, the signature check of `staking_delegate` and the credit bookkeeping, which is
`Verif.Credit`: whether an account passes the credit threshold and the rewards it has earned are arguments
here. `u32` counters and `EraIndex` are unbounded.
-/

namespace Verif.Delegation

open Verif

/-- Parameters of the pallet. -/
structure Cfg where
  led : Ledger.Cfg
  /-- `MaxDelegates` -/
  maxDelegates : Nat
  /-- `BlocksPerEra`, above 2 (17280 in runtime/src/lib.rs) -/
  blocksPerEra : Nat
  /-- `TotalMiningReward` -/
  totalMining : Balance
  /-- order of the storage keys of `Delegators`: the hash of the account followed by the account -/
  key : AccId → Nat

/-- `DelegatorData`, lib.rs:498-508. -/
structure Delegator where
  who : AccId
  validators : List AccId
  since : Option Nat
  delegating : Bool
deriving DecidableEq, Repr

/-- `ValidatorData`, lib.rs:522-526; the set is a list without duplicates. -/
structure Candidate where
  delegators : List AccId
  electedEra : Nat
deriving DecidableEq, Repr

/-- `ValidatorData::default`, lib.rs:528-535. -/
def Candidate.empty : Candidate := ⟨[], 0⟩

/-- `EraRewardPoints`, lib.rs:134-139. -/
structure Points where
  total : Nat
  individual : FMap AccId Nat

/-- `RewardData`, lib.rs:179-185, of the map `Reward`, lib.rs:932. -/
structure RewardData where
  totalReferee : Balance
  receivedReferee : Balance
  referee : Balance
  receivedPoc : Balance
  poc : Balance
deriving DecidableEq, Repr

/-- Storage of this part. -/
structure State where
  led : Ledger.State
  /-- block number -/
  block : Nat
  delegators : FMap AccId Delegator
  candidates : FMap AccId Candidate
  /-- `ActiveDelegatorCount` -/
  active : Nat
  /-- `DelegatorCount` -/
  count : Nat
  /-- `DelegatorPayoutsPerBlock` -/
  perBlock : Nat
  /-- `DelegatorsLastKey`; `none` is the prefix of the map, which precedes all its keys -/
  lastKey : Option Nat
  /-- `RemainderMiningReward` -/
  pool : Option Balance
  /-- `EraValidatorReward` -/
  eraReward : Balance
  blackList : FMap AccId Nat
  referer : FMap AccId AccId
  refereeCount : FMap AccId Nat
  rewards : FMap AccId RewardData
  points : FMap Nat Points
  /-- `ErasValidators` -/
  erasValidators : FMap Nat (List AccId)
  /-- `ErasStakers` -/
  stakers : FMap (Nat × AccId) Slashing.Exposure
  whitelist : List AccId
  validatorCount : Nat
  minValidators : Nat
  historyDepth : Nat

inductive Err where
  | callNotAllowed | noValidators | tooManyValidators | notValidator | creditTooLow | notDelegator | unauthorized
  | selfReferee | insufficientValue | exceedsLimit | badOrigin
deriving DecidableEq, Repr

/-- Payment of the eras `first`, ..., `last` to a delegator; `amount` is what the credit pallet computed. -/
structure Payment where
  who : AccId
  first : Nat
  last : Nat
  amount : Option Balance
deriving DecidableEq, Repr

inductive Out where
  | done
  | failed (e : Err)
  /-- payments of a block -/
  | paid (l : List Payment)
  /-- result of an election for an era -/
  | elected (era : Nat) (l : Option (List AccId))

/-! ### Delegating -/

/-- `CreditInterface::get_current_era`, pallets/credit/src/lib.rs:1369-1371. -/
def creditEra (cfg : Cfg) (s : State) : Nat := s.block / cfg.blocksPerEra

/-- Set insertion. -/
def setInsert (a : AccId) (l : List AccId) : List AccId := if a ∈ l then l else a :: l

/-- Remove a delegator from a candidate, dropping the candidate if nobody is left: lib.rs:2419-2425, 3100-3107. -/
def leave (m : FMap AccId Candidate) (d v : AccId) : FMap AccId Candidate :=
  let c := (m.get v).getD .empty
  let c' := { c with delegators := c.delegators.filter fun x => decide (x ≠ d) }
  if c'.delegators = [] then m.erase v else m.insert v c'

/-- Add a delegator to a candidate, lib.rs:2442-2457. -/
def join (m : FMap AccId Candidate) (d v : AccId) : FMap AccId Candidate :=
  match m.get v with
  | some c => m.insert v { c with delegators := setInsert d c.delegators }
  | none => m.insert v ⟨[d], 0⟩

/-- `do_delegate`, lib.rs:2394-2462; `pass` is `pass_threshold`. -/
def doDelegate (cfg : Cfg) (s : State) (d : AccId) (vs : List AccId) (pass : Bool) : Except Err State :=
  if pass = false then .error .creditTooLow
  else
    let era := creditEra cfg s
    let s1 := match s.delegators.get d with
      | some old =>
        { s with
          active := if old.delegating then s.active else s.active + 1
          delegators := s.delegators.insert d ⟨d, vs, some (old.since.getD era), true⟩
          candidates := old.validators.foldl (fun m v => leave m d v) s.candidates }
      | none =>
        { s with
          active := s.active + 1
          count := s.count + 1
          delegators := s.delegators.insert d ⟨d, vs, some era, true⟩ }
    .ok { s1 with candidates := vs.foldl (fun m v => join m d v) s1.candidates }

/-- `delegate`, lib.rs:1861-1889. The number of different validators is checked, the list is passed on with
duplicates. -/
def delegate (cfg : Cfg) (s : State) (d : AccId) (vs : List AccId) (pass : Bool) : Except Err State :=
  if s.led.closed = false then .error .callNotAllowed
  else if s.led.validators.contains d then .error .callNotAllowed
  else if vs = [] then .error .noValidators
  else if cfg.maxDelegates < vs.eraseDups.length then .error .tooManyValidators
  else if vs.all (fun v => s.led.validators.contains v) = false then .error .notValidator
  else doDelegate cfg s d vs pass

/-- `delegate_any`, lib.rs:2385-2392: `order` are the validators in storage order. -/
def delegateAny (cfg : Cfg) (s : State) (d : AccId) (order : List AccId) (pass : Bool) : Except Err State :=
  match order[s.block % order.length]? with
  | none => .error .noValidators
  | some v => doDelegate cfg s d [v] pass

/-- `_undelegate`, lib.rs:3095-3127. -/
def undelegateOf (s : State) (d : AccId) : State :=
  match s.delegators.get d with
  | none => s
  | some x =>
    if x.delegating = false then s
    else
      let s1 := { s with candidates := x.validators.foldl (fun m v => leave m d v) s.candidates, active := s.active - 1 }
      if x.since = none ∨ x.since = some (s.led.era.getD 0) then
        { s1 with delegators := s.delegators.erase d, count := s.count - 1 }
      else { s1 with delegators := s.delegators.insert d { x with delegating := false } }

/-- `undelegate`, lib.rs:1894-1905. -/
def undelegate (s : State) (d : AccId) : Except Err State :=
  if s.delegators.contains d = false then .error .notDelegator else .ok (undelegateOf s d)

/-! ### Referrals -/

/-- Referee count of an account. -/
def countOf (s : State) (a : AccId) : Nat := (s.refereeCount.get a).getD 0

/-- `set_user_referer`, lib.rs:2021-2044. -/
def setReferer (s : State) (admin : Bool) (a r : AccId) : Except Err State :=
  if admin = false then .error .unauthorized
  else if a = r then .error .selfReferee
  else
    let c1 := s.refereeCount.insert r (countOf s r + 1)
    .ok { s with
      referer := s.referer.insert a r
      refereeCount := match s.referer.get a with
        | none => c1
        | some old => c1.insert old ((c1.get old).getD 0 - 1) }

/-- `unset_user_referer`, lib.rs:2048-2065. -/
def unsetReferer (s : State) (admin : Bool) (a : AccId) : Except Err State :=
  if admin = false then .error .unauthorized
  else .ok { s with
    referer := s.referer.erase a
    refereeCount := match s.referer.get a with
      | none => s.refereeCount
      | some old => s.refereeCount.insert old (countOf s old - 1) }

/-- `get_referel_bonus_rate`, lib.rs:2369-2379, in parts per billion. -/
def bonusRate (n : Nat) : Option Nat :=
  if n = 0 then none
  else if n ≤ 20 then some 50000000
  else if n ≤ 50 then some 60000000
  else if n ≤ 100 then some 75000000
  else if n ≤ 200 then some 90000000
  else some 120000000

/-! ### The mining pool -/

/-- What is left in the pool. -/
def poolOf (cfg : Cfg) (s : State) : Balance := s.pool.getD cfg.totalMining

/-- A deposit that may create the account. -/
def deposit (s : State) (a : AccId) (v : Balance) : State :=
  { s with led := { s.led with bank := s.led.bank.depositCreating a v } }

/-- The record of rewards of an account. -/
def rewardOf (s : State) (a : AccId) : RewardData := (s.rewards.get a).getD ⟨0, 0, 0, 0, 0⟩

/-- The reward of a delegator, lib.rs:2757-2795. -/
def payReward (s : State) (d : Delegator) (era : Nat) (pool poc : Balance) : State × Balance :=
  let old := rewardOf s d.who
  let s1 := { s with rewards := s.rewards.insert d.who { old with receivedPoc := old.receivedPoc + poc, poc := poc } }
  let reward := if era ≤ (s.blackList.get d.who).getD 0 then 0 else min pool poc
  (deposit s1 d.who reward, reward)

/-- The record of a delegator after a payment, lib.rs:2796-2805. -/
def settle (s : State) (d : Delegator) (era : Nat) : State :=
  if d.delegating then
    { s with delegators := s.delegators.insert d.who { ((s.delegators.get d.who).getD ⟨0, [], none, false⟩) with since := some era } }
  else { s with delegators := s.delegators.erase d.who, count := s.count - 1 }

/-- `pay_delegator`, lib.rs:2740-2807; `reward` is `get_reward` of the credit pallet. -/
def payDelegator (s : State) (d : Delegator) (era : Nat) (pool : Balance) (reward : AccId → Nat → Nat → Option Balance) :
    State × Balance × Option Payment :=
  let first := d.since.getD era
  if first = era then (s, 0, none)
  else
    let amount := reward d.who first (era - 1)
    let r := match amount with
      | none => (s, 0)
      | some poc => payReward s d era pool poc
    (settle r.1 d era, r.2, some ⟨d.who, first, era - 1, amount⟩)

/-- `pay_referer`, lib.rs:2809-2857. -/
def payReferer (s : State) (d : AccId) (paid pool : Balance) : State × Balance :=
  match s.referer.get d with
  | none => (s, 0)
  | some r =>
    match bonusRate (countOf s r) with
    | none => (s, 0)
    | some rate =>
      let v := min pool (Slashing.perbill rate paid)
      let s1 := deposit s r v
      let old := rewardOf s1 r
      ({ s1 with rewards := s1.rewards.insert r { old with totalReferee := old.totalReferee + v, receivedReferee := old.receivedReferee + v, referee := v } }, v)

/-- The account with the smallest key. -/
def minKey (key : AccId → Nat) : List AccId → Option AccId
  | [] => none
  | a :: l =>
    match minKey key l with
    | none => some a
    | some b => if key a ≤ key b then some a else some b

/-- The key lies behind the cursor. -/
def behind (last : Option Nat) (k : Nat) : Bool := match last with | none => true | some l => decide (l < k)

/-- The next delegator in storage order, `next_delegators_key` and the test for the prefix, lib.rs:3134-3136, 2700. -/
def nextDelegator (cfg : Cfg) (s : State) (last : Option Nat) : Option AccId :=
  minKey cfg.key (s.delegators.keys.filter fun a => behind last (cfg.key a))

/-- Variables of the payout loop. -/
structure Loop where
  s : State
  pool : Balance
  last : Option Nat
  /-- `true` as long as the loop was not left early -/
  full : Bool
  paid : List Payment

/-- The payout loop, lib.rs:2700-2725, with the number of payments left. -/
def payLoop (cfg : Cfg) (era : Nat) (reward : AccId → Nat → Nat → Option Balance) : Nat → Loop → Loop
  | 0, l => l
  | n + 1, l =>
    match nextDelegator cfg l.s l.last with
    | none => { l with full := false }
    | some a =>
      match l.s.delegators.get a with
      | none => { l with full := false }
      | some d =>
        let r := payDelegator l.s d era l.pool reward
        let l1 : Loop := { l with s := r.1, pool := l.pool - r.2.1, paid := l.paid ++ r.2.2.toList }
        if l1.pool = 0 then { l1 with full := false }
        else
          let q := payReferer l1.s d.who r.2.1 l1.pool
          let l2 : Loop := { l1 with s := q.1, pool := l1.pool - q.2 }
          if l2.pool = 0 then { l2 with full := false }
          else payLoop cfg era reward n { l2 with last := some (cfg.key a) }

/-- `pay_delegators`, lib.rs:2676-2738. -/
def payDelegators (cfg : Cfg) (s : State) (reward : AccId → Nat → Nat → Option Balance) : State × List Payment :=
  if poolOf cfg s = 0 then (s, [])
  else
    let l := payLoop cfg (creditEra cfg s) reward s.perBlock ⟨s, poolOf cfg s, s.lastKey, true, []⟩
    ({ l.s with pool := some l.pool, lastKey := if l.full then l.last else s.lastKey }, l.paid)

/-- `on_initialize`, lib.rs:2150-2181, of the next block. -/
def onBlock (cfg : Cfg) (s : State) (reward : AccId → Nat → Nat → Option Balance) : State × List Payment :=
  let s1 := { s with block := s.block + 1 }
  if s.led.era.getD 0 = 0 then (s1, [])
  else if s1.block % cfg.blocksPerEra = 0 then
    ({ s1 with perBlock := (s.count + (cfg.blocksPerEra - 2) - 1) / (cfg.blocksPerEra - 2) + 1, lastKey := none }, [])
  else payDelegators cfg s1 reward

/-- Share of a validator, lib.rs:2630-2633: `from_rational` rounds down, the product to the nearest. -/
def validatorShare (p : Points) (payout : Balance) (v : AccId) : Balance :=
  let n := (p.individual.get v).getD 0
  if n = 0 then 0 else Slashing.perbill (10 ^ 9 * n / p.total) payout

/-- The loop of `pay_validators`, lib.rs:2621-2642. -/
def payEachValidator (cfg : Cfg) (p : Points) (payout : Balance) : List AccId → State → Balance → State × Balance
  | [], s, t => (s, t)
  | v :: vs, s, t =>
    if (p.individual.get v).getD 0 = 0 then payEachValidator cfg p payout vs s t
    else
      let x := validatorShare p payout v
      payEachValidator cfg p payout vs { s with led := Ledger.payout cfg.led s.led v x } (t + x)

/-- `pay_validators`, lib.rs:2610-2648. -/
def payValidators (cfg : Cfg) (s : State) (era : Nat) : State :=
  if poolOf cfg s = 0 then s
  else
    let p := (s.points.get era).getD ⟨0, ∅⟩
    let r := payEachValidator cfg p (min s.eraReward (poolOf cfg s)) ((s.erasValidators.get era).getD []) s 0
    { r.1 with pool := some (poolOf cfg s - r.2) }

/-- `reward_by_ids`, lib.rs:3056-3066, for one validator; `era` is the active one. -/
def addPoints (s : State) (era : Nat) (v : AccId) (n : Nat) : State :=
  let p := (s.points.get era).getD ⟨0, ∅⟩
  { s with points := s.points.insert era ⟨p.total + n, p.individual.insert v ((p.individual.get v).getD 0 + n)⟩ }

/-- `npow_mint`, lib.rs:2069-2097. -/
def npowMint (cfg : Cfg) (s : State) (privileged : Bool) (target : AccId) (v : Balance) : Except Err State :=
  if privileged = false then .error .unauthorized
  else if poolOf cfg s < v then .error .insufficientValue
  else .ok { deposit s target v with pool := some (poolOf cfg s - v) }

/-- `difference_compensation`, lib.rs:1954-2009; `limitOk` is `is_single_max_limit` of the operation pallet for
the reward. -/
def compensate (cfg : Cfg) (s : State) (privileged limitOk : Bool) (d : AccId) (referee poc : Balance) : Except Err State :=
  if privileged = false then .error .unauthorized
  else if limitOk = false then .error .exceedsLimit
  else
    let old := rewardOf s d
    let s1 := { s with rewards := s.rewards.insert d { old with receivedReferee := old.receivedReferee + referee, referee := referee, receivedPoc := old.receivedPoc + poc, poc := poc } }
    let v := min (poolOf cfg s) (referee + poc)
    .ok { deposit s1 d v with pool := some (poolOf cfg s - v) }

/-- `increase_mining_reward`, lib.rs:1692-1703. -/
def increasePool (cfg : Cfg) (s : State) (root : Bool) (v : Balance) : Except Err State :=
  if root = false then .error .badOrigin else .ok { s with pool := some (poolOf cfg s + v) }

/-! ### Elections -/

/-- `trusted_validator`, lib.rs:2897-2900. -/
def trusted (s : State) (a : AccId) : Bool := decide (a ∈ s.whitelist) || decide (s.whitelist = [])

/-- A candidate with its number of delegators and the era of its last election. -/
structure Entry where
  who : AccId
  delegators : Nat
  electedEra : Nat
deriving DecidableEq, Repr

/-- `compare`, lib.rs:2985-2991: not behind. -/
def Entry.le (a b : Entry) : Bool :=
  decide (a.electedEra < b.electedEra) || (decide (a.electedEra = b.electedEra) && decide (b.delegators ≤ a.delegators))

/-- Insertion keeping the order of equal entries. -/
def insertEntry (x : Entry) : List Entry → List Entry
  | [] => [x]
  | y :: l => if x.le y then x :: y :: l else y :: insertEntry x l

/-- The stable `sort_by`. -/
def sortEntries : List Entry → List Entry
  | [] => []
  | x :: l => insertEntry x (sortEntries l)

/-- The candidates of an election in storage order, lib.rs:2912-2930. -/
def entries (s : State) (order : List AccId) : List Entry :=
  (order.filter (trusted s)).map fun v =>
    let c := (s.candidates.get v).getD .empty
    ⟨v, c.delegators.length, c.electedEra⟩

/-- Mark the elected ones, lib.rs:2944-2948. -/
def markElected (era : Nat) (m : FMap AccId Candidate) (v : AccId) : FMap AccId Candidate :=
  m.insert v { (m.get v).getD .empty with electedEra := era + 1 }

/-- Exposure of an elected validator, lib.rs:2959-2977. -/
def exposureOf (s : State) (truncated : Bool) (v : AccId) : Slashing.Exposure :=
  let stake := (((s.led.bonded.get v).bind s.led.ledgers.get).map Ledger.Ledger.active).getD 0
  ⟨stake, stake, if truncated then ((s.candidates.get v).getD .empty).delegators else []⟩

/-- `elect`, lib.rs:2911-2983. -/
def elect (s : State) (era : Nat) (order : List AccId) : State × Option (List AccId) :=
  let es := entries s order
  if es.length < max s.minValidators 1 then (s, none)
  else
    let elected := ((sortEntries es).take s.validatorCount).map Entry.who
    let s1 := { s with candidates := elected.foldl (markElected era) s.candidates }
    let truncated := decide (s.validatorCount < es.length)
    ({ s1 with stakers := elected.foldl (fun m v => m.insert (era, v) (exposureOf s1 truncated v)) s1.stakers }, some elected)

/-- `clear_era_information`, lib.rs:3017-3024. -/
def clearEra (s : State) (e : Nat) : State :=
  { s with
    points := s.points.erase e
    erasValidators := s.erasValidators.erase e
    stakers := (s.stakers.keys.filter fun k => decide (k.1 = e)).foldl (fun m k => m.erase k) s.stakers }

/-- The era to be planned, lib.rs:2870-2873. -/
def nextEra (s : State) : Nat := match s.led.era with | none => 0 | some e => e + 1

/-- Set the planned era and clear what leaves the history, lib.rs:2870-2880. -/
def enterEra (s : State) (era : Nat) : State :=
  let s1 := { s with led := { s.led with era := some era } }
  if s.historyDepth + 1 ≤ era then clearEra s1 (era - (s.historyDepth + 1)) else s1

/-- Store the elected validators, lib.rs:2882-2887. -/
def storeElected (s : State) (era : Nat) : Option (List AccId) → State
  | none => s
  | some l => { s with erasValidators := s.erasValidators.insert era l }

/-- `new_era`, lib.rs:2868-2888; `order` are the validators in storage order. -/
def newEra (s : State) (order : List AccId) : State × Out :=
  let r := elect (enterEra s (nextEra s)) (nextEra s) order
  (storeElected r.1 (nextEra s) r.2, .elected (nextEra s) r.2)

/-! ### Histories -/

inductive Op where
  | delegate (d : AccId) (vs : List AccId) (pass : Bool)
  /-- the last part of `staking_delegate` and `usdt_staking_delegate` -/
  | delegateAny (d : AccId) (order : List AccId) (pass : Bool)
  | undelegate (d : AccId)
  /-- `force_undelegate`, lib.rs:1908-1921 -/
  | forceUndelegate (root : Bool) (ds : List AccId)
  /-- `force_unstaking_delegate`, lib.rs:2117-2130 -/
  | forceUnstaking (admin : Bool) (d : AccId)
  | setReferer (admin : Bool) (a r : AccId)
  | unsetReferer (admin : Bool) (a : AccId)
  /-- `add_account_to_blacklist`, `remove_account_from_blacklist`, lib.rs:1925-1952 -/
  | blackList (admin : Bool) (a : AccId) (era : Option Nat)
  | npowMint (privileged : Bool) (target : AccId) (v : Balance)
  | compensate (privileged limitOk : Bool) (d : AccId) (referee poc : Balance)
  | increasePool (root : Bool) (v : Balance)
  /-- `set_era_validator_reward`, `set_validator_count`, ..., `set_minimum_validator_count`,
  `set_validator_whitelist`, `set_history_depth`, all by root (lib.rs:1512-1580, 1637-1646, 1809-1826, 2013-2018);
  deleting the information of eras that leave the history is left out -/
  | configure (eraReward : Balance) (count min : Nat) (whitelist : List AccId) (depth : Nat)
  | block (reward : AccId → Nat → Nat → Option Balance)
  /-- `end_era`, lib.rs:2860-2865 -/
  | endEra (era : Nat)
  | newEra (order : List AccId)
  | addPoints (era : Nat) (v : AccId) (n : Nat)
  /-- a call of the bonding part or any change of balances -/
  | ledger (op : Ledger.Op)

/-- Dispatch without rollback. -/
def body (cfg : Cfg) (s : State) : Op → Except Err (State × Out)
  | .delegate d vs p => (delegate cfg s d vs p).map (·, .done)
  | .delegateAny d o p => (delegateAny cfg s d o p).map (·, .done)
  | .undelegate d => (undelegate s d).map (·, .done)
  | .forceUndelegate r ds => if r = false then .error .badOrigin else .ok (ds.foldl undelegateOf s, .done)
  | .forceUnstaking k d => if k = false then .error .unauthorized else .ok (undelegateOf s d, .done)
  | .setReferer k a r => (setReferer s k a r).map (·, .done)
  | .unsetReferer k a => (unsetReferer s k a).map (·, .done)
  | .blackList k a e => if k = false then .error .unauthorized else .ok ({ s with blackList := s.blackList.set a e }, .done)
  | .npowMint k t v => (npowMint cfg s k t v).map (·, .done)
  | .compensate k l d r p => (compensate cfg s k l d r p).map (·, .done)
  | .increasePool r v => (increasePool cfg s r v).map (·, .done)
  | .configure e c m w d => .ok ({ s with eraReward := e, validatorCount := c, minValidators := m, whitelist := w, historyDepth := d }, .done)
  | .block r => .ok ((onBlock cfg s r).1, .paid (onBlock cfg s r).2)
  | .endEra e => .ok (payValidators cfg s e, .done)
  | .newEra o => .ok (newEra s o)
  | .addPoints e v n => .ok (addPoints s e v n, .done)
  | .ledger op => .ok ({ s with led := (Ledger.step cfg.led s.led op).1 }, .done)

/-- One call; a failed extrinsic changes nothing. -/
def step (cfg : Cfg) (s : State) (op : Op) : State × Out :=
  match body cfg s op with
  | .ok r => r
  | .error e => (s, .failed e)

/-- A history with its trace: the state before, the call, the output. -/
def run (cfg : Cfg) (s : State) : List Op → State × List (State × Op × Out)
  | [] => (s, [])
  | op :: ops =>
    let r := step cfg s op
    let q := run cfg r.1 ops
    (q.1, (s, op, r.2) :: q.2)

/-- Before genesis delegations are added by `delegate` (lib.rs:1042-1048). -/
def genesis (bank : Bank) (minBond : Balance) : State :=
  { led := Ledger.genesis bank minBond, block := 0, delegators := ∅, candidates := ∅, active := 0, count := 0, perBlock := 0,
    lastKey := none, pool := none, eraReward := 0, blackList := ∅, referer := ∅, refereeCount := ∅, rewards := ∅, points := ∅,
    erasValidators := ∅, stakers := ∅, whitelist := [], validatorCount := 0, minValidators := 0, historyDepth := 84 }

end Verif.Delegation
