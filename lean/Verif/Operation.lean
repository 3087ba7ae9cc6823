import Verif.Bank
import Verif.UserPrivileges

/-
Model of pallets/operation/src/lib.rs: release of staked balance by daily instalments, burning for
EZC, bridge transfers, locks.

Simplifications: strings (chain names, addresses on other chains, free data) are `String`; the extra
`data` argument, the foreign address and purely informative events are left out; sums are unbounded
(the code adds `u128`); day numbers of the clock are unbounded (the code converts to `u32`, which is
exact for 2^32 days), but the start day of a schedule, which is an argument, is reduced mod 2^32.
-/

namespace Verif.Operation

open Verif.UserPrivileges (Privilege)

structure Cfg where
  /-- `MinimumBurnedDPR`, runtime/src/lib.rs:492 -/
  minBurn : Balance
  /-- account receiving burnt balance: `BurnedTo = Treasury`, runtime/src/lib.rs:521 -/
  burnedTo : AccId
  /-- position of an account in the order of storage keys (hash of the account), which is the order
  in which lib.rs:546 and 569 walk through the map -/
  key : AccId → Nat

/-- `MILLISECS_PER_DAY`, lib.rs:64. -/
def msPerDay : Nat := 86400000

/-- `CurrentRelease` with the fields of `ReleaseInfo`, lib.rs:131-136 and 169-174; the field `account`
always is the storage key. -/
structure Info where
  days : Nat
  total : Balance
  startDay : Nat
  lastDay : Nat
  perDay : Balance
deriving DecidableEq, Repr

/-- Storage, lib.rs:176-240, and what is read from outside: clock, balances, privileges, and whether
`do_unstaking_slash_credit` of the credit pallet succeeds for an account. -/
structure State where
  now : Nat := 0
  bank : Bank
  priv : AccId → Privilege → Bool := fun _ _ => false
  slashOk : AccId → Bool := fun _ => false
  totalRelease : Balance := 0
  dailyMax : Balance
  singleMax : Balance
  daily : FMap Nat Balance := ∅
  infos : FMap AccId Info := ∅
  toOther : FMap String Balance := ∅
  fromOther : FMap String Balance := ∅
  /-- `AccountReleaseLastKey`; 0 is the prefix of the map -/
  lastKey : Nat := 0
  savedDay : Nat := 0
  dayEnd : Bool := false
  fund : Option AccId := none
  /-- amounts passed to `burn_record` of the credit pallet, latest first -/
  burnt : List Balance := []

/-- Day of the clock, lib.rs:250. -/
def State.today (s : State) : Nat := s.now / msPerDay

/-- One release: account, amount accounted for, amount really minted. -/
structure Release where
  acc : AccId
  amount : Balance
  minted : Balance
deriving DecidableEq, Repr

/-- Variables of the loop in `release_staking_balance`. -/
structure Scan where
  bank : Bank
  infos : FMap AccId Info
  total : Balance
  daily : Balance
  block : Balance
  removed : List AccId
  dayEnd : Bool
  lastKey : Nat
  releases : List Release

/-- Insert into a list of schedules ordered by storage key. -/
def insertByKey (key : AccId → Nat) (e : AccId × Info) : List (AccId × Info) → List (AccId × Info)
  | [] => [e]
  | x :: xs => if key e.1 < key x.1 then e :: x :: xs else x :: insertByKey key e xs

/-- The schedules in the order of their storage keys, as `next_key` enumerates them, lib.rs:532. -/
def sortByKey (key : AccId → Nat) : List (AccId × Info) → List (AccId × Info)
  | [] => []
  | e :: es => insertByKey key e (sortByKey key es)

/-- Amount due for a schedule, lib.rs:561-562. -/
def accrued (day : Nat) (i : Info) : Balance := i.perDay * (day - i.lastDay)

/-- One release in the loop, lib.rs:577-597. The inserted value is the stored one with a new last
release day. -/
def release (day : Nat) (c : Scan) (a : AccId) (i : Info) : Scan :=
  let v := accrued day i
  let b := c.bank.depositCreating a v
  { c with
    bank := b
    infos := c.infos.insert a { i with lastDay := day }
    total := c.total + v
    daily := c.daily + v
    block := c.block + v
    removed := if i.days ≤ day - i.startDay then c.removed ++ [a] else c.removed
    releases := c.releases ++ [⟨a, v, b.free a - c.bank.free a⟩] }

/-- The loop of `release_staking_balance`, lib.rs:551-608, over the schedules behind the last key. At
the end of the map the code also stores the key behind the map; that key is not used again, because
`DayReleaseEnd` is set and the key is reset on the next day. -/
def scan (cfg : Cfg) (s : State) (day : Nat) : List (AccId × Info) → Scan → Scan
  | [], c => { c with dayEnd := true }
  | (a, i) :: rest, c =>
    if accrued day i = 0 then scan cfg s day rest c
    else if s.singleMax < accrued day i then { c with lastKey := cfg.key a }
    else
      let c := release day c a i
      if s.dailyMax ≤ c.daily then { c with dayEnd := true, lastKey := cfg.key a }
      else if s.singleMax ≤ c.block then { c with lastKey := cfg.key a }
      else scan cfg s day rest c

/-- `release_staking_balance`, lib.rs:540-615. -/
def releaseStaking (cfg : Cfg) (s : State) (day : Nat) : State × List Release :=
  if s.dayEnd then (s, [])
  else
    let todo := (sortByKey cfg.key s.infos.entries).filter fun e => decide (s.lastKey < cfg.key e.1)
    let c := scan cfg s day todo
      ⟨s.bank, s.infos, s.totalRelease, (s.daily.get day).getD 0, 0, [], s.dayEnd, s.lastKey, []⟩
    ({ s with
        bank := c.bank
        daily := s.daily.insert day c.daily
        totalRelease := c.total
        lastKey := c.lastKey
        dayEnd := c.dayEnd
        infos := c.removed.foldl (fun m a => m.erase a) c.infos },
      c.releases)

/-- `on_finalize`, lib.rs:247-259. -/
def finalize (cfg : Cfg) (s : State) : State × List Release :=
  if s.savedDay < s.today then
    ({ s with savedDay := s.today, dayEnd := false, lastKey := 0 }, [])
  else releaseStaking cfg s s.today

inductive Err where
  | notMatchOwner | reachSingleMaximumLimit | releaseDayZero | burnedDprTooLow | releaseBalanceZero
  | unauthorizedAccounts | fundPoolNotSet | badOrigin | creditError
  | bank (e : BankErr)
deriving DecidableEq, Repr

/-- Result of a balance operation. -/
def liftBank {α : Type} : Except BankErr α → Except Err α
  | .ok a => .ok a
  | .error e => .error (.bank e)

/-- `force_reserve_by_member`, lib.rs:280-294. -/
def forceReserve (s : State) (sender who : AccId) (v : Balance) : Except Err State :=
  if !s.priv sender .lockerMember then .error .unauthorizedAccounts
  else (liftBank (s.bank.reserve who v)).map fun b => { s with bank := b }

/-- `force_remove_lock`, lib.rs:266-276. `frozen` is the largest remaining lock of the account. -/
def forceRemoveLock (s : State) (root : Bool) (who : AccId) (frozen : Balance) : Except Err State :=
  if !root then .error .badOrigin
  else .ok { s with bank := { s.bank with frozen := fun x => if x = who then frozen else s.bank.frozen x } }

/-- `unlock_assets_via_democracy`, lib.rs:506-524. -/
def unlockAssets (s : State) (root : Bool) (src dst : AccId) (amount frozen : Balance) : Except Err State :=
  if !root then .error .badOrigin
  else
    let b := { s.bank with frozen := fun x => if x = src then frozen else s.bank.frozen x }
    (liftBank (b.transfer src dst amount false)).map fun b => { s with bank := b }

/-- `set_release_limit_parameter`, lib.rs:298-309. -/
def setLimits (s : State) (root : Bool) (single daily : Balance) : Except Err State :=
  if !root then .error .badOrigin else .ok { s with singleMax := single, dailyMax := daily }

/-- `unstaking_release`, lib.rs:314-368. `moment` is the start in milliseconds (`u64`). -/
def unstakingRelease (s : State) (setter a : AccId) (days : Nat) (moment : Nat) (total : Balance) :
    Except Err State :=
  if !s.priv setter .releaseSetter then .error .notMatchOwner
  else if days = 0 then .error .releaseDayZero
  else if total = 0 then .error .releaseBalanceZero
  else
    let start := (moment / msPerDay) % 2 ^ 32
    let perDay := total / days
    if s.singleMax < perDay then .error .reachSingleMaximumLimit
    else if !s.slashOk a then .error .creditError
    else .ok { s with infos := s.infos.insert a ⟨days, total, start, start, perDay⟩ }

/-- `remove_staking_release_info`, lib.rs:372-382. -/
def removeInfos (s : State) (setter : AccId) (accs : List AccId) : Except Err State :=
  if !s.priv setter .releaseSetter then .error .notMatchOwner
  else .ok { s with infos := accs.foldl (fun m a => m.erase a) s.infos }

/-- `burn_for_ezc`, lib.rs:386-407. `Treasury::on_unbalanced` deposits into the treasury account. -/
def burnForEzc (cfg : Cfg) (s : State) (sender : AccId) (v : Balance) : Except Err State :=
  if v < cfg.minBurn then .error .burnedDprTooLow
  else (liftBank (s.bank.withdraw sender v true)).map fun b =>
    { s with bank := b.depositCreating cfg.burnedTo v, burnt := v :: s.burnt }

/-- `set_fund_pool_address`, lib.rs:411-422. -/
def setFund (s : State) (who funder : AccId) : Except Err State :=
  if !s.priv who .bridgeAdmin then .error .unauthorizedAccounts
  else .ok { s with fund := some funder }

/-- `u128::saturating_add`. -/
def satAdd128 (x y : Nat) : Nat := min (x + y) (2 ^ 128 - 1)

/-- `bridge_deeper_to_other`, lib.rs:426-455. -/
def bridgeOut (s : State) (who src : AccId) (v : Balance) (chain : String) : Except Err State :=
  if !s.priv who .bridgeAdmin then .error .unauthorizedAccounts
  else match s.fund with
    | none => .error .fundPoolNotSet
    | some f => (liftBank (s.bank.transfer src f v true)).map fun b =>
      { s with bank := b, toOther := s.toOther.insert chain (satAdd128 ((s.toOther.get chain).getD 0) v) }

/-- `bridge_other_to_deeper`, lib.rs:459-488. -/
def bridgeIn (s : State) (who dst : AccId) (v : Balance) (chain : String) : Except Err State :=
  if !s.priv who .bridgeAdmin then .error .unauthorizedAccounts
  else match s.fund with
    | none => .error .fundPoolNotSet
    | some f => (liftBank (s.bank.transfer f dst v true)).map fun b =>
      { s with bank := b, fromOther := s.fromOther.insert chain (satAdd128 ((s.fromOther.get chain).getD 0) v) }

/-- `is_single_max_limit`, lib.rs:627-634 (used by the staking pallet). -/
def isSingleMaxLimit (s : State) (v : Balance) : Bool :=
  decide (v ≤ s.singleMax) && decide (satAdd128 ((s.daily.get s.savedDay).getD 0) v ≤ s.dailyMax)

inductive Op where
  | forceRemoveLock (root : Bool) (who : AccId) (frozen : Balance)
  | forceReserve (sender who : AccId) (v : Balance)
  | setLimits (root : Bool) (single daily : Balance)
  | unstakingRelease (setter a : AccId) (days moment : Nat) (total : Balance)
  | removeInfos (setter : AccId) (accs : List AccId)
  | burnForEzc (sender : AccId) (v : Balance)
  | setFund (who funder : AccId)
  | bridgeOut (who src : AccId) (v : Balance) (chain : String)
  | bridgeIn (who dst : AccId) (v : Balance) (chain : String)
  | applyBridge (who : AccId) (v : Balance) (chain : String)
  | unlockAssets (root : Bool) (src dst : AccId) (v frozen : Balance)
  | finalize
  /-- time passes; balances, privileges and credit change outside the pallet -/
  | external (dt : Nat) (bank : Bank) (priv : AccId → Privilege → Bool) (slashOk : AccId → Bool)

inductive Out where
  | done
  | released (l : List Release)
  | failed (e : Err)
deriving DecidableEq, Repr

/-- Dispatch. -/
def body (cfg : Cfg) (s : State) : Op → Except Err (State × Out)
  | .forceRemoveLock r w f => (forceRemoveLock s r w f).map (·, .done)
  | .forceReserve x w v => (forceReserve s x w v).map (·, .done)
  | .setLimits r x d => (setLimits s r x d).map (·, .done)
  | .unstakingRelease x a d m t => (unstakingRelease s x a d m t).map (·, .done)
  | .removeInfos x l => (removeInfos s x l).map (·, .done)
  | .burnForEzc x v => (burnForEzc cfg s x v).map (·, .done)
  | .setFund w f => (setFund s w f).map (·, .done)
  | .bridgeOut w x v c => (bridgeOut s w x v c).map (·, .done)
  | .bridgeIn w x v c => (bridgeIn s w x v c).map (·, .done)
  | .applyBridge _ _ _ => .ok (s, .done)
  | .unlockAssets r x d v f => (unlockAssets s r x d v f).map (·, .done)
  | .finalize => .ok ((finalize cfg s).1, .released (finalize cfg s).2)
  | .external dt b p k => .ok ({ s with now := s.now + dt, bank := b, priv := p, slashOk := k }, .done)

/-- One call; a failing call changes nothing. -/
def step (cfg : Cfg) (s : State) (op : Op) : State × Out :=
  match body cfg s op with
  | .ok r => r
  | .error e => (s, .failed e)

/-- A history: final state and every call with the state before it and its result. -/
def run (cfg : Cfg) (s : State) : List Op → State × List (State × Op × Out)
  | [] => (s, [])
  | op :: ops =>
    let r := step cfg s op
    let t := run cfg r.1 ops
    (t.1, (s, op, r.2) :: t.2)

/-- Storage at genesis: defaults of lib.rs:180-196, everything else empty. -/
def genesis (bank : Bank) (dailyMax singleMax : Balance) : State :=
  { bank := bank, dailyMax := dailyMax, singleMax := singleMax }

end Verif.Operation
