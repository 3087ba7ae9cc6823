import Verif.Bank

/-
Model of the stash/controller part of pallets/staking/src/lib.rs: bonding, unbonding, withdrawal,
re-bonding, slashing of a ledger, payouts into a ledger.

Simplifications: `claimed_rewards` (written at bonding only, lib.rs:1152, never read) and the history
depth are left out; amounts are unbounded naturals; reference counts of the account (`inc_consumers`,
lib.rs:1133) belong to the environment, the only effect kept is that incrementing can fail; slashing
spans are modelled in Verif/Spans.lean, here only whether the number given by the caller suffices
(lib.rs:3003) matters. Which offences and rewards occur is arbitrary (operations `slash`, `payout`,
`kick`).
-/

namespace Verif.Ledger

/-- Constants. -/
structure Cfg where
  /-- `BondingDuration`, runtime/src/lib.rs: 672 eras -/
  bondingDuration : Nat
  /-- `MAX_UNLOCKING_CHUNKS` (32), lib.rs:86 -/
  maxChunks : Nat
  /-- whether `LockableCurrency::set_lock` with amount zero replaces an existing lock. In
  polkadot-v1.1.0 it does nothing (`false`); that source is not in the repository. -/
  zeroLock : Bool

/-- `UnlockChunk`, lib.rs:209-217. -/
structure Chunk where
  value : Balance
  era : Nat
deriving DecidableEq, Repr

/-- `StakingLedger`, lib.rs:221-238. -/
structure Ledger where
  stash : AccId
  total : Balance
  active : Balance
  unlocking : List Chunk
deriving DecidableEq, Repr

/-- `RewardDestination`, lib.rs:160-169. -/
inductive Dest where
  | staked | stash | controller | account (a : AccId)
deriving DecidableEq, Repr

/-- Storage (lib.rs:711-735, 875, `ExistentialDeposit`, `CurrentEra`), locks and balances. -/
structure State where
  bank : Bank
  /-- `CurrentEra` -/
  era : Option Nat
  /-- `EraElectionStatus` is closed -/
  closed : Bool
  /-- storage item `ExistentialDeposit` of the staking pallet (minimum bond) -/
  minBond : Balance
  bonded : FMap AccId AccId
  ledgers : FMap AccId Ledger
  payees : FMap AccId Dest
  /-- `Validators` (commission, blocked) -/
  validators : FMap AccId (Nat × Bool)
  /-- locks with id `STAKING_ID` -/
  locks : FMap AccId Balance
  /-- largest of the other locks on an account -/
  otherLocks : AccId → Balance

inductive Err where
  | alreadyBonded | alreadyPaired | insufficientValue | badState | notStash | notController | callNotAllowed
  | noMoreChunks | noUnlockChunk | fundedTarget | incorrectSpans | badOrigin | invalidExistentialDeposit
deriving DecidableEq, Repr

/-! ### Pure functions on a ledger -/

/-- The closure inside `consolidate_unlocked`, lib.rs:250-257: total after removing the matured chunks. -/
def matured (now : Nat) : List Chunk → Balance → Balance
  | [], t => t
  | c :: cs, t => matured now cs (if now < c.era then t else t - c.value)

/-- `consolidate_unlocked`, lib.rs:245-267. -/
def consolidate (l : Ledger) (now : Nat) : Ledger :=
  { l with total := matured now l.unlocking l.total, unlocking := l.unlocking.filter (fun c => decide (now < c.era)) }

/-- The loop of `rebond`, lib.rs:273-288, on the reversed list of chunks: `got` has been moved so far. -/
def rebondLoop (value : Balance) : List Chunk → Balance → Balance → Balance × List Chunk
  | [], active, _ => (active, [])
  | c :: cs, active, got =>
    if got + c.value ≤ value then
      if value ≤ got + c.value then (active + c.value, cs)
      else rebondLoop value cs (active + c.value) (got + c.value)
    else (active + (value - got), { c with value := c.value - (value - got) } :: cs)

/-- `StakingLedger::rebond`, lib.rs:270-292. -/
def rebondLedger (l : Ledger) (value : Balance) : Ledger :=
  let r := rebondLoop value l.unlocking.reverse l.active 0
  { l with active := r.1, unlocking := r.2.reverse }

/-- The closure `slash_out_of`, lib.rs:310-324: total, target and value afterwards. -/
def slashPart (minimum total target value : Balance) : Balance × Balance × Balance :=
  let d := min value target
  if d = 0 then (total, target, value)
  else if target - d ≤ minimum then
    let d' := d + (target - d)
    (total - d', 0, value + (target - d) - d')
  else (total - d, target - d, value - d)

/-- The iterator over the chunks, lib.rs:328-338: chunks are slashed until one of them keeps something;
the ones used up are removed. -/
def slashChunks (minimum : Balance) : List Chunk → Balance → Balance → Balance × List Chunk
  | [], total, _ => (total, [])
  | c :: cs, total, value =>
    let r := slashPart minimum total c.value value
    if r.2.1 = 0 then slashChunks minimum cs r.1 r.2.2 else (r.1, { c with value := r.2.1 } :: cs)

/-- `StakingLedger::slash`, lib.rs:305-344; returns the amount slashed. -/
def slashLedger (l : Ledger) (value minimum : Balance) : Ledger × Balance :=
  let r := slashPart minimum l.total l.active value
  let q := slashChunks minimum l.unlocking r.1 r.2.2
  ({ l with total := q.1, active := r.2.1, unlocking := q.2 }, l.total - q.1)

/-! ### Storage -/

/-- Set the staking lock of an account. -/
def putLock (s : State) (a : AccId) (v : Balance) : State :=
  { s with locks := s.locks.insert a v, bank := { s.bank with frozen := fun x => if x = a then max v (s.otherLocks x) else s.bank.frozen x } }

/-- `LockableCurrency::set_lock`. -/
def setLock (cfg : Cfg) (s : State) (a : AccId) (v : Balance) : State :=
  if v = 0 ∧ cfg.zeroLock = false then s else putLock s a v

/-- `LockableCurrency::remove_lock`. -/
def removeLock (s : State) (a : AccId) : State :=
  { s with locks := s.locks.erase a, bank := { s.bank with frozen := fun x => if x = a then s.otherLocks x else s.bank.frozen x } }

/-- `update_ledger`, lib.rs:2476-2487. -/
def updateLedger (cfg : Cfg) (s : State) (c : AccId) (l : Ledger) : State :=
  let s' := setLock cfg s l.stash l.total
  { s' with ledgers := s'.ledgers.insert c l }

/-- `kill_stash`, lib.rs:3000-3014. `spansOk`: the given number of slashing spans suffices. -/
def killStash (s : State) (stash : AccId) (spansOk : Bool) : Except Err State :=
  match s.bonded.get stash with
  | none => .error .notStash
  | some c =>
    if spansOk = false then .error .incorrectSpans
    else .ok { s with bonded := s.bonded.erase stash, ledgers := s.ledgers.erase c, payees := s.payees.erase stash, validators := s.validators.erase stash }

/-- Events with amounts. -/
inductive Out where
  | done
  /-- `Bonded` -/
  | bonded (stash : AccId) (v : Balance)
  /-- `Unbonded` -/
  | unbonded (stash : AccId) (v : Balance)
  /-- `Withdrawn` -/
  | withdrawn (stash : AccId) (v : Balance)
  /-- result of `do_slash`: amount removed from the ledger, amount taken from the account -/
  | slashed (stash : AccId) (v taken : Balance)
  /-- `ValidatorBurned` -/
  | burned (controller : AccId) (v : Balance)
  | failed (e : Err)
deriving DecidableEq, Repr

/-- `bond`, lib.rs:1111-1156. `refOk`: the reference count of the stash could be raised. -/
def bond (cfg : Cfg) (s : State) (stash c : AccId) (value : Balance) (payee : Dest) (refOk : Bool) :
    Except Err (State × Out) :=
  if s.bonded.contains stash then .error .alreadyBonded
  else if s.ledgers.contains c then .error .alreadyPaired
  else if value < s.minBond then .error .insufficientValue
  else if refOk = false then .error .badState
  else
    let v := min value (s.bank.free stash)
    let s1 := { s with bonded := s.bonded.insert stash c, payees := s.payees.insert stash payee }
    .ok (updateLedger cfg s1 c ⟨stash, v, v, []⟩, .bonded stash v)

/-- `set_existential_deposit`, lib.rs:1160-1174. -/
def setMinBond (s : State) (root : Bool) (v : Balance) : Except Err (State × Out) :=
  if root = false then .error .badOrigin
  else if v < s.bank.ed then .error .invalidExistentialDeposit
  else .ok ({ s with minBond := v }, .done)

/-- `bond_extra`, lib.rs:1198-1226. -/
def bondExtra (cfg : Cfg) (s : State) (stash : AccId) (maxAdditional : Balance) : Except Err (State × Out) :=
  if s.closed = false then .error .callNotAllowed
  else match s.bonded.get stash with
  | none => .error .notStash
  | some c =>
    match s.ledgers.get c with
    | none => .error .notController
    | some l =>
      if s.bank.free stash < l.total then .ok (s, .done)
      else
        let extra := min (s.bank.free stash - l.total) maxAdditional
        if l.active + extra < s.bank.ed then .error .insufficientValue
        else
          .ok (updateLedger cfg s c { l with total := l.total + extra, active := l.active + extra },
            .bonded stash extra)

/-- `unbond`, lib.rs:1262-1295. -/
def unbond (cfg : Cfg) (s : State) (c : AccId) (value : Balance) : Except Err (State × Out) :=
  if s.closed = false then .error .callNotAllowed
  else match s.ledgers.get c with
  | none => .error .notController
  | some l =>
    if cfg.maxChunks ≤ l.unlocking.length then .error .noMoreChunks
    else
      let v := min value l.active
      if v = 0 then .ok (s, .done)
      else
        let rest := l.active - v
        let v' := if rest < s.minBond then v + rest else v
        let rest' := if rest < s.minBond then 0 else rest
        let chunk : Chunk := ⟨v', s.era.getD 0 + cfg.bondingDuration⟩
        .ok (updateLedger cfg s c { l with active := rest', unlocking := l.unlocking ++ [chunk] }, .unbonded l.stash v')

/-- The ledger without matured chunks, lib.rs:1342-1344. -/
def consolidateAt (l : Ledger) : Option Nat → Ledger
  | some e => consolidate l e
  | none => l

/-- `withdraw_unbonded`, lib.rs:1331-1373. -/
def withdraw (cfg : Cfg) (s : State) (c : AccId) (spansOk : Bool) : Except Err (State × Out) :=
  if s.closed = false then .error .callNotAllowed
  else match s.ledgers.get c with
  | none => .error .notController
  | some l0 =>
    let l := consolidateAt l0 s.era
    let out : Out := if l.total < l0.total then .withdrawn l0.stash (l0.total - l.total) else .done
    if l.unlocking.isEmpty = true ∧ l.active ≤ s.bank.ed then
      match killStash s l0.stash spansOk with
      | .error e => .error e
      | .ok s1 => .ok (removeLock s1 l0.stash, out)
    else .ok (updateLedger cfg s c l, out)

/-- `validate`, lib.rs:1394-1404. -/
def validate (s : State) (c : AccId) (prefs : Nat × Bool) : Except Err (State × Out) :=
  if s.closed = false then .error .callNotAllowed
  else match s.ledgers.get c with
  | none => .error .notController
  | some l => .ok ({ s with validators := s.validators.insert l.stash prefs }, .done)

/-- `chill`, lib.rs:1425-1434. -/
def chill (s : State) (c : AccId) : Except Err (State × Out) :=
  if s.closed = false then .error .callNotAllowed
  else match s.ledgers.get c with
  | none => .error .notController
  | some l => .ok ({ s with validators := s.validators.erase l.stash }, .done)

/-- `set_payee`, lib.rs:1454-1463. -/
def setPayee (s : State) (c : AccId) (d : Dest) : Except Err (State × Out) :=
  match s.ledgers.get c with
  | none => .error .notController
  | some l => .ok ({ s with payees := s.payees.insert l.stash d }, .done)

/-- `set_controller`, lib.rs:1483-1500. -/
def setController (s : State) (stash c : AccId) : Except Err (State × Out) :=
  match s.bonded.get stash with
  | none => .error .notStash
  | some old =>
    if s.ledgers.contains c then .error .alreadyPaired
    else if c = old then .ok (s, .done)
    else
      match s.ledgers.get old with
      | none => .ok ({ s with bonded := s.bonded.insert stash c }, .done)
      | some l => .ok ({ s with bonded := s.bonded.insert stash c, ledgers := (s.ledgers.erase old).insert c l }, .done)

/-- `force_unstake`, lib.rs:1659-1673. -/
def forceUnstake (s : State) (root : Bool) (stash : AccId) (spansOk : Bool) : Except Err (State × Out) :=
  if root = false then .error .badOrigin
  else match killStash s stash spansOk with
  | .error e => .error e
  | .ok s1 => .ok (removeLock s1 stash, .done)

/-- `rebond`, lib.rs:1763-1784. -/
def rebond (cfg : Cfg) (s : State) (c : AccId) (value : Balance) : Except Err (State × Out) :=
  if s.closed = false then .error .callNotAllowed
  else match s.ledgers.get c with
  | none => .error .notController
  | some l =>
    if l.unlocking.isEmpty then .error .noUnlockChunk
    else if (rebondLedger l value).active < s.bank.ed then .error .insufficientValue
    else .ok (updateLedger cfg s c (rebondLedger l value), .done)

/-- `reap_stash`, lib.rs:1846-1857: by anybody. -/
def reap (s : State) (stash : AccId) (spansOk : Bool) : Except Err (State × Out) :=
  if s.bank.total stash ≠ s.bank.ed then .error .fundedTarget
  else match killStash s stash spansOk with
  | .error e => .error e
  | .ok s1 => .ok (removeLock s1 stash, .done)

/-- `validator_burn`, lib.rs:2101-2113. -/
def burn (cfg : Cfg) (s : State) (c : AccId) (amount : Balance) : Except Err (State × Out) :=
  match s.ledgers.get c with
  | none => .error .notController
  | some l =>
    let s1 := removeLock s l.stash
    let r := slashLedger l amount s.bank.ed
    let s2 := { s1 with bank := (s1.bank.slash l.stash r.2).1 }
    .ok (updateLedger cfg s2 c r.1, .burned c r.2)

/-- `do_slash`, slashing.rs:481-513. -/
def doSlash (cfg : Cfg) (s : State) (stash : AccId) (value : Balance) : State × Out :=
  match s.bonded.get stash with
  | none => (s, .done)
  | some c =>
    match s.ledgers.get c with
    | none => (s, .done)
    | some l =>
      let r := slashLedger l value s.bank.ed
      if r.2 = 0 then (s, .done)
      else
        let q := s.bank.slash stash r.2
        (updateLedger cfg { s with bank := q.1 } c r.1, .slashed stash r.2 q.2)

/-- A deposit whose failure is ignored. -/
def depositOr (b : Bank) (a : AccId) (v : Balance) : Bank :=
  match b.depositExisting a v with
  | .ok b' => b'
  | .error _ => b

/-- `make_validator_payout`, lib.rs:2651-2673; the default destination is `Staked` (lib.rs:171-175). -/
def payout (cfg : Cfg) (s : State) (stash : AccId) (v : Balance) : State :=
  match (s.payees.get stash).getD .staked with
  | .controller =>
    match s.bonded.get stash with
    | none => s
    | some c => { s with bank := s.bank.depositCreating c v }
  | .stash => { s with bank := depositOr s.bank stash v }
  | .staked =>
    match s.bonded.get stash with
    | none => s
    | some c =>
      match s.ledgers.get c with
      | none => s
      | some l =>
        updateLedger cfg { s with bank := depositOr s.bank stash v } c
          { l with active := l.active + v, total := l.total + v }
  | .account a => { s with bank := s.bank.depositCreating a v }

/-- Calls that touch this part of the storage. -/
inductive Op where
  | bond (stash c : AccId) (value : Balance) (payee : Dest) (refOk : Bool)
  | setMinBond (root : Bool) (v : Balance)
  | bondExtra (stash : AccId) (v : Balance)
  | unbond (c : AccId) (v : Balance)
  | withdraw (c : AccId) (spansOk : Bool)
  | validate (c : AccId) (prefs : Nat × Bool)
  | chill (c : AccId)
  | setPayee (c : AccId) (d : Dest)
  | setController (stash c : AccId)
  | forceUnstake (root : Bool) (stash : AccId) (spansOk : Bool)
  | rebond (c : AccId) (v : Balance)
  | reap (stash : AccId) (spansOk : Bool)
  | burn (c : AccId) (v : Balance)
  /-- `do_slash` for an offence -/
  | slash (stash : AccId) (v : Balance)
  /-- `make_validator_payout` at the end of an era -/
  | payout (stash : AccId) (v : Balance)
  /-- `chill_stash` for an offence, lib.rs:2490 -/
  | kick (stash : AccId)
  /-- a new era begins (lib.rs:2868-2875) -/
  | newEra
  /-- arbitrary changes outside: balances, other locks, election window -/
  | external (bank : Bank) (others : AccId → Balance) (closed : Bool)

/-- The lock of an account, zero if there is none. -/
def lockOf (s : State) (a : AccId) : Balance := (s.locks.get a).getD 0

/-- Dispatch without rollback. -/
def body (cfg : Cfg) (s : State) : Op → Except Err (State × Out)
  | .bond a c v p r => bond cfg s a c v p r
  | .setMinBond r v => setMinBond s r v
  | .bondExtra a v => bondExtra cfg s a v
  | .unbond c v => unbond cfg s c v
  | .withdraw c k => withdraw cfg s c k
  | .validate c p => validate s c p
  | .chill c => chill s c
  | .setPayee c d => setPayee s c d
  | .setController a c => setController s a c
  | .forceUnstake r a k => forceUnstake s r a k
  | .rebond c v => rebond cfg s c v
  | .reap a k => reap s a k
  | .burn c v => burn cfg s c v
  | .slash a v => .ok (doSlash cfg s a v)
  | .payout a v => .ok (payout cfg s a v, .done)
  | .kick a => .ok ({ s with validators := s.validators.erase a }, .done)
  | .newEra => .ok ({ s with era := some (match s.era with | none => 0 | some e => e + 1) }, .done)
  | .external b o c =>
    .ok ({ s with bank := { b with frozen := fun x => max (lockOf s x) (o x) }, otherLocks := o, closed := c }, .done)

/-- One call; a failed extrinsic changes nothing. -/
def step (cfg : Cfg) (s : State) (op : Op) : State × Out :=
  match body cfg s op with
  | .ok r => r
  | .error e => (s, .failed e)

/-- A history with its trace. -/
def run (cfg : Cfg) (s : State) : List Op → State × List (State × Op × Out)
  | [] => (s, [])
  | op :: ops =>
    let r := step cfg s op
    let q := run cfg r.1 ops
    (q.1, (s, op, r.2) :: q.2)

/-- Before anybody has bonded (the genesis stakers are added by `bond`, lib.rs:1027). -/
def genesis (bank : Bank) (minBond : Balance) : State :=
  ⟨bank, none, true, minBond, ∅, ∅, ∅, ∅, ∅, fun _ => 0⟩

end Verif.Ledger
