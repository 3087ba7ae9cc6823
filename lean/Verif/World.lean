import Verif.DeeperNodeProperties
import Verif.TipsProperties
import Verif.CouncilProofs
import Verif.Operation
import Verif.Micropayment
import Verif.Ledger
import Verif.BankExact

/-!
# The pallets on one set of accounts

Every model of a single pallet leaves the rest of the chain arbitrary: its `external` operation replaces
all balances. Here the pallets that reserve, take and pay money run side by side on *one* balances
pallet, as they are composed in `construct_runtime!` (runtime/src/lib.rs:1551-1624): the device registry
(pallets/deeper-node), tips (pallets/tips), the council elections (pallets/elections-phragmen), the
operation pallet (pallets/operation), micropayments (pallets/micropayment) and the staking ledger
(pallets/staking). The other pallets of the runtime appear as plain balance operations (`Money`: fees,
transfers, rewards, slashes) and, for those that reserve (upstream multisig, proxy, identity, assets,
treasury and democracy deposits), as a keeper of deposits that releases no more than it took
(`hold`, `release`).

## Simplifications

* Locks: an account has three locks, that of the staking pallet, that of the council elections and one for all
  the others (vesting, democracy), which `locks` replaces arbitrarily; all apply to every kind of withdrawal.
* References which keep an account alive: one for a stash (`inc_consumers` in `bond`, lib.rs:1133, given back by
  `kill_stash`, lib.rs:3011), and any others, which `locks` replaces arbitrarily.
* The other pallets with deposits are summarised by one map of amounts held; that the upstream code is
  such a keeper is part of the trusted base.
-/

namespace Verif.World

open Verif

/-- Balance operations of the rest of the chain: transaction fees and transfers, rewards and slashes of
free balances (frame/balances, impl_currency.rs). -/
inductive Money where
  | transfer (src dst : AccId) (v : Balance) (keepAlive : Bool)
  | withdraw (a : AccId) (v : Balance) (keepAlive : Bool)
  | mint (a : AccId) (v : Balance)
  | mintExisting (a : AccId) (v : Balance)
  | slash (a : AccId) (v : Balance)

/-- The balances after an operation; an operation that fails changes nothing. -/
def money (b : Bank) : Money → Bank
  | .transfer x y v k => match b.transfer x y v k with | .ok b' => b' | .error _ => b
  | .withdraw a v k => match b.withdraw a v k with | .ok b' => b' | .error _ => b
  | .mint a v => b.depositCreating a v
  | .mintExisting a v => match b.depositExisting a v with | .ok b' => b' | .error _ => b
  | .slash a v => (b.slash a v).1

/-- Parameters of the pallets (runtime/src/lib.rs). -/
structure Cfg where
  node : DeeperNode.Cfg
  tips : Tips.Cfg
  council : Council.Cfg
  oper : Operation.Cfg
  micro : Micropayment.Config
  ledger : Ledger.Cfg

/-- The accounts, and the storage of the pallets. The `bank` fields of the single pallets are not used:
each call sees `bank`. -/
structure State where
  bank : Bank
  node : DeeperNode.State
  tips : Tips.State
  council : Council.State
  oper : Operation.State
  micro : Micropayment.State
  ledger : Ledger.State
  /-- deposits held by the other pallets -/
  others : AccId → Balance
  /-- locks of the other pallets -/
  rest : AccId → Balance
  /-- accounts which another pallet keeps alive -/
  pins : AccId → Bool

/-- Whatever happens on the chain. -/
inductive Op where
  | node (op : DeeperNode.Op)
  | tips (op : Tips.Op)
  | council (op : Council.Op)
  | oper (op : Operation.Op)
  | micro (op : Micropayment.Op)
  | ledger (op : Ledger.Op)
  | money (m : Money)
  /-- another pallet takes a deposit -/
  | hold (a : AccId) (v : Balance)
  /-- another pallet gives a deposit back -/
  | release (a : AccId) (v : Balance)
  /-- locks and references of the other pallets change -/
  | locks (rest : AccId → Balance) (pins : AccId → Bool)
  /-- `force_remove_lock` of the operation pallet (pallets/operation/src/lib.rs:266-276) for the lock of the
  staking pallet; removing other locks is part of `locks` -/
  | unlockStake (root : Bool) (a : AccId)
  /-- the same for the lock of the council elections -/
  | unlockVote (root : Bool) (a : AccId)
  /-- `unlock_assets_via_democracy` of the operation pallet (lib.rs:506-523) -/
  | unlockMove (root : Bool) (src dst : AccId) (v : Balance)

/-- Operations of a pallet, as opposed to changes of its environment (whose balances are ignored). -/
def nodeOwn : DeeperNode.Op → Bool
  | .external .. => false
  | _ => true

def tipsOwn : Tips.Op → Bool
  | .external .. => false
  | _ => true

/-- The two calls which remove locks are operations of the chain (`unlockStake`, `unlockVote`, `unlockMove`). -/
def operOwn : Operation.Op → Bool
  | .external .. => false
  | .forceRemoveLock .. => false
  | .unlockAssets .. => false
  | _ => true

def microOwn : Micropayment.Op → Bool
  | .external .. => false
  | _ => true

def ledgerOwn : Ledger.Op → Bool
  | .external .. => false
  | _ => true

/-- The lock of the council elections of an account, zero if there is none. -/
def voteLock (w : State) (a : AccId) : Balance := (w.council.lock.get a).getD 0

/-- How the locks of the pallets combine: the largest one counts (frame/balances, `update_locks`), and a stash is kept alive by the staking pallet. -/
def settle (w : State) : State :=
  let b : Bank := { w.bank with frozen := fun a => max (voteLock w a) (max (Ledger.lockOf w.ledger a) (w.rest a)), pinned := fun a => w.ledger.bonded.contains a || w.pins a }
  { w with
    bank := b
    council := { w.council with otherLock := fun a => max (Ledger.lockOf w.ledger a) (w.rest a) }
    ledger := { w.ledger with otherLocks := fun a => max (voteLock w a) (w.rest a), bank := b } }

/-- What a call does: it runs on the common balances. -/
def effect (cfg : Cfg) (w : State) : Op → State
  | .node op =>
    let s := (DeeperNode.step cfg.node { w.node with bank := w.bank } op).1
    { w with node := s, bank := if nodeOwn op then s.bank else w.bank }
  | .tips op =>
    let s := (Tips.step cfg.tips { w.tips with bank := w.bank } op).1
    { w with tips := s, bank := if tipsOwn op then s.bank else w.bank }
  | .council op =>
    let s := (Council.step cfg.council { w.council with bank := w.bank } op).1
    { w with council := s, bank := if op.own then s.bank else w.bank }
  | .oper op =>
    let s := (Operation.step cfg.oper { w.oper with bank := w.bank } op).1
    { w with oper := s, bank := if operOwn op then s.bank else w.bank }
  | .micro op =>
    let s := (Micropayment.step cfg.micro { w.micro with bank := w.bank } op).1
    { w with micro := s, bank := if microOwn op then s.bank else w.bank }
  | .ledger op =>
    let s := (Ledger.step cfg.ledger { w.ledger with bank := w.bank } op).1
    { w with ledger := s, bank := if ledgerOwn op then s.bank else w.bank }
  | .money m => { w with bank := money w.bank m }
  | .hold a v =>
    match w.bank.reserve a v with
    | .ok b => { w with bank := b, others := fun x => if x = a then w.others x + v else w.others x }
    | .error _ => w
  | .release a v =>
    if v ≤ w.others a then { w with bank := w.bank.unreserve a v, others := fun x => if x = a then w.others x - v else w.others x }
    else w
  | .locks r p => { w with rest := r, pins := p }
  | .unlockStake root a => if root then { w with ledger := { w.ledger with locks := w.ledger.locks.erase a } } else w
  | .unlockVote root a => if root then { w with council := { w.council with lock := w.council.lock.erase a } } else w
  | .unlockMove root x y v =>
    match Operation.unlockAssets { w.oper with bank := w.bank } root x y v (max (Ledger.lockOf w.ledger x) (w.rest x)) with
    | .ok s => { w with bank := s.bank, council := { w.council with lock := w.council.lock.erase x } }
    | .error _ => w

/-- One step of the chain. -/
def step (cfg : Cfg) (w : State) (op : Op) : State := settle (effect cfg w op)

/-- A history. -/
def run (cfg : Cfg) (w : State) : List Op → State
  | [] => w
  | op :: ops => run cfg (step cfg w op) ops

end Verif.World
