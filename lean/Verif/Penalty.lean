import Verif.Payout

/-!
# Penalties for delegators

When a validator is slashed, its delegators lose credit and, below the threshold, their delegation
(`do_credit_slash`, pallets/staking/src/slashing.rs:515-520). Root can end delegations and lower credit at the same time
(`force_undelegate`, pallets/staking/src/lib.rs:1908-1919). Both are added to `Payout`. The exposure of an offender comes
with the report: it is `ErasStakers` of the era which was active when the validator was identified
(pallets/staking/src/lib.rs:3322-3334), which may be long ago.

## Simplifications

* A slash takes the money and then the credit of its delegators before the next slash is applied (slashing.rs:523-540).
  Here all money is taken first: neither part reads what the other one writes.
-/

namespace Verif.Penalty

open Verif

/-- The parameters with the exposure reported (pallets/staking/src/lib.rs:3424, 3432-3440). -/
def here (cfg : Chain.Cfg) (x : Slashing.Exposure) : Chain.Cfg := { cfg with slash := { cfg.slash with exposure := fun _ _ => x } }

/-- `slash_credit` called from the staking pallet, pallets/credit/src/lib.rs:1391-1427; `none` is a panic. -/
def slashCredit (cfg : Chain.Cfg) (c : Chain.State) (a : AccId) (score : Option Nat) : Option Chain.State :=
  match Credit.slashCredit cfg.stk.credit (Credit.currentEra cfg.stk.credit c.stk.credit) c.stk.credit.core a score with
  | .error _ => none
  | .ok _ => some (Payout.call cfg c (.credit (.slashCredit a score)))

/-- `_undelegate`, pallets/staking/src/lib.rs:3095-3127. -/
def undelegate (cfg : Chain.Cfg) (c : Chain.State) (a : AccId) : Chain.State := Payout.call cfg c (.dele (.forceUndelegate true [a]))

/-- `do_credit_slash`, pallets/staking/src/slashing.rs:515-520. -/
def creditSlash (cfg : Chain.Cfg) (c : Chain.State) (a : AccId) : Option Chain.State :=
  (slashCredit cfg c a none).map fun t => if Credit.passThreshold cfg.stk.credit t.stk.credit a then t else undelegate cfg t a

/-- The loop of `apply_slash`, pallets/staking/src/slashing.rs:534-536. -/
def creditSlashes (cfg : Chain.Cfg) : Chain.State → List AccId → Option Chain.State
  | c, [] => some c
  | c, a :: l => (creditSlash cfg c a).bind fun t => creditSlashes cfg t l

/-- The loop of `force_undelegate`, pallets/staking/src/lib.rs:1913-1917. -/
def forceUndelegates (cfg : Chain.Cfg) : Chain.State → List (AccId × Nat) → Option Chain.State
  | c, [] => some c
  | c, x :: l => (slashCredit cfg c x.1 (some x.2)).bind fun t => forceUndelegates cfg (undelegate cfg t x.1) l

/-- What happens on the chain. -/
inductive Op where
  | pay (op : Payout.Op)
  /-- `start_era`, pallets/staking/src/lib.rs:2570-2607 -/
  | startEra (session : Nat)
  /-- `on_offence`, pallets/staking/src/lib.rs:3353-3476 -/
  | offence (startIdx session : Nat) (stash : AccId) (x : Slashing.Exposure) (fraction : Nat) (reporters : List AccId)
  /-- `force_undelegate`, pallets/staking/src/lib.rs:1908-1919 -/
  | forceUndelegate (root : Bool) (l : List (AccId × Nat))

/-- What comes out. -/
inductive Out where
  | done (ps : List Delegation.Payment)
  /-- an era has started; the slashes applied -/
  | started (applied : List Slashing.Unapplied)
  | refused
  /-- an extrinsic panicked: it has no effect -/
  | panicked
  /-- a hook panicked: the chain stops -/
  | halted

/-- The operations of `Payout` except for those which are completed here, and calls of `slash_credit` by nobody. -/
def passes : Payout.Op → Bool
  | .chain (.slash (.startEra _)) => false
  | .chain (.slash (.offence ..)) => false
  | .chain (.dele (.forceUndelegate ..)) => false
  | .chain (.credit (.slashCredit ..)) => false
  | _ => true

/-- The slashes applied at the start of an era. -/
def applied : Slashing.Out → List Slashing.Unapplied
  | .started _ us => us
  | _ => []

/-- The slash an offence leads to. -/
def reported : Slashing.Out → List Slashing.Unapplied
  | .reported _ (some u) => [u]
  | _ => []

/-- Whatever the payouts put out. -/
def Out.ofPayout : Payout.Out → Out
  | .paid ps => .done ps
  | .halted => .halted

/-- One step. Offences are reported in hooks and by validators; the credit of delegators is slashed when the slash is
applied, which is at once only if slashes are not deferred (pallets/staking/src/lib.rs:3452-3468). -/
def step (cfg : Chain.Cfg) (c : Chain.State) : Op → Chain.State × Out
  | .pay op =>
    if passes op then
      let r := Payout.step cfg c op
      (r.1, .ofPayout r.2)
    else (c, .refused)
  | .startEra session =>
    let us := applied (Slashing.startEra cfg.offences { c.slash with led := Chain.led c } session).2
    match creditSlashes cfg (Payout.call cfg c (.slash (.startEra session))) (us.flatMap Slashing.Unapplied.others) with
    | none => (c, .halted)
    | some t => (t, .started us)
  | .offence i j a x f rs =>
    let g := here cfg x
    let us := reported (Slashing.onOffence g.offences { c.slash with led := Chain.led c } i j a f rs).2
    let c1 := Payout.call g c (.slash (.offence i j a f rs))
    if cfg.slash.defer = 0 then
      match creditSlashes cfg c1 (us.flatMap Slashing.Unapplied.others) with
      | none => (c, .halted)
      | some t => (t, .started us)
    else (c1, .done [])
  | .forceUndelegate root l =>
    if root = false then (c, .refused)
    else match forceUndelegates cfg c l with
      | none => (c, .panicked)
      | some t => (t, .done [])

/-- A history: the final state and each operation with the state it ran in and what came out. -/
def run (cfg : Chain.Cfg) (c : Chain.State) : List Op → Chain.State × List (Chain.State × Op × Out)
  | [] => (c, [])
  | op :: ops =>
    let r := step cfg c op
    let q := run cfg r.1 ops
    (q.1, (c, op, r.2) :: q.2)

end Verif.Penalty
