import Verif.Penalty
import Verif.Session

/-!
# Sessions, eras and slashes on the chain

`Session` has the sessions and eras of the staking pallet but leaves out slashes; `Penalty` has slashes and everything
else on the chain, but eras start at any time and an offence comes with any exposure. Here both are one machine: eras start
when sessions rotate, the slashes of an era are applied between the payout of the old era and the next election, and
whoever reports an offence identifies the offender as the runtime does: through the storage of the active era for the
current session, and through the root noted when the session was planned for an earlier one
(runtime/src/lib.rs:591, 597-600; pallets/staking/src/lib.rs:3268-3286, 3322-3334).

`pallet_session` and its historical module are represented by their contract. A root is noted for each session when it is
planned: for new validators it holds those with keys and their exposures, otherwise it is the root of the session before.
A report for the current session is identified with `FullIdentificationOf`, one for any other session with the root.

## Simplifications

* All validators elected at genesis have session keys.
* An offender is named by its account rather than by a key.
* Whether an offence forces a new era is an operation of its own (as in `Session`).
-/

namespace Verif.Epoch

open Verif

/-- Constants; `sessionsPerEra` is runtime/src/lib.rs:603. -/
structure Cfg where
  chain : Chain.Cfg
  sessionsPerEra : Nat

/-- The constants of sessions and eras. -/
def Cfg.ses (cfg : Cfg) : Session.Cfg := ⟨cfg.chain.dele, cfg.sessionsPerEra⟩

/-- What the root of a session proves: validators and their exposures. -/
abbrev Root := List (AccId × Slashing.Exposure)

/-- The chain, and the storage of sessions. `ActiveEra` and `BondedEras` are in `c.slash`, `CurrentEra` is in the
ledger. -/
structure State where
  c : Chain.State
  /-- `CurrentIndex` of `pallet_session` -/
  session : Nat
  /-- `start` of `ActiveEra` is set -/
  started : Bool
  /-- `ErasStartSessionIndex` -/
  eraStart : FMap Nat Nat
  /-- `ForceEra` -/
  force : Session.Forcing
  /-- `Validators` of `pallet_session` -/
  validators : List AccId
  /-- `QueuedKeys` of `pallet_session` -/
  queued : List AccId
  /-- `HistoricalSessions` of `pallet_session` -/
  roots : FMap Nat Root

/-- Sessions and eras, as `Session` sees them. -/
def view (s : State) : Session.State :=
  ⟨(Chain.stkOn s.c).dele, s.session, s.c.slash.active.map (·, s.started), s.eraStart, s.c.slash.bondedEras, s.force, s.validators, s.queued⟩

/-- `ErasStakers`, which is empty by default (pallets/staking/src/lib.rs:759-771). -/
def exposure (c : Chain.State) (e : Nat) (v : AccId) : Slashing.Exposure := (c.stk.dele.stakers.get (e, v)).getD ⟨0, 0, []⟩

/-- An operation of the staking pallet on the chain. -/
def dele (cfg : Cfg) (c : Chain.State) (op : Delegation.Op) : Chain.State := (Penalty.step cfg.chain c (.pay (.chain (.dele op)))).1

/-- `end_session` and `end_era`, pallets/staking/src/lib.rs:2555-2565, 2860-2865. -/
def endSession (cfg : Cfg) (s : State) : State :=
  match Session.ending (view s) s.session with
  | some (e, true) => { s with c := dele cfg s.c (.endEra e) }
  | _ => s

/-- `prune_historical_up_to`, called at pallets/staking/src/lib.rs:2600-2602. -/
def prune (cfg : Cfg) (c : Chain.State) (m : FMap Nat Root) : FMap Nat Root :=
  match c.slash.active, c.slash.bondedEras.head? with
  | some a, some p => if cfg.ses.bonding < a then (m.keys.filter fun j => decide (j < p.2)).foldl (fun m j => m.erase j) m else m
  | _, _ => m

/-- `start_session` and `start_era`, pallets/staking/src/lib.rs:2535-2553, 2570-2607; `none` is a panic. -/
def startSession (cfg : Cfg) (s : State) : Option State :=
  match s.eraStart.get (Session.nextActive (view s)) with
  | none => some s
  | some k =>
    if k ≤ s.session then
      match Penalty.step cfg.chain s.c (.startEra s.session) with
      | (_, .halted) => none
      | (c, _) => some { s with c := c, started := false, roots := prune cfg c s.roots }
    else some s

/-- `new_session` and `new_era`, pallets/staking/src/lib.rs:2495-2532, 2868-2888; the forcing, the start of the era and
the validators are those of `Session`. -/
def newSession (cfg : Cfg) (s : State) (idx : Nat) (order : List AccId) : State × Option (List AccId) :=
  let r := Session.newSession cfg.ses (view s) idx order
  ({ s with c := if Session.plans cfg.ses (view s) idx then dele cfg s.c (.newEra order) else s.c, force := r.1.force, eraStart := r.1.eraStart }, r.2)

/-- The root noted for a planned session: `do_new_session` of the historical module, with
pallets/staking/src/lib.rs:3268-3286. -/
def note (s : State) (idx : Nat) (keys : AccId → Bool) : Option (List AccId) → FMap Nat Root
  | some l => s.roots.insert idx ((l.filter keys).map fun v => (v, exposure s.c (s.c.w.ledger.era.getD 0) v))
  | none =>
    match s.roots.get (idx - 1) with
    | some r => s.roots.insert idx r
    | none => s.roots

/-- `rotate_session` of `pallet_session`; `none` is a panic. -/
def rotate (cfg : Cfg) (s : State) (order : List AccId) (keys : AccId → Bool) : Option State :=
  (startSession cfg { endSession cfg s with session := s.session + 1, validators := s.queued }).map fun t =>
    let r := newSession cfg t (s.session + 2) order
    { r.1 with roots := note r.1 (s.session + 2) keys r.2, queued := (r.2.getD s.queued).filter keys }

/-- `set_history_depth`, pallets/staking/src/lib.rs:1809-1826. -/
def setHistoryDepth (s : State) (d : Nat) : State :=
  let r := Session.setHistoryDepth (view s) d
  { s with c := { s.c with stk := { s.c.stk with dele := { r.del with led := s.c.stk.dele.led } } }, eraStart := r.eraStart }

/-- How an offender in a session is identified: pallets/staking/src/lib.rs:3322-3334 for the current session, by the root
otherwise. -/
def identify (s : State) (k : Nat) (v : AccId) : Option Slashing.Exposure :=
  if k = s.session then s.c.slash.active.map fun e => exposure s.c e v
  else (s.roots.get k).bind fun r => (r.find? fun p => decide (p.1 = v)).map Prod.snd

/-- The session with which the active era began, pallets/staking/src/lib.rs:3383-3388. -/
def activeStart (s : State) : Nat := (s.c.slash.active.bind s.eraStart.get).getD 0

/-- Operations which leave sessions and eras alone. -/
def isOther : Penalty.Op → Bool
  | .startEra _ => false
  | .offence .. => false
  | .pay (.chain (.dele op)) => Session.isOther op
  | _ => true

/-- What happens. -/
inductive Op where
  | rotate (order : List AccId) (hasKeys : AccId → Bool)
  | author (v : AccId)
  | finalize
  /-- by root -/
  | forceNewEra | forceNoEras | forceNewEraAlways
  /-- an offender was disabled -/
  | offenderDisabled
  /-- by root -/
  | setHistoryDepth (d : Nat)
  /-- the other settings of `Delegation.Op.configure` -/
  | configure (eraReward : Balance) (count min : Nat) (whitelist : List AccId)
  /-- somebody reports that a validator has misbehaved in a session -/
  | report (session : Nat) (v : AccId) (fraction : Nat) (reporters : List AccId)
  /-- anything else on the chain -/
  | other (op : Penalty.Op)

/-- One step. The effects on sessions and eras are those of `Session`, the effects on the chain those of `Penalty`. -/
def step (cfg : Cfg) (s : State) : Op → State × Penalty.Out
  | .rotate order keys =>
    match rotate cfg s order keys with
    | none => (s, .halted)
    | some t => (t, .done [])
  | .author v =>
    match s.c.slash.active with
    | none => (s, .done [])
    | some e => ({ s with c := dele cfg s.c (.addPoints e v 20) }, .done [])
  | .finalize => ({ s with started := true }, .done [])
  | .forceNewEra => ({ s with force := .forceNew }, .done [])
  | .forceNoEras => ({ s with force := .forceNone }, .done [])
  | .forceNewEraAlways => ({ s with force := .forceAlways }, .done [])
  | .offenderDisabled => ({ s with force := (Session.ensureNewEra (view s)).force }, .done [])
  | .setHistoryDepth d => (setHistoryDepth s d, .done [])
  | .configure e n m w => ({ s with c := dele cfg s.c (.configure e n m w s.c.stk.dele.historyDepth) }, .done [])
  | .report k v f rs =>
    match identify s k v with
    | none => (s, .refused)
    | some x =>
      let r := Penalty.step cfg.chain s.c (.offence (activeStart s) k v x f rs)
      ({ s with c := r.1 }, r.2)
  | .other op =>
    if isOther op then
      let r := Penalty.step cfg.chain s.c op
      ({ s with c := r.1 }, r.2)
    else (s, .refused)

/-- A history: the final state and each operation with the state it ran in and what came out. -/
def run (cfg : Cfg) (s : State) : List Op → State × List (State × Op × Penalty.Out)
  | [] => (s, [])
  | op :: ops =>
    let r := step cfg s op
    let q := run cfg r.1 ops
    (q.1, (s, op, r.2) :: q.2)

/-- A planned session at genesis. -/
def plan (cfg : Cfg) (s : State) (idx : Nat) (order : List AccId) : State × Option (List AccId) :=
  let r := newSession cfg s idx order
  ({ r.1 with roots := note r.1 idx (fun _ => true) r.2 }, r.2)

/-- Genesis: the sessions 0 and 1 are planned and session 0 starts (`genesis_build` of `pallet_session`); `fallback` are
the validators with keys at genesis. There are no slashes at genesis. -/
def genesis (cfg : Cfg) (c : Chain.State) (f : Session.Forcing) (order fallback : List AccId) : State :=
  let r0 := plan cfg ⟨c, 0, false, ∅, f, [], [], ∅⟩ 0 order
  let r1 := plan cfg r0.1 1 order
  let s := { r1.1 with validators := r0.2.getD fallback, queued := r1.2.getD (r0.2.getD fallback) }
  (startSession cfg s).getD s

end Verif.Epoch
