import Verif.DelegationProofs
import Verif.LedgerProperties

/-
Sessions and eras of the staking pallet, pallets/staking/src/lib.rs: `new_session`, `start_session`, `end_session`,
`start_era`, `end_era`, `new_era`, the forcing of eras, `set_history_depth`, block authors, and the era to which
an offence is attributed. Elections, payouts and all other calls are those of `Delegation`.

`pallet_session` is represented by its contract: at genesis it plans the sessions 0 and 1 and starts session 0
(its `genesis_build`); each rotation ends session `i`, starts session `i + 1` with the validators queued before,
and plans session `i + 2` (`rotate_session`). Planned validators without session keys are skipped.
-/

namespace Verif.Session

open Verif

/-- `Forcing`, lib.rs:550-565. -/
inductive Forcing where
  | notForcing | forceNew | forceNone | forceAlways
deriving DecidableEq, Repr

/-- Constants; `sessionsPerEra` is runtime/src/lib.rs:603. -/
structure Cfg where
  del : Delegation.Cfg
  sessionsPerEra : Nat

/-- `BondingDuration`. -/
def Cfg.bonding (cfg : Cfg) : Nat := cfg.del.led.bondingDuration

/-- Storage. `CurrentEra` is `del.led.era`, `HistoryDepth` is `del.historyDepth`. -/
structure State where
  del : Delegation.State
  /-- `CurrentIndex` of `pallet_session` -/
  session : Nat
  /-- `ActiveEra`: index and whether `start` is set -/
  active : Option (Nat × Bool)
  /-- `ErasStartSessionIndex` -/
  eraStart : FMap Nat Nat
  /-- `BondedEras` -/
  bonded : List (Nat × Nat)
  force : Forcing
  /-- `Validators` of `pallet_session` -/
  validators : List AccId
  /-- `QueuedKeys` of `pallet_session` -/
  queued : List AccId

/-- `new_era`, lib.rs:2868-2888. -/
def newEra (s : State) (idx : Nat) (order : List AccId) : State × Option (List AccId) :=
  let era := Delegation.nextEra s.del
  let starts := s.eraStart.insert era idx
  let starts' := if s.del.historyDepth + 1 ≤ era then starts.erase (era - (s.del.historyDepth + 1)) else starts
  let r := Delegation.newEra s.del order
  ({ s with del := r.1, eraStart := starts' },
    match r.2 with
    | .elected _ l => l
    | _ => none)

/-- Whether `new_session` begins an era, lib.rs:2496-2526. (The election window and the flag of the final session,
lib.rs:2515-2521, are read by nothing.) -/
def plans (cfg : Cfg) (s : State) (idx : Nat) : Bool :=
  match s.del.led.era with
  | none => true
  | some e =>
    match s.force with
    | .forceNew => true
    | .forceAlways => true
    | .notForcing => decide (cfg.sessionsPerEra ≤ idx - (s.eraStart.get e).getD 0)
    | .forceNone => false

/-- `ForceEra` after `new_session`, lib.rs:2510: killed, that is `NotForcing`, lib.rs:561-565. -/
def forceAfter (s : State) : Forcing :=
  match s.del.led.era, s.force with
  | some _, .forceNew => .notForcing
  | _, f => f

/-- `new_session`, lib.rs:2495-2532. -/
def newSession (cfg : Cfg) (s : State) (idx : Nat) (order : List AccId) : State × Option (List AccId) :=
  if plans cfg s idx then newEra { s with force := forceAfter s } idx order else (s, none)

/-- Era to be activated next, lib.rs:2536. -/
def nextActive (s : State) : Nat := match s.active with | some (e, _) => e + 1 | none => 0

/-- Length of the prefix of `BondedEras` that is dropped, lib.rs:2586-2593. -/
def pruneCount (cfg : Cfg) (active : Nat) (l : List (Nat × Nat)) : Nat :=
  if cfg.bonding < active then (l.takeWhile fun p => decide (p.1 < active - cfg.bonding)).length else 0

/-- `start_era`, lib.rs:2570-2607 (slashes and their metadata are in `Slashing`). -/
def startEra (cfg : Cfg) (s : State) (idx : Nat) : State :=
  let e := nextActive s
  let l := s.bonded ++ [(e, idx)]
  { s with active := some (e, false), bonded := l.drop (pruneCount cfg e l) }

/-- `start_session`, lib.rs:2535-2553. -/
def startSession (cfg : Cfg) (s : State) (idx : Nat) : State :=
  match s.eraStart.get (nextActive s) with
  | none => s
  | some k => if k ≤ idx then startEra cfg s idx else s

/-- Whether `end_session` ends the active era, lib.rs:2556-2562. -/
def ending (s : State) (idx : Nat) : Option (Nat × Bool) :=
  match s.active with
  | none => none
  | some (e, started) =>
    match s.eraStart.get (e + 1) with
    | none => none
    | some k => if k = idx + 1 then some (e, started) else none

/-- `end_session` and `end_era`, lib.rs:2555-2565, 2860-2865. -/
def endSession (cfg : Cfg) (s : State) (idx : Nat) : State :=
  match ending s idx with
  | some (e, true) => { s with del := Delegation.payValidators cfg.del s.del e }
  | _ => s

/-- `rotate_session` of `pallet_session`. -/
def rotate (cfg : Cfg) (s : State) (order : List AccId) (hasKeys : AccId → Bool) : State :=
  let s1 := endSession cfg s s.session
  let s2 := startSession cfg { s1 with session := s.session + 1, validators := s.queued } (s.session + 1)
  let r := newSession cfg s2 (s.session + 2) order
  { r.1 with queued := (r.2.getD s.queued).filter hasKeys }

/-- `clear_era_information` for one more era, lib.rs:3017-3024. -/
def clearEra (s : State) (e : Nat) : State :=
  { s with del := Delegation.clearEra s.del e, eraStart := s.eraStart.erase e }

/-- `set_history_depth`, lib.rs:1809-1826. -/
def setHistoryDepth (s : State) (d : Nat) : State :=
  match s.del.led.era with
  | none => s
  | some cur =>
    let s1 := (List.range' (cur - s.del.historyDepth) ((cur - d) - (cur - s.del.historyDepth))).foldl clearEra s
    { s1 with del := { s1.del with historyDepth := d } }

/-- `note_author`, lib.rs:3305-3307, with `reward_by_ids`, lib.rs:3056-3066. -/
def author (s : State) (v : AccId) : State :=
  match s.active with
  | none => s
  | some (e, _) => { s with del := Delegation.addPoints s.del e v 20 }

/-- `on_finalize`, lib.rs:2183-2195. -/
def finalize (s : State) : State := { s with active := s.active.map fun p => (p.1, true) }

/-- `ensure_new_era`, lib.rs:3069-3074, after an offender was disabled (slashing.rs:264-274, 300-309). -/
def ensureNewEra (s : State) : State :=
  match s.force with
  | .forceAlways => s
  | .forceNew => s
  | _ => { s with force := .forceNew }

/-- Era to which an offence in a session is attributed, lib.rs:3371-3408. -/
def offenceEra (s : State) (k : Nat) : Option Nat :=
  match s.active with
  | none => none
  | some (e, _) =>
    if (s.eraStart.get e).getD 0 ≤ k then some e
    else (s.bonded.reverse.find? fun p => decide (p.2 ≤ k)).map Prod.fst

/-- Calls of the other parts that leave eras alone. -/
def isOther : Delegation.Op → Bool
  | .endEra _ => false
  | .newEra _ => false
  | .addPoints _ _ _ => false
  | .configure _ _ _ _ _ => false
  | .ledger .newEra => false
  | _ => true

inductive Op where
  | rotate (order : List AccId) (hasKeys : AccId → Bool)
  | author (v : AccId)
  | finalize
  /-- `force_new_era`, `force_no_eras`, `force_new_era_always`, lib.rs:1583-1606, 1684-1688, by root -/
  | forceNewEra | forceNoEras | forceNewEraAlways
  /-- an offender was disabled -/
  | offenderDisabled
  /-- by root -/
  | setHistoryDepth (d : Nat)
  /-- the other settings of `Delegation.Op.configure` -/
  | configure (eraReward : Balance) (count min : Nat) (whitelist : List AccId)
  /-- anything else in the staking pallet -/
  | other (op : Delegation.Op)

/-- One call. -/
def step (cfg : Cfg) (s : State) : Op → State
  | .rotate order keys => rotate cfg s order keys
  | .author v => author s v
  | .finalize => finalize s
  | .forceNewEra => { s with force := .forceNew }
  | .forceNoEras => { s with force := .forceNone }
  | .forceNewEraAlways => { s with force := .forceAlways }
  | .offenderDisabled => ensureNewEra s
  | .setHistoryDepth d => setHistoryDepth s d
  | .configure e c m w => { s with del := (Delegation.step cfg.del s.del (.configure e c m w s.del.historyDepth)).1 }
  | .other op => if isOther op then { s with del := (Delegation.step cfg.del s.del op).1 } else s

/-- A history with its trace: the state before each call and the call. -/
def run (cfg : Cfg) (s : State) : List Op → State × List (State × Op)
  | [] => (s, [])
  | op :: ops =>
    let q := run cfg (step cfg s op) ops
    (q.1, (s, op) :: q.2)

/-- Before the sessions of genesis. -/
def empty (d : Delegation.State) (f : Forcing) : State := ⟨d, 0, none, ∅, [], f, [], []⟩

/-- Genesis: staking without eras (lib.rs:1010-1050), then the sessions 0 and 1 are planned and session 0 starts
(`genesis_build` of `pallet_session`); `fallback` are the validators with keys at genesis. -/
def genesis (cfg : Cfg) (d : Delegation.State) (f : Forcing) (order fallback : List AccId) : State :=
  let r0 := newSession cfg (empty d f) 0 order
  let v0 := r0.2.getD fallback
  let r1 := newSession cfg r0.1 1 order
  let v1 := r1.2.getD v0
  startSession cfg { r1.1 with validators := v0, queued := v1 } 0

end Verif.Session
