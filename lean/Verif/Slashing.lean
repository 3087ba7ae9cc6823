import Verif.Ledger

/-
pallets/staking/src/slashing.rs and the offence handling of pallets/staking/src/lib.rs: slashing spans,
computing, deferring, cancelling and applying slashes, paying reporters.

Not modelled here: weights, events other than the returned outputs, disabling validators in the session
pallet and forcing a new era (slashing.rs:263-266, 301-304), the credit slash of delegators
(`do_credit_slash`, slashing.rs:515-520, see `Verif.Credit`), which touches no storage of this file.
The exposure of a validator in an era is a parameter (`Cfg.exposure`): it is fixed when the era is planned.
`EraIndex`, `SpanIndex` are unbounded.
-/

namespace Verif.Slashing

open Verif

/-- Stake behind a validator, lib.rs:349-360. -/
structure Exposure where
  total : Balance
  own : Balance
  others : List AccId

/-- Parameters of the pallet. -/
structure Cfg where
  /-- parameters of the ledger part, among them `BondingDuration` -/
  led : Ledger.Cfg
  /-- `SlashDeferDuration` -/
  defer : Nat
  /-- account of the treasury, which is `T::Slash` (runtime/src/lib.rs:632) -/
  treasury : AccId
  /-- exposure of a validator in an era -/
  exposure : Nat → AccId → Exposure

/-- `Perbill * x`: rounded to the nearest, ties down. -/
def perbill (p x : Nat) : Nat := divNearestDown (x * p) (10 ^ 9)

/-! ### Spans -/

/-- `SlashingSpan`, slashing.rs:47-52. -/
structure Span where
  index : Nat
  start : Nat
  length : Option Nat
deriving DecidableEq, Repr

/-- `contains_era`, slashing.rs:54-58. -/
def Span.contains (x : Span) (era : Nat) : Bool :=
  decide (x.start ≤ era) && (match x.length with | none => true | some l => decide (era < x.start + l))

/-- `SlashingSpans`, slashing.rs:60-74. -/
structure Spans where
  index : Nat
  lastStart : Nat
  lastNonzero : Nat
  prior : List Nat
deriving DecidableEq, Repr

/-- `SlashingSpans::new`, slashing.rs:77-90. -/
def Spans.new (window : Nat) : Spans := ⟨0, window, 0, []⟩

/-- `end_span`, slashing.rs:92-107. -/
def Spans.endSpan (sp : Spans) (now : Nat) : Spans × Bool :=
  if now + 1 ≤ sp.lastStart then (sp, false)
  else ({ sp with prior := (now + 1 - sp.lastStart) :: sp.prior, lastStart := now + 1, index := sp.index + 1 }, true)

/-- The closed spans of `iter`, slashing.rs:118-128: `start` and `index` of the span after them. -/
def iterFrom (start index : Nat) : List Nat → List Span
  | [] => []
  | l :: ls => ⟨index - 1, start - l, some l⟩ :: iterFrom (start - l) (index - 1) ls

/-- `iter`, slashing.rs:109-131: most recent first. -/
def Spans.iter (sp : Spans) : List Span :=
  ⟨sp.index, sp.lastStart, none⟩ :: iterFrom sp.lastStart sp.index sp.prior

/-- The test of `prune` for a span that ended before the window, slashing.rs:143-146. -/
def Span.isOld (window : Nat) (x : Span) : Bool :=
  match x.length with
  | none => false
  | some l => decide (x.start + l ≤ window)

/-- `prune`, slashing.rs:138-166: the new spans and the range of removed indices. -/
def Spans.prune (sp : Spans) (window : Nat) : Spans × Option (Nat × Nat) :=
  let old := sp.iter.tail.findIdx? (Span.isOld window)
  let prior := match old with | some o => sp.prior.take o | none => sp.prior
  ({ sp with prior := prior, lastStart := max sp.lastStart window },
    old.map fun _ => (sp.index - sp.prior.length, sp.index - prior.length))

/-- `era_span`, slashing.rs:374-376. -/
def Spans.eraSpan (sp : Spans) (era : Nat) : Option Span := sp.iter.find? fun x => x.contains era

/-- `SpanRecord`, slashing.rs:169-174. -/
structure Record where
  slashed : Balance
  paidOut : Balance
deriving DecidableEq, Repr

/-- `UnappliedSlash`, lib.rs:370-383. -/
structure Unapplied where
  validator : AccId
  own : Balance
  others : List AccId
  reporters : List AccId
  payout : Balance
deriving DecidableEq, Repr

/-! ### Storage -/

structure State where
  /-- bonding data and balances -/
  led : Ledger.State
  /-- index of `ActiveEra` -/
  active : Option Nat
  /-- `BondedEras`: era and its first session -/
  bondedEras : List (Nat × Nat)
  /-- `SlashRewardFraction` -/
  rewardProp : Nat
  invulnerables : List AccId
  /-- `StoreSlashingSpans` -/
  spans : FMap AccId Spans
  /-- `SpanSlash` -/
  records : FMap (AccId × Nat) Record
  /-- `ValidatorSlashInEra` -/
  eraSlash : FMap Nat (FMap AccId (Nat × Balance))
  /-- `UnappliedSlashes` -/
  unapplied : FMap Nat (List Unapplied)
  /-- `EarliestUnappliedSlash` -/
  earliest : Option Nat

inductive Err where
  | badOrigin | emptyTargets | notSortedAndUnique | invalidSlashIndex
deriving DecidableEq, Repr

/-- What a call reports. -/
inductive Out where
  | done
  /-- an offence was not considered -/
  | ignored
  /-- an offence in the era was considered, possibly leading to a slash -/
  | reported (era : Nat) (u : Option Unapplied)
  /-- an era started; the slashes applied -/
  | started (era : Nat) (applied : List Unapplied)
  /-- output of the ledger part and the stash whose slashing data were removed -/
  | ledger (o : Ledger.Out) (killed : Option AccId)
  | failed (e : Err)

/-! ### Computing a slash -/

/-- Reward for reporters, slashing.rs:398-399, 407. -/
def spanReward (rp slash paidOut : Balance) : Balance := perbill 500000000 (perbill rp slash - paidOut)

/-- Result of comparing a slash with the record of its span. -/
structure Cmp where
  record : Record
  changed : Bool
  /-- value added to the slash -/
  own : Balance
  /-- reward added -/
  paid : Balance

/-- Comparison with the record, slashing.rs:388-420. -/
def compareRecord (rp slash : Balance) (r : Record) : Cmp :=
  let reward := if r.slashed ≤ slash then spanReward rp slash r.paidOut else 0
  { record := ⟨max r.slashed slash, r.paidOut + reward⟩
    changed := decide (r.slashed < slash) || decide (reward ≠ 0)
    own := slash - r.slashed
    paid := reward }

/-- `fetch_spans`, slashing.rs:331-352. -/
def fetchSpans (s : State) (stash : AccId) (window : Nat) : State × Spans :=
  match s.spans.get stash with
  | some sp => (s, sp)
  | none => ({ s with spans := s.spans.insert stash (Spans.new window) }, Spans.new window)

/-- Records without the given range of indices, slashing.rs:436-438. -/
def eraseRecords (stash : AccId) (recs : FMap (AccId × Nat) Record) : List Nat → FMap (AccId × Nat) Record
  | [] => recs
  | i :: is => eraseRecords stash (recs.erase (stash, i)) is

/-- `drop` of `InspectingSpans`, slashing.rs:428-443. -/
def dropSpans (s : State) (stash : AccId) (sp : Spans) (dirty : Bool) (window : Nat) : State :=
  if dirty = false then s
  else
    let r := sp.prune window
    { s with
      records := match r.2 with
        | some (a, b) => eraseRecords stash s.records (List.range' a (b - a))
        | none => s.records
      spans := s.spans.insert stash r.1 }

/-- `chill_stash`, lib.rs:2490-2492. -/
def chillStash (s : State) (stash : AccId) : State :=
  { s with led := { s.led with validators := s.led.validators.erase stash } }

/-- The end of the span if the offence lies in the ongoing one (slashing.rs:252-268, 296-306), then `drop`. -/
def finish (s : State) (stash : AccId) (sp : Spans) (dirty : Bool) (target : Option Nat) (window now : Nat) : State :=
  if target = some sp.index then
    let e := sp.endSpan now
    dropSpans (chillStash s stash) stash e.1 (e.2 || dirty) window
  else dropSpans s stash sp dirty window

/-- `kick_out_if_recent`, slashing.rs:283-307. -/
def kickOut (s : State) (stash : AccId) (era window now : Nat) : State :=
  let f := fetchSpans s stash window
  finish f.1 stash f.2 false ((f.2.eraSpan era).map Span.index) window now

/-- The new record and the spans if the slash is compared with a span: `compare_and_update_span_slash`,
slashing.rs:382-425, and the rest of `compute_slash`, slashing.rs:239-279. -/
def slashSpan (s : State) (stash : AccId) (sp : Spans) (era window now : Nat) (ownSlash : Balance)
    (others : List AccId) : State × Unapplied :=
  match sp.eraSpan era with
  | none => (dropSpans s stash sp false window, ⟨stash, 0, others, [], 0⟩)
  | some x =>
    let c := compareRecord s.rewardProp ownSlash ((s.records.get (stash, x.index)).getD ⟨0, 0⟩)
    let s1 := if c.changed then { s with records := s.records.insert (stash, x.index) c.record } else s
    let sp1 := if 0 < c.own then { sp with lastNonzero := max sp.lastNonzero era } else sp
    (finish s1 stash sp1 c.changed (some x.index) window now, ⟨stash, c.own, others, [], c.paid⟩)

/-- `ValidatorSlashInEra` for an era and stash. -/
def eraSlashOf (s : State) (era : Nat) (stash : AccId) : Option (Nat × Balance) :=
  ((s.eraSlash.get era).getD ∅).get stash

/-- `compute_slash`, slashing.rs:208-280. -/
def computeSlash (cfg : Cfg) (s : State) (stash : AccId) (fraction era window now : Nat) : State × Option Unapplied :=
  let x := cfg.exposure era stash
  let ownSlash := perbill fraction x.own
  if perbill fraction x.total = 0 then (kickOut s stash era window now, none)
  else if fraction ≤ ((eraSlashOf s era stash).getD (0, 0)).1 then (s, none)
  else
    let s1 := { s with eraSlash := s.eraSlash.insert era (((s.eraSlash.get era).getD ∅).insert stash (fraction, ownSlash)) }
    let f := fetchSpans s1 stash window
    let r := slashSpan f.1 stash f.2 era window now ownSlash x.others
    (r.1, some r.2)

/-! ### Applying a slash -/

/-- Deposits to the reporters, slashing.rs:561-568. -/
def payEach (b : Bank) (per : Balance) : List AccId → Bank
  | [] => b
  | r :: rs => payEach (b.depositCreating r per) per rs

/-- `pay_reporters`, slashing.rs:543-572: `slashed` has been taken from the stash. -/
def payReporters (treasury : AccId) (b : Bank) (payout slashed : Balance) (reporters : List AccId) : Bank :=
  if payout = 0 ∨ reporters = [] then b.depositCreating treasury slashed
  else
    let p := min payout slashed
    let per := p / reporters.length
    (payEach b per reporters).depositCreating treasury (slashed - p + (p - per * reporters.length))

/-- What `do_slash` took from the ledger and from the account. -/
def slashAmounts : Ledger.Out → Balance × Balance
  | .slashed _ cut taken => (cut, taken)
  | _ => (0, 0)

/-- `apply_slash`, slashing.rs:523-540, without the credit slash of the delegators. -/
def applySlash (cfg : Cfg) (s : State) (u : Unapplied) : State :=
  let r := Ledger.doSlash cfg.led s.led u.validator u.own
  let a := slashAmounts r.2
  { s with led := { r.1 with bank := payReporters cfg.treasury r.1.bank (u.payout - (a.1 - a.2)) a.2 u.reporters } }

/-- Slashes in order. -/
def applyAll (cfg : Cfg) : State → List Unapplied → State
  | s, [] => s
  | s, u :: us => applyAll cfg (applySlash cfg s u) us

/-! ### Offences and eras -/

/-- Era of an offence, lib.rs:3385-3408. `startIdx` is the first session of the active era. -/
def eraOf (s : State) (active startIdx session : Nat) : Option Nat :=
  if startIdx ≤ session then some active
  else (s.bondedEras.reverse.find? fun p => decide (p.2 ≤ session)).map Prod.fst

/-- Queue or apply a slash, lib.rs:3452-3468. -/
def enqueue (cfg : Cfg) (s : State) (active : Nat) (u : Unapplied) : State :=
  if cfg.defer = 0 then applySlash cfg s u
  else { s with unapplied := s.unapplied.insert active ((s.unapplied.get active).getD [] ++ [u]) }

/-- An offence of one validator, lib.rs:3353-3476. A call with several offenders is the same as several
calls with one: nothing before the loop depends on what the loop changes. -/
def onOffence (cfg : Cfg) (s : State) (startIdx session : Nat) (stash : AccId) (fraction : Nat)
    (reporters : List AccId) : State × Out :=
  if s.led.closed = false then (s, .ignored)
  else match s.active with
  | none => (s, .ignored)
  | some active =>
    match eraOf s active startIdx session with
    | none => (s, .ignored)
    | some era =>
      let s1 := { s with earliest := some (s.earliest.getD active) }
      if stash ∈ s.invulnerables then (s1, .ignored)
      else
        let r := computeSlash cfg s1 stash fraction era (active - cfg.led.bondingDuration) active
        match r.2 with
        | none => (r.1, .reported era none)
        | some u =>
          let u' := { u with reporters := reporters }
          (enqueue cfg r.1 active u', .reported era (some u'))

/-- Eras removed from `BondedEras`, lib.rs:2586-2593. -/
def prunedEras (cfg : Cfg) (active : Nat) (bonded : List (Nat × Nat)) : List (Nat × Nat) :=
  if cfg.led.bondingDuration < active then
    bonded.takeWhile fun p => decide (p.1 < active - cfg.led.bondingDuration)
  else []

/-- The loop of `apply_unapplied_slashes`, lib.rs:3032-3037. -/
def applyEras (cfg : Cfg) : State → List Nat → State × List Unapplied
  | s, [] => (s, [])
  | s, e :: es =>
    let us := (s.unapplied.get e).getD []
    let r := applyEras cfg (applyAll cfg { s with unapplied := s.unapplied.erase e } us) es
    (r.1, us ++ r.2)

/-- `apply_unapplied_slashes`, lib.rs:3027-3042. -/
def applyUnapplied (cfg : Cfg) (s : State) (active : Nat) : State × List Unapplied :=
  match s.earliest with
  | none => (s, [])
  | some e =>
    let keep := active - cfg.defer
    let r := applyEras cfg s (List.range' e (keep - e))
    ({ r.1 with earliest := some (max e keep) }, r.2)

/-- `start_era`, lib.rs:2570-2607. -/
def startEra (cfg : Cfg) (s : State) (session : Nat) : State × Out :=
  let active := match s.active with | some e => e + 1 | none => 0
  let bonded := s.bondedEras ++ [(active, session)]
  let pruned := prunedEras cfg active bonded
  let s1 := { s with
    active := some active
    bondedEras := bonded.drop pruned.length
    eraSlash := pruned.foldl (fun m p => m.erase p.1) s.eraSlash }
  let r := applyUnapplied cfg s1 active
  (r.1, .started active r.2)

/-- The loop of `cancel_deferred_slash`, lib.rs:1738-1741. -/
def removeAll : List Unapplied → Nat → List Nat → List Unapplied
  | us, _, [] => us
  | us, removed, i :: is => removeAll (us.eraseIdx (i - removed)) (removed + 1) is

/-- `is_sorted_and_unique`, lib.rs:3514-3516. -/
def sortedUnique : List Nat → Bool
  | [] => true
  | [_] => true
  | a :: b :: l => decide (a < b) && sortedUnique (b :: l)

/-- `cancel_deferred_slash`, lib.rs:1718-1745; the origin is root or three quarters of the council. -/
def cancel (s : State) (originOk : Bool) (era : Nat) (idx : List Nat) : Except Err State :=
  if originOk = false then .error .badOrigin
  else if idx = [] then .error .emptyTargets
  else if sortedUnique idx = false then .error .notSortedAndUnique
  else
    let us := (s.unapplied.get era).getD []
    if us.length ≤ idx.getLastD 0 then .error .invalidSlashIndex
    else .ok { s with unapplied := s.unapplied.insert era (removeAll us 0 idx) }

/-! ### Calls of the ledger part -/

/-- The stash a call would remove. -/
def target (s : Ledger.State) : Ledger.Op → Option AccId
  | .withdraw c _ => (s.ledgers.get c).map Ledger.Ledger.stash
  | .forceUnstake _ a _ => some a
  | .reap a _ => some a
  | _ => none

/-- Whether the given number of spans suffices, slashing.rs:456-464. -/
def spansOk (s : State) (n : Nat) : Option AccId → Bool
  | none => true
  | some a => match s.spans.get a with | none => true | some sp => decide (sp.iter.length ≤ n)

/-- The call with the answer whether the number of spans suffices. -/
def withSpans (k : Bool) : Ledger.Op → Ledger.Op
  | .withdraw c _ => .withdraw c k
  | .forceUnstake r a _ => .forceUnstake r a k
  | .reap a _ => .reap a k
  | op => op

/-- The stash removed by a call. -/
def killed (s s' : Ledger.State) (op : Ledger.Op) : Option AccId :=
  match target s op with
  | none => none
  | some a => if s.bonded.contains a = true ∧ s'.bonded.contains a = false then some a else none

/-- `clear_stash_metadata`, slashing.rs:452-476. -/
def clearStash (s : State) (a : AccId) : State :=
  match s.spans.get a with
  | none => s
  | some sp => { s with spans := s.spans.erase a, records := eraseRecords a s.records (sp.iter.map Span.index) }

/-- A call of the ledger part with the number of spans given by the caller. -/
def ledgerCall (cfg : Cfg) (s : State) (op : Ledger.Op) (n : Nat) : State × Out :=
  let op' := withSpans (spansOk s n (target s.led op)) op
  let r := Ledger.step cfg.led s.led op'
  let k := killed s.led r.1 op'
  let s1 := { s with led := r.1 }
  (match k with | none => s1 | some a => clearStash s1 a, .ledger r.2 k)

/-! ### Histories -/

inductive Op where
  | ledger (op : Ledger.Op) (numSpans : Nat)
  | startEra (session : Nat)
  | offence (startIdx session : Nat) (stash : AccId) (fraction : Nat) (reporters : List AccId)
  | cancel (originOk : Bool) (era : Nat) (idx : List Nat)
  /-- `set_invulnerables`, lib.rs:1618-1626, by root -/
  | setInvulnerables (l : List AccId)
  /-- other ways to change the reward fraction (genesis) -/
  | setRewardProp (p : Nat)

def step (cfg : Cfg) (s : State) : Op → State × Out
  | .ledger op n => ledgerCall cfg s op n
  | .startEra session => startEra cfg s session
  | .offence i j a f r => onOffence cfg s i j a f r
  | .cancel k e idx => match cancel s k e idx with | .ok s' => (s', .done) | .error e => (s, .failed e)
  | .setInvulnerables l => ({ s with invulnerables := l }, .done)
  | .setRewardProp p => ({ s with rewardProp := p }, .done)

/-- A history with its trace. -/
def run (cfg : Cfg) (s : State) : List Op → State × List (State × Op × Out)
  | [] => (s, [])
  | op :: ops =>
    let r := step cfg s op
    let q := run cfg r.1 ops
    (q.1, (s, op, r.2) :: q.2)

/-- An empty chain. -/
def genesis (bank : Bank) (minBond : Balance) : State :=
  ⟨Ledger.genesis bank minBond, none, [], 0, [], ∅, ∅, ∅, ∅, none⟩

end Verif.Slashing
