import Verif.Bank
import Mathlib.Data.List.Sort

/-
Model of pallets/tips/src/lib.rs: tips in money and in credit, declared by the council.

Simplifications: events other than the closing events, weights and the migration function
(lib.rs:725-778) are left out; block numbers are unbounded; the effect of a credit tip on the credit
pallet is reported as output (the credit pallet has its own model); tip lists are searched with a
linear instead of a binary search, which gives the same result on sorted lists (proved to be an
invariant).
-/

namespace Verif.Tips

/-- Constants, runtime/src/lib.rs:830-841,895, and the two hash functions. -/
structure Cfg where
  /-- `T::Hashing::hash` on the reason -/
  hash : List Nat → Nat
  /-- `T::Hashing::hash_of(&(&reason_hash, &who))` -/
  hashOf : Nat → AccId → Nat
  maxReason : Nat
  depositBase : Balance
  depositPerByte : Balance
  countdown : Nat
  /-- `TipFindersFee` in percent -/
  feePct : Nat
  maxCredit : Nat

/-- `OpenTip`, lib.rs:84-110. -/
structure OpenTip where
  reason : Nat
  who : AccId
  finder : AccId
  deposit : Balance
  closes : Option Nat
  tips : List (AccId × Nat)
  findersFee : Bool
  credits : List (AccId × Nat)

/-- Storage, lib.rs:164-187, with balances, block number and the council (`T::Tippers`,
runtime/src/lib.rs:903: sorted member list). -/
structure State where
  block : Nat
  bank : Bank
  members : List AccId
  open_ : FMap Nat OpenTip
  reasons : FMap Nat (List Nat)
  pot : Option AccId

inductive Err where
  | reasonTooBig | alreadyKnown | unknownTip | notFinder | stillOpen | premature | badOrigin
  | bank (e : BankErr)
  /-- index out of bounds: the call panics -/
  | panic
deriving DecidableEq, Repr

/-- Conversion of an error of the balances pallet. -/
def liftBank {α : Type} : Except BankErr α → Except Err α
  | .ok a => .ok a
  | .error e => .error (.bank e)

/-- `account_id`, lib.rs:575-584: the payment address, the zero account if it is not set. -/
def State.account (s : State) : AccId := s.pot.getD 0

/-- Replace or insert a declaration, lib.rs:595-598, 671-674. -/
def upsert : List (AccId × Nat) → AccId → Nat → List (AccId × Nat)
  | [], a, v => [(a, v)]
  | (b, w) :: t, a, v =>
    if b < a then (b, w) :: upsert t a v
    else if b = a then (a, v) :: t
    else (a, v) :: (b, w) :: t

/-- The inner loop of `retain_active_tips`, lib.rs:614-627: advances the member iterator; true if the
account is found. -/
def seek : List AccId → AccId → Bool × List AccId
  | [], _ => (false, [])
  | m :: ms, a => if a < m then (false, m :: ms) else if m < a then seek ms a else (true, ms)

/-- `retain_active_tips` and `retain_active_credit_tips`, lib.rs:610-628, 685-703. -/
def retain : List AccId → List (AccId × Nat) → List (AccId × Nat)
  | _, [] => []
  | ms, e :: es =>
    let r := seek ms e.1
    if r.1 then e :: retain r.2 es else retain r.2 es

/-- Closing time after a declaration, lib.rs:600-607, 676-683. -/
def closing (cfg : Cfg) (s : State) (closes : Option Nat) (l : List (AccId × Nat)) : Option Nat :=
  if (s.members.length + 1) / 2 ≤ l.length ∧ closes = none then some (s.block + cfg.countdown) else closes

/-- `insert_tip_and_check_closing`, lib.rs:590-607. -/
def insertTip (cfg : Cfg) (s : State) (t : OpenTip) (a : AccId) (v : Nat) : OpenTip :=
  let l := retain s.members (upsert t.tips a v)
  { t with tips := l, closes := closing cfg s t.closes l }

/-- `insert_credit_tip_and_check_closing`, lib.rs:666-683. -/
def insertCredit (cfg : Cfg) (s : State) (t : OpenTip) (a : AccId) (v : Nat) : OpenTip :=
  let l := retain s.members (upsert t.credits a v)
  { t with credits := l, closes := closing cfg s t.closes l }

/-- Element in the middle of the sorted amounts, lib.rs:639-644, 710-714. `sort_by_key` sorts by
amount, so only the amounts matter. -/
def middle (l : List (AccId × Nat)) : Option Nat :=
  ((l.map Prod.snd).insertionSort (· ≤ ·))[l.length / 2]?

/-- A transfer whose failure is ignored, lib.rs:654, 659. -/
def attempt (b : Bank) (src dst : AccId) (v : Balance) : Bank :=
  match b.transfer src dst v true with
  | .ok b' => b'
  | .error _ => b

/-- Return of the deposit, lib.rs:326-329, 645-648, 716-719. -/
def giveBack (b : Bank) (t : OpenTip) : Bank :=
  if t.deposit = 0 then b else b.unreserve t.finder t.deposit

/-- Fee of the finder, lib.rs:650-653. -/
def finderFee (cfg : Cfg) (t : OpenTip) (m : Balance) : Balance :=
  if t.findersFee = true ∧ t.finder ≠ t.who then divNearestDown (m * cfg.feePct) 100 else 0

/-- `payout_tip`, lib.rs:634-664; returns the amount of the event `TipClosed`. The transfer of the fee
is skipped when there is no fee, which is the same as transferring nothing. -/
def payoutTip (cfg : Cfg) (s : State) (t : OpenTip) : Except Err (Bank × Nat) :=
  match middle (retain s.members t.tips) with
  | none => .error .panic
  | some m =>
    let fee := finderFee cfg t m
    let b := attempt (giveBack s.bank t) s.account t.finder fee
    .ok (attempt b s.account t.who (m - fee), m - fee)

/-- `payout_credit_tip`, lib.rs:706-723; returns the credit given to `who`. -/
def payoutCredit (cfg : Cfg) (s : State) (t : OpenTip) : Except Err (Bank × Nat) :=
  match middle (retain s.members t.credits) with
  | none => .error .panic
  | some m => .ok (giveBack s.bank t, min m cfg.maxCredit)

/-- Key of a tip, e.g. lib.rs:270. -/
def key (cfg : Cfg) (r : List Nat) (who : AccId) : Nat := cfg.hashOf (cfg.hash r) who

/-- `report_awesome`, lib.rs:253-294. -/
def report (cfg : Cfg) (s : State) (finder : AccId) (r : List Nat) (who : AccId) : Except Err State :=
  if cfg.maxReason < r.length then .error .reasonTooBig
  else if s.reasons.contains (cfg.hash r) = true then .error .alreadyKnown
  else if s.open_.contains (key cfg r who) = true then .error .alreadyKnown
  else
    let deposit := cfg.depositBase + cfg.depositPerByte * r.length
    (liftBank (s.bank.reserve finder deposit)).map fun b =>
      { s with
        bank := b
        reasons := s.reasons.insert (cfg.hash r) r
        open_ := s.open_.insert (key cfg r who) ⟨cfg.hash r, who, finder, deposit, none, [], true, []⟩ }

/-- `retract_tip`, lib.rs:314-331. -/
def retract (s : State) (who : AccId) (h : Nat) : Except Err State :=
  match s.open_.get h with
  | none => .error .unknownTip
  | some t =>
    if t.finder ≠ who then .error .notFinder
    else .ok { s with bank := giveBack s.bank t, reasons := s.reasons.erase t.reason, open_ := s.open_.erase h }

/-- `tip_new`, lib.rs:353-387. -/
def tipNew (cfg : Cfg) (s : State) (tipper : AccId) (r : List Nat) (who : AccId) (v : Nat) : Except Err State :=
  if tipper ∉ s.members then .error .badOrigin
  else if s.reasons.contains (cfg.hash r) = true then .error .alreadyKnown
  else .ok { s with
    reasons := s.reasons.insert (cfg.hash r) r
    open_ := s.open_.insert (key cfg r who) ⟨cfg.hash r, who, tipper, 0, none, [(tipper, v)], false, []⟩ }

/-- `tip`, lib.rs:411-427. -/
def tip (cfg : Cfg) (s : State) (tipper : AccId) (h : Nat) (v : Nat) : Except Err State :=
  if tipper ∉ s.members then .error .badOrigin
  else match s.open_.get h with
    | none => .error .unknownTip
    | some t => .ok { s with open_ := s.open_.insert h (insertTip cfg s t tipper v) }

/-- Checks and removal common to both closing calls, lib.rs:446-457, 541-552: the tip to pay and the
state without it. -/
def takeClosed (s : State) (h : Nat) : Except Err (OpenTip × State) :=
  match s.open_.get h with
  | none => .error .unknownTip
  | some t =>
    match t.closes with
    | none => .error .stillOpen
    | some n =>
      if s.block < n then .error .premature
      else .ok (t, { s with reasons := s.reasons.erase t.reason, open_ := s.open_.erase h })

/-- `close_tip`, lib.rs:445-460. -/
def close (cfg : Cfg) (s : State) (h : Nat) : Except Err (State × AccId × Nat) :=
  match takeClosed s h with
  | .error e => .error e
  | .ok (t, s1) => (payoutTip cfg s1 t).map fun r => ({ s1 with bank := r.1 }, t.who, r.2)

/-- `slash_tip`, lib.rs:475-488; `ok` tells whether the origin is accepted (runtime/src/lib.rs:857).
What is taken is burnt (`OnSlash = ()`, runtime/src/lib.rs:859). -/
def slash (s : State) (ok : Bool) (h : Nat) : Except Err State :=
  if !ok then .error .badOrigin
  else match s.open_.get h with
    | none => .error .unknownTip
    | some t =>
      let b := if t.deposit = 0 then s.bank else (s.bank.slashReserved t.finder t.deposit).1
      .ok { s with bank := b, reasons := s.reasons.erase t.reason, open_ := s.open_.erase h }

/-- `credit_tip_new`, lib.rs:491-523. -/
def creditNew (cfg : Cfg) (s : State) (tipper : AccId) (r : List Nat) (who : AccId) (v : Nat) :
    Except Err State :=
  if tipper ∉ s.members then .error .badOrigin
  else if s.reasons.contains (cfg.hash r) = true then .error .alreadyKnown
  else .ok { s with
    reasons := s.reasons.insert (cfg.hash r) r
    open_ := s.open_.insert (key cfg r who) ⟨cfg.hash r, who, tipper, 0, none, [], false, [(tipper, v)]⟩ }

/-- `credit_tip`, lib.rs:526-536. -/
def creditTip (cfg : Cfg) (s : State) (tipper : AccId) (h : Nat) (v : Nat) : Except Err State :=
  if tipper ∉ s.members then .error .badOrigin
  else match s.open_.get h with
    | none => .error .unknownTip
    | some t => .ok { s with open_ := s.open_.insert h (insertCredit cfg s t tipper v) }

/-- `close_credit_tip`, lib.rs:540-555. -/
def closeCredit (cfg : Cfg) (s : State) (h : Nat) : Except Err (State × AccId × Nat) :=
  match takeClosed s h with
  | .error e => .error e
  | .ok (t, s1) => (payoutCredit cfg s1 t).map fun r => ({ s1 with bank := r.1 }, t.who, r.2)

/-- `set_tip_owner_address`, lib.rs:558-565. -/
def setPot (s : State) (root : Bool) (a : AccId) : Except Err State :=
  if !root then .error .badOrigin else .ok { s with pot := some a }

/-- Calls, and changes outside the pallet: blocks pass, balances and the council change. -/
inductive Op where
  | report (finder : AccId) (r : List Nat) (who : AccId)
  | retract (who : AccId) (h : Nat)
  | tipNew (tipper : AccId) (r : List Nat) (who : AccId) (v : Nat)
  | tip (tipper : AccId) (h : Nat) (v : Nat)
  | close (h : Nat)
  | slash (ok : Bool) (h : Nat)
  | creditNew (tipper : AccId) (r : List Nat) (who : AccId) (v : Nat)
  | creditTip (tipper : AccId) (h : Nat) (v : Nat)
  | closeCredit (h : Nat)
  | setPot (root : Bool) (a : AccId)
  | external (blocks : Nat) (bank : Bank) (members : List AccId)

/-- Outcome: `closed` is the event `TipClosed`, `credited` the call to the credit pallet with the event
`CreditTipClosed`. -/
inductive Out where
  | done
  | closed (who : AccId) (v : Nat)
  | credited (who : AccId) (v : Nat)
  | failed (e : Err)
deriving DecidableEq, Repr

def body (cfg : Cfg) (s : State) : Op → Except Err (State × Out)
  | .report f r w => (report cfg s f r w).map (·, .done)
  | .retract w h => (retract s w h).map (·, .done)
  | .tipNew a r w v => (tipNew cfg s a r w v).map (·, .done)
  | .tip a h v => (tip cfg s a h v).map (·, .done)
  | .close h => (close cfg s h).map fun r => (r.1, .closed r.2.1 r.2.2)
  | .slash ok h => (slash s ok h).map (·, .done)
  | .creditNew a r w v => (creditNew cfg s a r w v).map (·, .done)
  | .creditTip a h v => (creditTip cfg s a h v).map (·, .done)
  | .closeCredit h => (closeCredit cfg s h).map fun r => (r.1, .credited r.2.1 r.2.2)
  | .setPot root a => (setPot s root a).map (·, .done)
  | .external n b m => .ok ({ s with block := s.block + n, bank := b, members := m }, .done)

/-- One call; a failing call leaves no trace. -/
def step (cfg : Cfg) (s : State) (op : Op) : State × Out :=
  match body cfg s op with
  | .ok r => r
  | .error e => (s, .failed e)

/-- A history with its trace: state before, call, outcome. -/
def run (cfg : Cfg) (s : State) : List Op → State × List (State × Op × Out)
  | [] => (s, [])
  | op :: ops =>
    let r := step cfg s op
    let t := run cfg r.1 ops
    (t.1, (s, op, r.2) :: t.2)

/-- No tips, no payment address. -/
def genesis (bank : Bank) (members : List AccId) : State := ⟨0, bank, members, ∅, ∅, none⟩

end Verif.Tips
