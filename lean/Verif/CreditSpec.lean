import Verif.Credit

/-
Small specifications used in the statements about the credit model.
-/

namespace Verif.Credit

/-- The credit data valid in `era` according to a recorded history: the last entry that is not later
than `era`. -/
def recordedAt (h : List (Nat × Data)) (era : Nat) : Option Data :=
  ((h.filter fun e => decide (e.1 ≤ era)).getLast?).map Prod.snd

/-- The eras from `start` to `stop`, both included. -/
def eras (start stop : Nat) : List Nat := List.range' start (stop + 1 - start)

/-- Does era `e` earn a reward: there is a record for it and it reaches the delegation minimum. -/
def earns (cfg : Cfg) (h : List (Nat × Data)) (e : Nat) : Bool :=
  match recordedAt h e with
  | some d => decide (cfg.minCredit ≤ d.credit)
  | none => false

/-- First era of the reward period. -/
def periodStart (h : List (Nat × Data)) (cur : Nat) : Nat :=
  match h with
  | [] => cur
  | e :: _ => e.1

/-- The eras a reward query for `start..stop` pays for: those with sufficient recorded credit, not
after the end of the reward period of the account. -/
def paidEras (cfg : Cfg) (s : State) (a : AccId) (start stop : Nat) : List Nat :=
  match s.core.userCredit.get a with
  | none => []
  | some d =>
    (eras start (min stop (periodStart (historyOf s.core a) (currentEra cfg s) + d.rewardEras - 1))).filter
      (earns cfg (historyOf s.core a))

/-- A list of numbers is strictly increasing. -/
def Increasing (l : List Nat) : Prop := l.Pairwise (· < ·)

/-- Root never rewrites a history with an era that has not come yet. -/
def timely (cfg : Cfg) (s : State) : Op → Prop
  | .forceModifyHistory _ era => era ≤ currentEra cfg s
  | _ => True

/-- Settings passed by root are well-formed percentages (the Rust type `Percent` guarantees it). -/
def validPercents : Op → Prop
  | .updateCreditSetting c => c.baseApy ≤ 100
  | _ => True

/-- Does the operation slash an account that has no credit record (and not by the full amount)? -/
def slashesNothing (cfg : Cfg) (s : State) : Op → Prop
  | .slashCredit a score => s.core.userCredit.get a = none ∧ score.getD cfg.attenuationStep ≠ u64Max
  | .evmUpdateCredit caller user score add =>
    s.isEvmOperator caller = true ∧ add = false ∧ score ≠ u64Max ∧
      ∃ a, s.evmToAccount user = some a ∧ s.core.userCredit.get a = none
  | _ => False

/-- Times (seconds) at which a traffic report of `a` raised its credit. -/
def increaseTimes (a : AccId) (tr : List (State × Op × Out)) : List Nat :=
  tr.filterMap fun e => match e with
    | (s, .traffic b, .flag true) => if b = a then some s.now else none
    | _ => none

/-- Credit obtained by `a` through the successful NFT burns of a history, in order. -/
def nftGains (a : AccId) (tr : List (State × Op × Out)) : List Nat :=
  tr.filterMap fun e => match e with
    | (s, .burnNft b cls _, .done) => if b = a then some ((s.nftClassCredit.get cls).getD 0) else none
    | _ => none

/-- Prices accepted during a history, in order. -/
def acceptedPrices (tr : List (State × Op × Out)) : List Balance :=
  tr.filterMap fun e => match e with
    | (_, .setDprPrice _ p, .done) => some p
    | _ => none

/-- The rewarded queries for account `a` in a history: state, first and last era asked for. -/
def rewardedQueries (a : AccId) (tr : List (State × Op × Out)) : List (State × Nat × Nat) :=
  tr.filterMap fun e => match e with
    | (s, .getReward b x y, .reward (some _)) => if b = a then some (s, x, y) else none
    | _ => none

end Verif.Credit
