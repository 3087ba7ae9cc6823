import Verif.CreditSpec

/-
What is due to a delegator, used in the statements about the payouts.
-/

namespace Verif.Payout

open Verif.Credit (historyOf recordedAt eras earns periodStart currentEra dailyOf)

/-- The eras from `x` to `y` an account is to be rewarded for: within its reward period, with a recorded credit that
reaches the delegation minimum. -/
def owed (cfg : Credit.Cfg) (k : Credit.State) (a : AccId) (x y : Nat) : List Nat :=
  match k.core.userCredit.get a with
  | none => []
  | some d =>
    (eras x y).filter fun e =>
      decide (e < periodStart (historyOf k.core a) (currentEra cfg k) + d.rewardEras) && earns cfg (historyOf k.core a) e

/-- The reward for the eras from `x` to `y`: for each era that is owed the daily reward of the record valid in that era;
none if no era is owed. -/
def Due (cfg : Credit.Cfg) (k : Credit.State) (a : AccId) (x y : Nat) (v : Option Balance) : Prop :=
  (owed cfg k a x y = [] ∧ v = none) ∨
  (owed cfg k a x y ≠ [] ∧ ∃ daily : Nat → Balance,
    (∀ e ∈ owed cfg k a x y, ∃ d, recordedAt (historyOf k.core a) e = some d ∧ dailyOf k a d = .ok (daily e)) ∧
    v = some ((owed cfg k a x y).map daily).sum)

end Verif.Payout
