import Verif.Basic

/-
Model of the credit primitives (primitives/src/credit.rs) and of the `Percent`/`Perbill` arithmetic
the credit pallet uses.
-/

namespace Verif.Credit

/-- primitives/src/credit.rs:108-118, `enum CreditLevel`. -/
inductive Level where
  | zero | one | two | three | four | five | six | seven | eight
deriving DecidableEq, Repr, Inhabited

/-- `impl Into<u8> for CreditLevel`, primitives/src/credit.rs:143-157. -/
def Level.toU8 : Level → Nat
  | .zero => 0 | .one => 1 | .two => 2 | .three => 3 | .four => 4
  | .five => 5 | .six => 6 | .seven => 7 | .eight => 8

/-- `impl From<u8> for CreditLevel`, primitives/src/credit.rs:126-141. -/
def Level.ofU8 (n : Nat) : Level :=
  match n with
  | 0 => .zero | 1 => .one | 2 => .two | 3 => .three | 4 => .four
  | 5 => .five | 6 => .six | 7 => .seven | 8 => .eight | _ => .zero

/-- `CreditLevel::get_credit_level`, primitives/src/credit.rs:160-173. The Rust range patterns become
a chain of comparisons. -/
def Level.ofScore (score : Nat) : Level :=
  if score ≤ 99 then .zero
  else if 100 ≤ score ∧ score ≤ 199 then .one
  else if 200 ≤ score ∧ score ≤ 299 then .two
  else if 300 ≤ score ∧ score ≤ 399 then .three
  else if 400 ≤ score ∧ score ≤ 499 then .four
  else if 500 ≤ score ∧ score ≤ 599 then .five
  else if 600 ≤ score ∧ score ≤ 699 then .six
  else if 700 ≤ score ∧ score ≤ 799 then .seven
  else .eight

/-- `CreditLevel::credit_level_gap`, primitives/src/credit.rs:175-179. -/
def Level.gap (l r : Level) : Nat := 100 * (l.toU8 - r.toU8)

/-- `DEFAULT_REWARD_ERAS`, primitives/src/credit.rs:15. -/
def defaultRewardEras : Nat := 10 * 365

/-- `OLD_REWARD_ERAS`, primitives/src/credit.rs:17. -/
def oldRewardEras : Nat := 270

/-- `CREDIT_CAP_ONE_ERAS`, primitives/src/credit.rs:19. -/
def creditCapOneEras : Nat := 1

/-- `struct CreditSetting`, primitives/src/credit.rs:34-44. The campaign id and level it is filed
under are fields of the Rust struct too. `Percent`s are numbers of hundredths. -/
structure Setting where
  campaign : Nat := 0
  level : Level := .zero
  stakingBalance : Balance := 0
  baseApy : Nat := 0
  bonusApy : Nat := 0
  maxRankWithBonus : Nat := 0
  taxRate : Nat := 0
  maxReferees : Nat := 0
  rewardPerReferee : Balance := 0
deriving DecidableEq, Repr, Inhabited

/-- `struct CreditData`, primitives/src/credit.rs:60-68. -/
structure Data where
  campaign : Nat := 0
  credit : Nat := 0
  initialLevel : Level := .zero
  rank : Nat := 0
  referees : Nat := 0
  level : Level := .zero
  rewardEras : Nat := 0
deriving DecidableEq, Repr, Inhabited

/-- `CreditData::new`, primitives/src/credit.rs:71-81. -/
def Data.new (campaign credit : Nat) : Data :=
  { campaign, credit, initialLevel := .ofScore credit, level := .ofScore credit,
    rewardEras := defaultRewardEras }

/-- `CreditData::update`, primitives/src/credit.rs:83-87. -/
def Data.update (d : Data) (credit : Nat) : Data :=
  { d with level := .ofScore credit, credit }

/-- `u64::MAX`. -/
def u64Max : Nat := 2 ^ 64 - 1

/-- `u64::saturating_add`. -/
def satAdd64 (a b : Nat) : Nat := min (a + b) u64Max

/-- `DPR`, primitives/src/lib.rs. -/
def dpr : Nat := 10 ^ 18

/-- `Percent * x` for a percent of `p` hundredths (rounds to the nearest integer, ties down). -/
def percentMul (p x : Nat) : Nat := divNearestDown (x * p) 100

/-- `Perbill::from_rational(p, q) * x` (`from_rational` rounds down, saturates at one). -/
def perbillMul (p q x : Nat) : Nat :=
  divNearestDown (x * (if q = 0 ∨ q ≤ p then 10 ^ 9 else p * 10 ^ 9 / q)) (10 ^ 9)

/-- `Percent::saturating_add`. -/
def percentSatAdd (p q : Nat) : Nat := min (p + q) 100

end Verif.Credit
