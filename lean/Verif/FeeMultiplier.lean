import Verif.Basic
import Mathlib.Tactic.Ring
import Mathlib.Tactic.Linarith

/-!
# Fees follow the load slowly and within bounds: C120

Source: the parameters of the transaction payment pallet, `runtime/src/lib.rs:528-550`, the block limits
`runtime/src/lib.rs:233-271`, and the tests of the multiplier in `runtime/src/impls.rs:40-385`, which sample a few loads
and start values.

A multiplier is a `FixedU128`: the natural number `x` stands for `x / 10^18`.

Trusted (pallet-transaction-payment, sp-arithmetic): the update rule `TargetedFeeAdjustment::convert` and the fee formula
`compute_fee_raw`, written out below with their roundings; `on_finalize` of the pallet applies the rule once per block to
the weight used by the block.  The saturation of products is written down; no product below reaches it except the final
sum.
-/

namespace Verif.FeeMultiplier

open Verif

/-! ### Parameters -/

/-- The number 1 as a `FixedU128` (the type `Multiplier`, runtime/src/lib.rs:531). -/
def one : Nat := 1000000000000000000

/-- `MinimumMultiplier`, one billionth (runtime/src/lib.rs:532). -/
def minMult : Nat := one / 1000000000

/-- `MaximumMultiplier`, the largest `FixedU128` (runtime/src/lib.rs:533). -/
def maxMult : Nat := 2 ^ 128 - 1

/-- `AdjustmentVariable`, 1/100000 (runtime/src/lib.rs:531). -/
def adjustVar : Nat := one / 100000

/-- `TransactionByteFee`, one millicent (runtime/src/lib.rs:529, runtime/src/constants.rs:24). -/
def byteFee : Nat := 10000000000000

/-- The computing time of a block, two seconds in picoseconds (`MAXIMUM_BLOCK_WEIGHT`, runtime/src/lib.rs:240-242). -/
def maxBlockRef : Nat := 2 * 1000000000000

/-- The proof size of a block is not limited (`u64::MAX`, runtime/src/lib.rs:242). -/
def maxBlockProof : Nat := 2 ^ 64 - 1

/-- The computing time of normal extrinsics, 75% (`NORMAL_DISPATCH_RATIO`, runtime/src/lib.rs:238, 256-258). -/
def maxRef : Nat := divNearestDown (maxBlockRef * 750000000) 1000000000

/-- The proof size of normal extrinsics, 75% (runtime/src/lib.rs:238, 256-258). -/
def maxProof : Nat := divNearestDown (maxBlockProof * 750000000) 1000000000

/-- `TargetBlockFullness` of a dimension with limit `m`: a quarter, a `Perquintill` multiplied with rounding to the
nearest (runtime/src/lib.rs:530). -/
def target (m : Nat) : Nat := divNearestDown (m * 250000000000000000) 1000000000000000000

/-! ### The update rule -/

/-- What the normal extrinsics of a block used (`block_weight().get(Normal)`, read by the rule configured in
runtime/src/lib.rs:541-547). -/
structure Load where
  refTime : Nat
  proofSize : Nat
  deriving DecidableEq, Repr

/-- The product of two `FixedU128`, rounding down (library; rule configured in runtime/src/lib.rs:541-547). -/
def part (a b : Nat) : Nat := a * b / one

/-- `saturating_mul` of `FixedU128` (library; rule configured in runtime/src/lib.rs:541-547). -/
def fmul (a b : Nat) : Nat := min (part a b) maxMult

/-- `Perbill::from_rational`, rounding down (library; rule configured in runtime/src/lib.rs:541-547). -/
def share (x m : Nat) : Nat := x * 1000000000 / max m 1

/-- The dimension by which the block is judged, with its limit: the proof size when its share is larger, else the
computing time (library; rule configured in runtime/src/lib.rs:541-547). -/
def limiting (l : Load) : Nat × Nat :=
  if share (min l.refTime maxRef) maxRef < share (min l.proofSize maxProof) maxProof then
    (min l.proofSize maxProof, maxProof)
  else (min l.refTime maxRef, maxRef)

/-- The distance from the target as a share of the limit, `diff` (library; rule configured in
runtime/src/lib.rs:541-547). -/
def diff (b m : Nat) : Nat := min ((max b (target m) - min b (target m)) * one / max m 1) maxMult

/-- `first_term`, the adjustment variable times the distance (library; rule configured in runtime/src/lib.rs:541-547). -/
def first (d : Nat) : Nat := fmul adjustVar d

/-- `second_term`, half the square of the first one (library; rule configured in runtime/src/lib.rs:541-547). -/
def second (d : Nat) : Nat := fmul (fmul adjustVar adjustVar / 2) (fmul d d)

/-- `clamp` to the two limits (library; rule configured in runtime/src/lib.rs:541-547). -/
def clamp (x : Nat) : Nat := min (max x minMult) maxMult

/-- The multiplier after a block (`TargetedFeeAdjustment::convert`, configured in runtime/src/lib.rs:541-547). -/
def convert (prev : Nat) (l : Load) : Nat :=
  let previous := max prev minMult
  let b := (limiting l).1
  let m := (limiting l).2
  let d := diff b m
  if target m ≤ b then
    clamp (min (previous + fmul (min (first d + second d) maxMult) previous) maxMult)
  else
    clamp (previous - fmul (first d - second d) previous)

/-- The multiplier after some blocks (`on_finalize` of the pallet configured in runtime/src/lib.rs:537-550). -/
def run (prev : Nat) (ls : List Load) : Nat := ls.foldl convert prev

/-! ### The fee -/

/-- What decides about the fee of an extrinsic (`DispatchInfo`, its length, and the tip; runtime/src/lib.rs:537-550). -/
structure Tx where
  refTime : Nat
  len : Nat
  tip : Nat
  pays : Bool
  deriving DecidableEq, Repr

/-- `IdentityFee` of the weight, capped at a block (runtime/src/lib.rs:540). -/
def weightFee (w : Nat) : Nat := min w maxBlockRef

/-- The fee of an extrinsic (`compute_fee_raw` with `WeightToFee` and `LengthToFee` of runtime/src/lib.rs:540-549):
base, length, weight times the multiplier, and the tip.  `base` is the weight of an empty extrinsic
(runtime/src/lib.rs:253-255).  Saturation at `u128::MAX` is left out. -/
def fee (base mult : Nat) (t : Tx) : Nat :=
  if t.pays then weightFee base + byteFee * t.len + part mult (weightFee t.refTime) + t.tip else t.tip

/-- What the signer has paid in the end: the fee of the declared weight is taken first; afterwards the fee is computed
again with the actual weight, capped at the declared one, and the difference is given back (`CurrencyAdapter`,
runtime/src/lib.rs:539). -/
def charged (base mult : Nat) (t : Tx) (actual : Option Nat) (paysAfter : Bool) : Nat :=
  let after : Tx :=
    { t with refTime := min (actual.getD t.refTime) t.refTime, pays := t.pays && paysAfter }
  fee base mult t - (fee base mult t - fee base mult after)

/-! ### Arithmetic of the rule -/

theorem minMult_eq : minMult = 1000000000 := by decide
theorem maxMult_eq : maxMult = 340282366920938463463374607431768211455 := by decide
theorem adjustVar_eq : adjustVar = 10000000000000 := by decide
theorem maxRef_eq : maxRef = 1500000000000 := by decide +kernel
theorem maxProof_eq : maxProof = 13835058055282163711 := by decide +kernel
theorem target_ref : target maxRef = 375000000000 := by decide +kernel
theorem target_proof : target maxProof = 3458764513820540928 := by decide +kernel

/-- The limits and targets of the two dimensions. -/
theorem limiting_cases (l : Load) :
    ((limiting l).2 = maxRef ∧ (limiting l).1 = min l.refTime maxRef) ∨
      ((limiting l).2 = maxProof ∧ (limiting l).1 = min l.proofSize maxProof) := by
  unfold limiting
  by_cases h : share (min l.refTime maxRef) maxRef < share (min l.proofSize maxProof) maxProof
  · rw [if_pos h]; exact .inr ⟨rfl, rfl⟩
  · rw [if_neg h]; exact .inl ⟨rfl, rfl⟩

theorem diff_of_ref (b : Nat) : diff b maxRef =
    min ((max b 375000000000 - min b 375000000000) * 1000000000000000000 / 1500000000000) maxMult := by
  have h : max maxRef 1 = 1500000000000 := by rw [maxRef_eq]; rfl
  unfold diff one
  rw [target_ref, h]

theorem diff_of_proof (b : Nat) : diff b maxProof =
    min ((max b 3458764513820540928 - min b 3458764513820540928) * 1000000000000000000 / 13835058055282163711)
      maxMult := by
  have h : max maxProof 1 = 13835058055282163711 := by rw [maxProof_eq]; rfl
  unfold diff one
  rw [target_proof, h]

/-- How far a block can be from the target, as a share. -/
theorem diff_le {b m : Nat} (h : m = maxRef ∨ m = maxProof) (hb : b ≤ m) :
    diff b m ≤ 750000000000000001 ∧ (b < target m → diff b m ≤ 250000000000000000) := by
  rcases h with h | h <;> subst h
  · rw [diff_of_ref, target_ref, maxMult_eq]; rw [maxRef_eq] at hb; omega
  · rw [diff_of_proof, target_proof, maxMult_eq]; rw [maxProof_eq] at hb; omega

theorem diff_zero (m : Nat) : diff (target m) m = 0 := by
  simp [diff]

/-- At least a five-thousandth of the limit away from the target. -/
theorem diff_ge {b m : Nat} (h : m = maxRef ∨ m = maxProof)
    (hf : target m + m / 5000 ≤ b ∨ b + m / 5000 ≤ target m) : 199999999999999 ≤ diff b m := by
  rcases h with h | h <;> subst h
  · rw [target_ref, maxRef_eq] at hf; rw [diff_of_ref, maxMult_eq]; omega
  · rw [target_proof, maxProof_eq] at hf; rw [diff_of_proof, maxMult_eq]; omega

/-- `first` without saturation. -/
theorem first_eq {d : Nat} (h : d ≤ 1000000000000000000) : first d = d / 100000 := by
  unfold first fmul part
  rw [adjustVar_eq, maxMult_eq]
  unfold one
  omega

theorem part_mono {t t' p p' : Nat} (ht : t ≤ t') (hp : p ≤ p') : part t p ≤ part t' p' := by
  unfold part
  exact Nat.div_le_div_right (Nat.mul_le_mul ht hp)

/-- The product with a share of at most one. -/
theorem part_le {t p : Nat} (ht : t ≤ one) : part t p ≤ p := by
  unfold part
  exact Nat.div_le_of_le_mul (Nat.mul_le_mul_right p ht)

theorem part_mul_le (t p : Nat) : part t p * one ≤ t * p := by
  unfold part
  exact Nat.div_mul_le_self _ _

theorem one_pos : 0 < one := by decide

theorem le_part {t p k : Nat} (h : k * one ≤ t * p) : k ≤ part t p := by
  unfold part
  exact (Nat.le_div_iff_mul_le one_pos).2 h

theorem part_lower {t k p : Nat} (h : one ≤ t * k) : p / k ≤ part t p := by
  refine le_part ?_
  calc p / k * one ≤ p / k * (t * k) := Nat.mul_le_mul_left _ h
    _ = t * (p / k * k) := by ring
    _ ≤ t * p := Nat.mul_le_mul_left _ (Nat.div_mul_le_self _ _)

/-- A billionth of a billionth counts. -/
theorem part_pos {t p : Nat} (ht : 1000000000 ≤ t) (hp : 1000000000 ≤ p) : 1 ≤ part t p := by
  have h : 1000000000 * 1000000000 ≤ t * p := Nat.mul_le_mul ht hp
  have e : 1 * one = 1000000000 * 1000000000 := by decide
  exact le_part (e ▸ h)

theorem part_add_le {t p k : Nat} (ht : t ≤ one) : part t (p + k) ≤ part t p + k := by
  unfold part
  have hk : t * (p + k) ≤ t * p + one * k := by
    rw [Nat.mul_add]
    exact Nat.add_le_add_left (Nat.mul_le_mul_right k ht) _
  have h5 := Nat.div_le_div_right (c := one) hk
  rwa [Nat.add_mul_div_left _ _ one_pos] at h5

/-- The squares of two shares differ by at most the shares. -/
theorem part_sq {e k : Nat} (h : 2 * e + k ≤ one) : part (e + k) (e + k) ≤ part e e + k := by
  unfold part
  have hsq : (e + k) * (e + k) ≤ e * e + one * k := by
    have h1 : (e + k) * (e + k) = e * e + (2 * e + k) * k := by ring
    rw [h1]
    exact Nat.add_le_add_left (Nat.mul_le_mul_right k h) _
  have h5 := Nat.div_le_div_right (c := one) hsq
  rwa [Nat.add_mul_div_left _ _ one_pos] at h5

theorem half_eq : fmul adjustVar adjustVar / 2 = 50000000 := by decide

/-- `second` without saturation. -/
theorem second_eq {d : Nat} (h : d ≤ one) : second d = part 50000000 (part d d) := by
  have hs : part d d ≤ d := part_le h
  have h1 : part 50000000 (part d d) ≤ part d d := part_le (by decide)
  have hm : one ≤ maxMult := by decide
  have hd : fmul d d = part d d := by unfold fmul; omega
  unfold second
  rw [half_eq, hd]
  unfold fmul
  omega

theorem part_small (x : Nat) : part 50000000 x = 50000000 * x / 1000000000000000000 := rfl

theorem second_le {d : Nat} (h : d ≤ one) : second d ≤ 50000000 := by
  rw [second_eq h, part_small]
  have hs : part d d ≤ d := part_le h
  have ho : one = 1000000000000000000 := by decide
  rw [ho] at h
  omega

theorem fmul_eq {t p : Nat} (ht : t ≤ one) (hp : p ≤ maxMult) : fmul t p = part t p := by
  have : part t p ≤ p := part_le ht
  unfold fmul
  omega

theorem clamp_bounds (x : Nat) : minMult ≤ clamp x ∧ clamp x ≤ maxMult := by
  have : minMult ≤ maxMult := by decide
  unfold clamp; omega

/-- How much of the multiplier is added (for a block at or above the target). -/
def upRate (l : Load) : Nat := first (diff (limiting l).1 (limiting l).2) + second (diff (limiting l).1 (limiting l).2)

/-- How much of the multiplier is taken away (for a block below the target). -/
def downRate (l : Load) : Nat := first (diff (limiting l).1 (limiting l).2) - second (diff (limiting l).1 (limiting l).2)

theorem limiting_limit (l : Load) : (limiting l).2 = maxRef ∨ (limiting l).2 = maxProof := by
  rcases limiting_cases l with ⟨h, _⟩ | ⟨h, _⟩
  · exact .inl h
  · exact .inr h

theorem limiting_le (l : Load) : (limiting l).1 ≤ (limiting l).2 := by
  rcases limiting_cases l with ⟨h, h2⟩ | ⟨h, h2⟩ <;> rw [h, h2] <;> exact Nat.min_le_right _ _

theorem one_eq : one = 1000000000000000000 := rfl

/-- The size of the two terms, for a distance of at most the limit. -/
theorem terms {b m : Nat} (h : m = maxRef ∨ m = maxProof) (hb : b ≤ m) :
    first (diff b m) = diff b m / 100000 ∧ second (diff b m) ≤ 50000000 ∧ diff b m ≤ 750000000000000001 ∧
      (b < target m → diff b m ≤ 250000000000000000) := by
  have hd := diff_le h hb
  have h1 : diff b m ≤ one := by rw [one_eq]; omega
  exact ⟨first_eq (by omega), second_le h1, hd.1, hd.2⟩

theorem rates (l : Load) :
    upRate l ≤ 7500050000000 ∧ ((limiting l).1 < target (limiting l).2 → downRate l ≤ 2500000000000) := by
  have ht := terms (limiting_limit l) (limiting_le l)
  unfold upRate downRate
  omega

theorem downRate_le (l : Load) : downRate l ≤ one := by
  have ht := terms (limiting_limit l) (limiting_le l)
  unfold downRate
  rw [one_eq]
  omega

/-- The rule without its saturations. -/
theorem convert_eq {prev : Nat} (h : minMult ≤ prev) (h' : prev ≤ maxMult) (l : Load) :
    convert prev l =
      if target (limiting l).2 ≤ (limiting l).1 then min (prev + part (upRate l) prev) maxMult
      else max (prev - part (downRate l) prev) minMult := by
  have hu : upRate l ≤ one := by have := (rates l).1; rw [one_eq]; omega
  have hdn := downRate_le l
  have hmm : minMult ≤ maxMult := by decide
  have hom : one ≤ maxMult := by decide
  have hmin : min (upRate l) maxMult = upRate l := by omega
  have hc : convert prev l =
      if target (limiting l).2 ≤ (limiting l).1 then
        clamp (min (max prev minMult + fmul (min (upRate l) maxMult) (max prev minMult)) maxMult)
      else clamp (max prev minMult - fmul (downRate l) (max prev minMult)) := by
    unfold convert upRate downRate
    rfl
  rw [hc, Nat.max_eq_left h, hmin, fmul_eq hu h', fmul_eq hdn h']
  have hsub : part (downRate l) prev ≤ prev := part_le hdn
  unfold clamp
  generalize part (downRate l) prev = x at *
  generalize part (upRate l) prev = y at *
  split <;> omega

theorem convert_bounds (prev : Nat) (l : Load) : minMult ≤ convert prev l ∧ convert prev l ≤ maxMult := by
  unfold convert
  simp only
  split <;> exact clamp_bounds _

/-! ### The claims -/

theorem run_cons (q : Nat) (l : Load) (ls : List Load) : run q (l :: ls) = run (convert q l) ls := by
  unfold run
  rw [List.foldl_cons]

theorem run_append (q : Nat) (xs ys : List Load) : run q (xs ++ ys) = run (run q xs) ys := by
  unfold run
  rw [List.foldl_append]

theorem run_nil (q : Nat) : run q [] = q := by
  unfold run
  rw [List.foldl_nil]

/-- **C120.** After every block the multiplier is within its bounds: it is at least one billionth, so that the weight of
an extrinsic always counts, and at most the largest number. -/
theorem C120_bounds (prev : Nat) (ls : List Load) (l : Load) :
    minMult ≤ run prev (ls ++ [l]) ∧ run prev (ls ++ [l]) ≤ maxMult := by
  rw [run_append, run_cons, run_nil]
  exact convert_bounds _ l

theorem run_bounds {prev : Nat} (h : minMult ≤ prev) (h' : prev ≤ maxMult) (ls : List Load) :
    minMult ≤ run prev ls ∧ run prev ls ≤ maxMult := by
  induction ls generalizing prev with
  | nil => rw [run_nil]; exact ⟨h, h'⟩
  | cons l ls ih => rw [run_cons]; exact ih (convert_bounds prev l).1 (convert_bounds prev l).2

/-- The block is above the target by at least the `k`-th part of the limit, in the dimension by which it is judged. -/
def Above (l : Load) (k : Nat) : Prop := target (limiting l).2 + (limiting l).2 / k ≤ (limiting l).1

/-- The block is below the target by at least the `k`-th part of the limit, in the dimension by which it is judged. -/
def Below (l : Load) (k : Nat) : Prop := (limiting l).1 + (limiting l).2 / k ≤ target (limiting l).2

/-- **C120.** The multiplier moves in the direction of the load: blocks at or above a quarter never lower it, blocks at or
below a quarter never raise it, and a block of exactly a quarter leaves it as it is. -/
theorem C120_direction {prev : Nat} (h : minMult ≤ prev) (h' : prev ≤ maxMult) (l : Load) :
    (target (limiting l).2 ≤ (limiting l).1 → prev ≤ convert prev l) ∧
      ((limiting l).1 ≤ target (limiting l).2 → convert prev l ≤ prev) := by
  have he := convert_eq h h' l
  constructor
  · intro ht
    rw [he, if_pos ht]
    exact Nat.le_min.2 ⟨Nat.le_add_right _ _, h'⟩
  · intro ht
    by_cases h2 : target (limiting l).2 ≤ (limiting l).1
    · rw [he, if_pos h2]
      have heq : (limiting l).1 = target (limiting l).2 := Nat.le_antisymm ht h2
      have hz : upRate l = 0 := by
        unfold upRate
        rw [heq, diff_zero]
        decide
      have hp : part 0 prev = 0 := by unfold part; rw [Nat.zero_mul, Nat.zero_div]
      rw [hz, hp, Nat.add_zero]
      exact Nat.min_le_left _ _
    · rw [he, if_neg h2]
      exact Nat.max_le.2 ⟨Nat.sub_le _ _, h⟩

theorem fifth_pos (l : Load) : 0 < (limiting l).2 / 5000 := by
  rcases limiting_limit l with hm | hm <;> rw [hm]
  · rw [maxRef_eq]; decide
  · rw [maxProof_eq]; decide

/-- **C120.** The multiplier never gets stuck: from every value below the maximum, also from the minimum, a block which is
above the target by a five-thousandth of the limit raises it; from every value above the minimum, a block which is below
the target by as much lowers it. -/
theorem C120_moves {prev : Nat} (h : minMult ≤ prev) (h' : prev ≤ maxMult) (l : Load) :
    (Above l 5000 → prev < maxMult → prev < convert prev l) ∧
      (Below l 5000 → minMult < prev → convert prev l < prev) := by
  have he := convert_eq h h' l
  have ht := terms (limiting_limit l) (limiting_le l)
  have hp : 1000000000 ≤ prev := by rw [minMult_eq] at h; exact h
  have hpos := fifth_pos l
  constructor
  · intro ha hlt
    unfold Above at ha
    have hge := diff_ge (limiting_limit l) (.inl ha)
    rw [he, if_pos (by omega)]
    have h1 := part_pos (t := upRate l) (by unfold upRate; omega) hp
    generalize part (upRate l) prev = x at *
    clear he ht ha hge hpos
    omega
  · intro ha hlt
    unfold Below at ha
    have hge := diff_ge (limiting_limit l) (.inr ha)
    rw [he, if_neg (by omega)]
    have h1 := part_pos (t := downRate l) (by unfold downRate; omega) hp
    generalize part (downRate l) prev = x at *
    clear he ht ha hge hpos
    omega

/-- **C120.** The multiplier after a block is larger when it was larger before. -/
theorem C120_mono_prev {p q : Nat} (h : minMult ≤ p) (hpq : p ≤ q) (h' : q ≤ maxMult) (l : Load) :
    convert p l ≤ convert q l := by
  rw [convert_eq h (Nat.le_trans hpq h') l, convert_eq (Nat.le_trans h hpq) h' l]
  have h1 : part (upRate l) p ≤ part (upRate l) q := part_mono (Nat.le_refl _) hpq
  obtain ⟨k, rfl⟩ := Nat.le.dest hpq
  have h2 : part (downRate l) (p + k) ≤ part (downRate l) p + k := part_add_le (downRate_le l)
  generalize part (upRate l) p = a at *
  generalize part (upRate l) (p + k) = b at *
  generalize part (downRate l) p = c at *
  generalize part (downRate l) (p + k) = d at *
  split <;> omega

/-- The share of the distance grows with the distance from the target (computing time). -/
theorem diff_ref {b : Nat} (hb : b ≤ maxRef) :
    diff b maxRef = (max b 375000000000 - min b 375000000000) * 1000000000000000000 / 1500000000000 := by
  rw [diff_of_ref, maxMult_eq]
  rw [maxRef_eq] at hb
  omega

/-- Above the target, the rate grows with the load. -/
theorem up_mono {b c : Nat} (h : 375000000000 ≤ b) (hbc : b ≤ c) (hc : c ≤ maxRef) :
    first (diff b maxRef) + second (diff b maxRef) ≤ first (diff c maxRef) + second (diff c maxRef) := by
  have t1 := terms (b := b) (.inl rfl) (Nat.le_trans hbc hc)
  have t2 := terms (b := c) (.inl rfl) hc
  have o1 : diff b maxRef ≤ one := by rw [one_eq]; omega
  have o2 : diff c maxRef ≤ one := by rw [one_eq]; omega
  have hd : diff b maxRef ≤ diff c maxRef := by
    rw [diff_ref hc, diff_ref (Nat.le_trans hbc hc)]
    omega
  rw [t1.1, t2.1, second_eq o1, second_eq o2]
  have hs := part_mono (Nat.le_refl 50000000) (part_mono hd hd)
  exact Nat.add_le_add (Nat.div_le_div_right hd) hs

/-- Below the target, the rate falls with the load: one picosecond changes the first term by more than the second. -/
theorem down_mono {b c : Nat} (hbc : b < c) (hc : c < 375000000000) :
    first (diff c maxRef) - second (diff c maxRef) ≤ first (diff b maxRef) - second (diff b maxRef) := by
  have hcm : c ≤ maxRef := by rw [maxRef_eq]; omega
  have hbm : b ≤ maxRef := Nat.le_trans (Nat.le_of_lt hbc) hcm
  have t1 := terms (b := b) (.inl rfl) hbm
  have t2 := terms (b := c) (.inl rfl) hcm
  have hd := t1.2.2.2 (by rw [target_ref]; omega)
  have o1 : diff b maxRef ≤ one := by rw [one_eq]; omega
  have o2 : diff c maxRef ≤ one := by rw [one_eq]; omega
  have hgap : diff c maxRef + 600000 ≤ diff b maxRef := by
    rw [diff_ref hcm, diff_ref hbm]
    omega
  rw [t1.1, t2.1, second_eq o1, second_eq o2]
  clear t1 t2
  generalize diff b maxRef = d at *
  generalize diff c maxRef = e at *
  obtain ⟨k, hk⟩ := Nat.le.dest hgap
  have hd2 : d = e + (600000 + k) := by omega
  have hsq := part_sq (e := e) (k := 600000 + k) (by rw [one_eq]; omega)
  rw [hd2]
  rw [part_small, part_small]
  generalize part (e + (600000 + k)) (e + (600000 + k)) = x at *
  generalize part e e = y at *
  omega

/-- **C120.** A fuller block never makes the next one cheaper (for blocks judged by their computing time). -/
theorem C120_mono_load {prev : Nat} (h : minMult ≤ prev) (h' : prev ≤ maxMult) {l l' : Load}
    (hl : (limiting l).2 = maxRef) (hl' : (limiting l').2 = maxRef) (hle : l.refTime ≤ l'.refTime) :
    convert prev l ≤ convert prev l' := by
  have hne : maxRef ≠ maxProof := by rw [maxRef_eq, maxProof_eq]; decide
  have hb : (limiting l).1 = min l.refTime maxRef := by
    rcases limiting_cases l with ⟨_, h2⟩ | ⟨h1, _⟩
    · exact h2
    · exact absurd (hl.symm.trans h1) hne
  have hb' : (limiting l').1 = min l'.refTime maxRef := by
    rcases limiting_cases l' with ⟨_, h2⟩ | ⟨h1, _⟩
    · exact h2
    · exact absurd (hl'.symm.trans h1) hne
  have hbb : (limiting l).1 ≤ (limiting l').1 := by rw [hb, hb']; omega
  have hx : (limiting l').1 ≤ maxRef := by rw [hb']; exact Nat.min_le_right _ _
  have e1 := convert_eq h h' l
  have e2 := convert_eq h h' l'
  rw [hl, target_ref] at e1
  rw [hl', target_ref] at e2
  by_cases h1 : 375000000000 ≤ (limiting l).1
  · rw [if_pos h1] at e1
    rw [if_pos (Nat.le_trans h1 hbb)] at e2
    have hr : upRate l ≤ upRate l' := by
      unfold upRate
      rw [hl, hl']
      exact up_mono h1 hbb hx
    have hp := part_mono hr (Nat.le_refl prev)
    rw [e1, e2]
    generalize part (upRate l) prev = a at *
    generalize part (upRate l') prev = b at *
    clear e1 e2
    omega
  · by_cases h2 : 375000000000 ≤ (limiting l').1
    · have a1 := (C120_direction h h' l').1 (by rw [hl', target_ref]; exact h2)
      have a2 := (C120_direction h h' l).2 (by rw [hl, target_ref]; omega)
      exact Nat.le_trans a2 a1
    · rw [if_neg h1] at e1
      rw [if_neg h2] at e2
      have hr : downRate l' ≤ downRate l := by
        unfold downRate
        rw [hl, hl']
        by_cases heq : (limiting l).1 = (limiting l').1
        · rw [heq]
        · exact down_mono (by omega) (by omega)
      have hp := part_mono hr (Nat.le_refl prev)
      rw [e1, e2]
      generalize part (downRate l) prev = a at *
      generalize part (downRate l') prev = b at *
      clear e1 e2
      omega

/-! ### Over many blocks -/

/-- One block raises the multiplier by at most 0.000750005 percent and lowers it by at most 0.00025 percent. -/
theorem convert_slow {prev : Nat} (h : minMult ≤ prev) (h' : prev ≤ maxMult) (l : Load) :
    convert prev l * one ≤ prev * (one + 7500050000000) ∧ prev * (one - 2500000000000) ≤ convert prev l * one := by
  have hup := (rates l).1
  have hdn := (rates l).2
  have a0 : prev * one ≤ prev * (one + 7500050000000) := Nat.mul_le_mul_left _ (Nat.le_add_right _ _)
  have a1 : prev * (one - 2500000000000) ≤ prev * one := Nat.mul_le_mul_left _ (Nat.sub_le _ _)
  have hd := C120_direction h h' l
  have he := convert_eq h h' l
  by_cases hb : target (limiting l).2 ≤ (limiting l).1
  · refine ⟨?_, Nat.le_trans a1 (Nat.mul_le_mul_right _ (hd.1 hb))⟩
    rw [if_pos hb] at he
    rw [he]
    have hx : part (upRate l) prev * one ≤ prev * 7500050000000 := by
      refine Nat.le_trans (part_mul_le _ _) ?_
      rw [Nat.mul_comm]
      exact Nat.mul_le_mul_left _ hup
    refine Nat.le_trans (Nat.mul_le_mul_right one (Nat.min_le_left _ _)) ?_
    rw [Nat.add_mul, Nat.mul_add]
    exact Nat.add_le_add_left hx _
  · have hlt := Nat.lt_of_not_le hb
    refine ⟨Nat.le_trans (Nat.mul_le_mul_right _ (hd.2 (Nat.le_of_lt hlt))) a0, ?_⟩
    rw [if_neg hb] at he
    rw [he]
    have hx : part (downRate l) prev * one ≤ prev * 2500000000000 := by
      refine Nat.le_trans (part_mul_le _ _) ?_
      rw [Nat.mul_comm]
      exact Nat.mul_le_mul_left _ (hdn hlt)
    refine Nat.le_trans ?_ (Nat.mul_le_mul_right one (Nat.le_max_left _ _))
    rw [Nat.sub_mul, Nat.mul_sub]
    exact Nat.sub_le_sub_left hx _

theorem up_step {D a n p y z : Nat} (hD : 0 < D) (hi : z * (D - n * a) ≤ y * D) (hc : y * D ≤ p * (D + a)) :
    z * (D - (n + 1) * a) ≤ p * D := by
  by_cases hn : D ≤ (n + 1) * a
  · rw [Nat.sub_eq_zero_of_le hn, Nat.mul_zero]; exact Nat.zero_le _
  · obtain ⟨k, hk⟩ := Nat.le.dest (Nat.le_of_not_le hn)
    have e1 : D - (n + 1) * a = k := by omega
    have e2 : D - n * a = k + a := by rw [Nat.add_mul, Nat.one_mul] at hk; omega
    have hkD : k ≤ D := by omega
    rw [e1]
    rw [e2] at hi
    have s1 : z * k * (D + a) ≤ p * D * (D + a) := by
      calc z * k * (D + a) = z * (k * D + k * a) := by ring
        _ ≤ z * (k * D + D * a) := Nat.mul_le_mul_left _ (Nat.add_le_add_left (Nat.mul_le_mul_right a hkD) _)
        _ = z * (k + a) * D := by ring
        _ ≤ y * D * D := Nat.mul_le_mul_right _ hi
        _ ≤ p * (D + a) * D := Nat.mul_le_mul_right _ hc
        _ = p * D * (D + a) := by ring
    exact Nat.le_of_mul_le_mul_right s1 (by omega)

theorem down_step {D a n p y z : Nat} (hD : 0 < D) (hi : y * (D - n * a) ≤ z * D) (hc : p * (D - a) ≤ y * D) :
    p * (D - (n + 1) * a) ≤ z * D := by
  by_cases hn : D ≤ (n + 1) * a
  · rw [Nat.sub_eq_zero_of_le hn, Nat.mul_zero]; exact Nat.zero_le _
  · obtain ⟨k, hk⟩ := Nat.le.dest (Nat.le_of_not_le hn)
    have e1 : D - (n + 1) * a = k := by omega
    rw [Nat.add_mul, Nat.one_mul] at hk
    have e2 : D - n * a = k + a := by omega
    have e3 : D - a = k + n * a := by omega
    rw [e1]
    rw [e2] at hi
    rw [e3] at hc
    have s1 : p * k * D ≤ z * D * D := by
      calc p * k * D = p * k * (n * a + a + k) := by rw [hk]
        _ ≤ p * k * (n * a + a + k) + p * (n * a) * a := Nat.le_add_right _ _
        _ = p * (k + n * a) * (k + a) := by ring
        _ ≤ y * D * (k + a) := Nat.mul_le_mul_right _ hc
        _ = y * (k + a) * D := by ring
        _ ≤ z * D * D := Nat.mul_le_mul_right _ hi
    exact Nat.le_of_mul_le_mul_right s1 hD

/-- **C120.** Whatever the loads of `n` blocks are, the multiplier falls at most by the share `n * 0.0000025` and rises at
most by the factor `1 / (1 - n * 0.00000750005)`. -/
theorem C120_slow {prev : Nat} (h : minMult ≤ prev) (h' : prev ≤ maxMult) (ls : List Load) :
    run prev ls * (one - ls.length * 7500050000000) ≤ prev * one ∧
      prev * (one - ls.length * 2500000000000) ≤ run prev ls * one := by
  induction ls generalizing prev with
  | nil =>
    simp only [run_nil, List.length_nil, Nat.zero_mul, Nat.sub_zero]
    exact ⟨Nat.le_refl _, Nat.le_refl _⟩
  | cons l ls ih =>
    have hb := convert_bounds prev l
    have hi := ih hb.1 hb.2
    have hc := convert_slow h h' l
    rw [run_cons, List.length_cons]
    exact ⟨up_step one_pos hi.1 hc.1, down_step one_pos hi.2 hc.2⟩

/-- **C120.** Within a day (17280 blocks of five seconds) the multiplier rises by at most 15 percent and falls by at most
5 percent, whatever the blocks contain. -/
theorem C120_day {prev : Nat} (h : minMult ≤ prev) (h' : prev ≤ maxMult) (ls : List Load)
    (hn : ls.length ≤ 17280) :
    100 * run prev ls ≤ 115 * prev ∧ 95 * prev ≤ 100 * run prev ls := by
  have hs := C120_slow h h' ls
  rw [one_eq] at hs
  have h1 : run prev ls * 870399136000000000 ≤ prev * 1000000000000000000 :=
    Nat.le_trans (Nat.mul_le_mul_left _ (by omega)) hs.1
  have h2 : prev * 956800000000000000 ≤ run prev ls * 1000000000000000000 :=
    Nat.le_trans (Nat.mul_le_mul_left _ (by omega)) hs.2
  clear hs
  generalize run prev ls = z at *
  omega

/-- **C120.** From the value of the start of the chain, the multiplier stays above the minimum for at least 399999 blocks
(23 days), even if all of them are empty. -/
theorem C120_time_to_minimum (ls : List Load) (hn : ls.length ≤ 399999) : minMult < run one ls := by
  have hs := (C120_slow (prev := one) (by decide) (by decide) ls).2
  have hx : 2500000000000 ≤ one - ls.length * 2500000000000 := by rw [one_eq]; omega
  have h2 : one * 2500000000000 ≤ run one ls * one := Nat.le_trans (Nat.mul_le_mul_left _ hx) hs
  rw [Nat.mul_comm] at h2
  have h3 := Nat.le_of_mul_le_mul_right h2 one_pos
  rw [minMult_eq]
  omega

/-- **C120.** Congestion raises the fees: while every block is full, each block adds at least 0.00075 percent of the value
at the beginning. -/
theorem C120_congested {prev : Nat} (h : minMult ≤ prev) (h' : prev ≤ maxMult) (ls : List Load)
    (hf : ∀ l ∈ ls, maxRef ≤ l.refTime) :
    min (prev + ls.length * (part 7500000000000 prev)) maxMult ≤ run prev ls := by
  have key : ∀ (c : Nat) (q : Nat) (ls : List Load), c ≤ q → q ≤ maxMult → minMult ≤ c →
      (∀ l ∈ ls, maxRef ≤ l.refTime) → min (q + ls.length * (part 7500000000000 c)) maxMult ≤ run q ls := by
    intro c q ls
    induction ls generalizing q with
    | nil => intro _ _ _ _; rw [run_nil, List.length_nil, Nat.zero_mul]; exact Nat.min_le_left _ _
    | cons l ls ih =>
      intro hcq hq hmc hf
      have hlf := hf l (by simp)
      have hlim : limiting l = (maxRef, maxRef) := by
        have h1 : share maxRef maxRef = 1000000000 := by decide +kernel
        have h2 : share (min l.proofSize maxProof) maxProof ≤ share maxProof maxProof := by
          unfold share
          exact Nat.div_le_div_right (Nat.mul_le_mul_right _ (Nat.min_le_right _ _))
        have h3 : share maxProof maxProof = 1000000000 := by decide +kernel
        unfold limiting
        rw [Nat.min_eq_right hlf, if_neg (by omega)]
      have he := convert_eq (Nat.le_trans hmc hcq) hq l
      have hr : 7500000000000 ≤ upRate l := by
        have h4 : first (diff maxRef maxRef) = 7500000000000 := by decide +kernel
        unfold upRate
        rw [hlim, h4]
        exact Nat.le_add_right _ _
      rw [hlim, if_pos (by rw [target_ref, maxRef_eq]; decide)] at he
      have hx : part 7500000000000 c ≤ part (upRate l) q := part_mono hr hcq
      have hb := convert_bounds q l
      have hcc : c ≤ convert q l := by rw [he]; exact Nat.le_min.2 ⟨by omega, by omega⟩
      have hi := ih (convert q l) hcc hb.2 hmc (fun x hx => hf x (by simp [hx]))
      rw [run_cons, List.length_cons, Nat.add_mul, Nat.one_mul]
      generalize run (convert q l) ls = z at *
      generalize convert q l = y at *
      generalize part 7500000000000 c = a at *
      generalize part (upRate l) q = b at *
      generalize ls.length * a = w at *
      clear hlim hr hf ih
      omega
  exact key prev prev ls (by omega) h' h hf

/-- **C120.** A congested chain becomes more expensive by more than 12 percent of the start value per day (the test
`min_change_per_day`, for every start value of at least one thousandth). -/
theorem C120_congested_day {prev : Nat} (h : one / 1000 ≤ prev) (h' : prev ≤ maxMult / 2) (ls : List Load)
    (hn : ls.length = 17280) (hf : ∀ l ∈ ls, maxRef ≤ l.refTime) : 112 * prev ≤ 100 * run prev ls := by
  have hm : minMult ≤ prev := Nat.le_trans (by decide) h
  have hc := C120_congested hm (by omega) ls hf
  rw [hn] at hc
  have hp : prev / 133334 ≤ part 7500000000000 prev := by
    exact part_lower (by decide)
  rw [maxMult_eq] at *
  rw [one_eq] at h
  generalize part 7500000000000 prev = x at *
  generalize run prev ls = z at *
  omega

/-- A block without normal extrinsics lowers the multiplier by at least a 500000th. -/
theorem convert_idle {prev : Nat} (h : minMult ≤ prev) (h' : prev ≤ maxMult) {l : Load} (hr : l.refTime = 0)
    (hp : l.proofSize = 0) : convert prev l ≤ max (prev - prev / 500000) minMult := by
  have hlim : limiting l = (0, maxRef) := by
    have h1 : share (min 0 maxRef) maxRef = 0 := by decide +kernel
    unfold limiting
    rw [hr, hp]
    have h2 : share (min 0 maxProof) maxProof = 0 := by decide +kernel
    rw [h1, h2, if_neg (Nat.lt_irrefl 0), Nat.zero_min]
  have he := convert_eq h h' l
  have hd : 2000000000000 ≤ downRate l := by
    unfold downRate
    rw [hlim]
    decide +kernel
  rw [hlim, if_neg (by rw [target_ref]; decide)] at he
  rw [he]
  have h1 : part 2000000000000 prev ≤ part (downRate l) prev := part_mono hd (Nat.le_refl _)
  have h2 : prev / 500000 ≤ part 2000000000000 prev := by
    exact part_lower (by decide)
  generalize part (downRate l) prev = x at *
  generalize part 2000000000000 prev = y at *
  clear he hd hlim
  omega

/-- The multiplier halves within 501000 idle blocks, down to the minimum. -/
theorem run_idle {h q : Nat} (hh : minMult ≤ h) (hq : minMult ≤ q) (hq' : q ≤ maxMult) (ls : List Load)
    (hz : ∀ l ∈ ls, l.refTime = 0 ∧ l.proofSize = 0) :
    run q ls ≤ max (q - ls.length * (h / 500000)) h := by
  induction ls generalizing q with
  | nil => rw [run_nil, List.length_nil, Nat.zero_mul, Nat.sub_zero]; exact Nat.le_max_left _ _
  | cons l ls ih =>
    have hb := convert_bounds q l
    have hc := convert_idle hq hq' (hz l (by simp)).1 (hz l (by simp)).2
    have hi := ih hb.1 hb.2 (fun x hx => hz x (by simp [hx]))
    rw [run_cons, List.length_cons, Nat.add_mul, Nat.one_mul]
    generalize run (convert q l) ls = z at *
    generalize convert q l = y at *
    have hdiv : h ≤ q → h / 500000 ≤ q / 500000 := fun hx => Nat.div_le_div_right hx
    generalize h / 500000 = a at *
    generalize q / 500000 = b at *
    generalize ls.length * a = w at *
    clear ih hz
    omega

theorem halve {x q z : Nat} (hk : q ≤ x * 2 * 1000000000)
    (hz : z ≤ max (q - 501000 * (x * 1000000000 / 500000)) (x * 1000000000)) : z ≤ x * 1000000000 := by
  omega

/-- **C120.** An idle chain becomes cheap again: from a multiplier of at most `2^k` times the minimum, after `k` times
501000 empty blocks the multiplier is at the minimum (from 1: thirty times 29 days). -/
theorem C120_idle (k : Nat) {q : Nat} (hq : minMult ≤ q) (hq' : q ≤ maxMult) (hk : q ≤ 2 ^ k * minMult)
    (ls : List Load) (hz : ∀ l ∈ ls, l.refTime = 0 ∧ l.proofSize = 0) (hn : ls.length = k * 501000) :
    run q ls = minMult := by
  induction k generalizing q ls with
  | zero =>
    have : ls = [] := by
      cases ls with
      | nil => rfl
      | cons _ _ => simp at hn
    subst this
    rw [run_nil]
    omega
  | succ k ih =>
    have hsplit : ls = ls.take 501000 ++ ls.drop 501000 := (List.take_append_drop _ _).symm
    have hl1 : (ls.take 501000).length = 501000 := by rw [List.length_take, hn]; omega
    have hl2 : (ls.drop 501000).length = k * 501000 := by rw [List.length_drop, hn]; omega
    have hz1 : ∀ l ∈ ls.take 501000, l.refTime = 0 ∧ l.proofSize = 0 := fun l h => hz l (List.mem_of_mem_take h)
    have hz2 : ∀ l ∈ ls.drop 501000, l.refTime = 0 ∧ l.proofSize = 0 := fun l h => hz l (List.mem_of_mem_drop h)
    have hrun : run q ls = run (run q (ls.take 501000)) (ls.drop 501000) := by
      conv_lhs => rw [hsplit]
      rw [run_append]
    rw [hrun]
    have hb := run_bounds hq hq' (ls.take 501000)
    have hp : minMult ≤ 2 ^ k * minMult := Nat.le_mul_of_pos_left _ (Nat.two_pow_pos k)
    have hi := run_idle (h := 2 ^ k * minMult) hp hq hq' _ hz1
    rw [hl1] at hi
    refine ih hb.1 hb.2 ?_ _ hz2 hl2
    rw [Nat.pow_succ, minMult_eq] at hk
    rw [minMult_eq] at hi ⊢
    exact halve hk hi

/-! ### Fees -/

theorem weightFee_mono {a b : Nat} (h : a ≤ b) : weightFee a ≤ weightFee b := by
  unfold weightFee; omega

/-- **C120.** A fee never becomes smaller with a higher multiplier, more weight, more bytes or a higher tip. -/
theorem C120_fee_mono {base m m' : Nat} {t t' : Tx} (hm : m ≤ m') (hw : t.refTime ≤ t'.refTime) (hl : t.len ≤ t'.len)
    (ht : t.tip ≤ t'.tip) (hp : t.pays = true → t'.pays = true) : fee base m t ≤ fee base m' t' := by
  unfold fee
  cases h : t.pays with
  | true =>
    rw [hp h]
    have h1 : byteFee * t.len ≤ byteFee * t'.len := Nat.mul_le_mul_left _ hl
    have h2 : part m (weightFee t.refTime) ≤ part m' (weightFee t'.refTime) :=
      part_mono hm (weightFee_mono hw)
    simp only [if_true]
    omega
  | false =>
    simp only [Bool.false_eq_true, if_false]
    split <;> omega

/-- **C120.** However low the multiplier is, an extrinsic costs its base fee and a millicent per byte; and the weight
costs something once it is a billion picoseconds (a millisecond). -/
theorem C120_fee_floor {base m : Nat} {t : Tx} (hm : minMult ≤ m) (hp : t.pays = true) :
    weightFee base + 10000000000000 * t.len + min t.refTime 2000000000000 / 1000000000 + t.tip ≤ fee base m t := by
  unfold fee
  rw [hp]
  simp only [if_true]
  have h2 : min t.refTime 2000000000000 / 1000000000 ≤ part m (weightFee t.refTime) := by
    refine le_part ?_
    have h4 : weightFee t.refTime = min t.refTime 2000000000000 := rfl
    rw [h4]
    generalize min t.refTime 2000000000000 = x
    rw [minMult_eq] at hm
    have h3 : 1000000000 * x ≤ m * x := Nat.mul_le_mul_right _ hm
    refine Nat.le_trans ?_ h3
    rw [one_eq]
    omega
  unfold byteFee
  omega

/-- **C120.** The signer is never charged more than the quoted fee, and never less than the tip and the fee of the weight
actually used; a call which waives its fee costs the tip only. -/
theorem C120_charge (base mult : Nat) (t : Tx) (actual : Option Nat) (paysAfter : Bool) :
    charged base mult t actual paysAfter ≤ fee base mult t ∧
      charged base mult t actual paysAfter =
        fee base mult { t with refTime := min (actual.getD t.refTime) t.refTime, pays := t.pays && paysAfter } ∧
      (paysAfter = false → charged base mult t actual paysAfter = t.tip) := by
  have hle : fee base mult { t with refTime := min (actual.getD t.refTime) t.refTime, pays := t.pays && paysAfter }
      ≤ fee base mult t := by
    refine C120_fee_mono (Nat.le_refl _) (Nat.min_le_right _ _) (Nat.le_refl _) (Nat.le_refl _) ?_
    intro hp
    cases ht : t.pays with
    | true => rfl
    | false => simp [ht] at hp
  have heq : charged base mult t actual paysAfter =
      fee base mult { t with refTime := min (actual.getD t.refTime) t.refTime, pays := t.pays && paysAfter } := by
    unfold charged
    simp only
    omega
  refine ⟨by rw [heq]; exact hle, heq, fun hp => ?_⟩
  rw [heq, hp]
  simp [fee]

/-! ### Examples -/

/-- A full block, a block at the target, an empty one, and one judged by its proof size. -/
def exLoads : List Load := [⟨1500000000000, 0⟩, ⟨375000000000, 5⟩, ⟨0, 0⟩, ⟨1, 10000000000000000000⟩]

example : run one exLoads = 1000009728061800437 := by decide +kernel
example : exLoads.map (fun l => (limiting l).2 == maxRef) = [true, true, true, false] := by decide +kernel

-- from the minimum, 1% above the target (the test `multiplier_can_grow_from_zero`) …
example : convert minMult ⟨378750000000, 0⟩ = 1000000025 := by decide +kernel
-- … while a block which is above it by less than a ten-thousandth of the limit does not move it
example : convert minMult ⟨375000000001, 0⟩ = minMult := by decide +kernel
example : Above ⟨378750000000, 0⟩ 5000 ∧ Below ⟨100000000000, 0⟩ 5000 := by
  unfold Above Below; decide +kernel
example : convert one ⟨100000000000, 0⟩ ≤ convert one ⟨200000000000, 0⟩ :=
  C120_mono_load (by decide) (by decide) (by decide +kernel) (by decide +kernel) (by decide)
example : 100 * run one exLoads ≤ 115 * one ∧ 95 * one ≤ 100 * run one exLoads :=
  C120_day (by decide) (by decide) _ (by decide)
example : run (8 * minMult) (List.replicate 1503000 ⟨0, 0⟩) = minMult :=
  C120_idle 3 (by decide) (by decide) (by decide) _
    (fun l h => by rw [List.mem_replicate] at h; rw [h.2]; exact ⟨rfl, rfl⟩) (List.length_replicate)
example : 112 * one ≤ 100 * run one (List.replicate 17280 ⟨1500000000000, 0⟩) :=
  C120_congested_day (by decide) (by decide) _ (List.length_replicate)
    (fun l h => by rw [List.mem_replicate] at h; rw [h.2, maxRef_eq])
example : fee 100 one ⟨5000, 10, 3, true⟩ = 100000000005103 := by decide
example : charged 100 one ⟨5000, 10, 3, true⟩ (some 2000) true = 100000000002103 := by decide
example : charged 100 one ⟨5000, 10, 3, true⟩ (some 9000) false = 3 := by decide

end Verif.FeeMultiplier
