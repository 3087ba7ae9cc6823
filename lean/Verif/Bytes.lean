import Verif.Basic

/-
Fixed-width byte encodings used when the chain hashes and signs messages
(`to_be_bytes`, SCALE encoding of integers and of `AccountId32`).  Bytes are naturals below 256.
-/

namespace Verif

/-- Little-endian encoding on `n` bytes (SCALE encoding of `u8..u128`); higher bytes are cut off. -/
def toLE : Nat → Nat → List Nat
  | 0, _ => []
  | n + 1, x => (x % 256) :: toLE n (x / 256)

/-- Big-endian encoding on `n` bytes (`to_be_bytes`, byte string of an `AccountId32`). -/
def toBE (n x : Nat) : List Nat := (toLE n x).reverse

/-- Value of a little-endian byte list. -/
def ofLE : List Nat → Nat
  | [] => 0
  | b :: t => b + 256 * ofLE t

/-- Value of a big-endian byte list. -/
def ofBE (l : List Nat) : Nat := ofLE l.reverse

@[simp] theorem toLE_length (n x : Nat) : (toLE n x).length = n := by
  induction n generalizing x with
  | zero => rfl
  | succ n ih => simp [toLE, ih]

@[simp] theorem toBE_length (n x : Nat) : (toBE n x).length = n := by simp [toBE]

theorem ofLE_toLE (n x : Nat) (h : x < 256 ^ n) : ofLE (toLE n x) = x := by
  induction n generalizing x with
  | zero => simp at h; simp [toLE, ofLE, h]
  | succ n ih =>
    simp only [toLE, ofLE]
    rw [ih (x / 256) (by rw [Nat.pow_succ] at h; omega)]
    omega

theorem ofBE_toBE (n x : Nat) (h : x < 256 ^ n) : ofBE (toBE n x) = x := by
  simp [ofBE, toBE, ofLE_toLE n x h]

theorem toLE_inj {n x y : Nat} (hx : x < 256 ^ n) (hy : y < 256 ^ n) (h : toLE n x = toLE n y) :
    x = y := by
  rw [← ofLE_toLE n x hx, ← ofLE_toLE n y hy, h]

theorem toBE_inj {n x y : Nat} (hx : x < 256 ^ n) (hy : y < 256 ^ n) (h : toBE n x = toBE n y) :
    x = y := by
  rw [← ofBE_toBE n x hx, ← ofBE_toBE n y hy, h]

end Verif
