import Verif.Basic

/-
Model of one asset of pallet-assets (polkadot-v1.1.0) as used through the traits `fungibles::Mutate`.

The source of pallet-assets is not part of /repo: this file is part of the trusted base. The runtime
configures it at runtime/src/lib.rs:1189-1210. The asset used here is created as self-sufficient
(pallets/adsc/src/lib.rs:236-241), so creating an account needs no other reference.

Simplifications: approvals, extra data and events are left out; `frozen` summarises the reasons for
which an account cannot send; where the dust goes that is left when an account falls below the
minimum balance by a transfer (to the receiver or nowhere) is a parameter of the model, `dustTo`.
-/

namespace Verif

structure Asset where
  /-- the asset exists and is live -/
  live : Bool
  minBal : Balance
  supply : Balance
  accts : FMap AccId Balance
  frozen : AccId → Bool
  dustTo : Bool

inductive AssetErr where
  | notLive | frozen | balanceLow | belowMinimum | overflow
deriving DecidableEq, Repr

namespace Asset

/-- `fungibles::Inspect::balance`. -/
def bal (x : Asset) (a : AccId) : Balance := (x.accts.get a).getD 0

/-- Balance left below the minimum after taking `v` from `a`. -/
def dust (x : Asset) (a : AccId) (v : Balance) : Balance :=
  if x.bal a - v < x.minBal then x.bal a - v else 0

/-- Take `v` and the dust. -/
def debit (x : Asset) (a : AccId) (v : Balance) : FMap AccId Balance :=
  if x.bal a - v < x.minBal then x.accts.erase a else x.accts.insert a (x.bal a - v)

/-- `fungibles::Mutate::transfer` with `Preservation::Expendable`. -/
def transfer (x : Asset) (src dst : AccId) (v : Balance) : Except AssetErr Asset :=
  if v = 0 then .ok x
  else if !x.live then .error .notLive
  else if x.frozen src then .error .frozen
  else if x.bal src < v then .error .balanceLow
  else if x.accts.contains dst = false ∧ v < x.minBal then .error .belowMinimum
  else if src = dst then .ok x
  else
    let d := if x.dustTo then x.dust src v else 0
    .ok { x with accts := (x.debit src v).insert dst (x.bal dst + v + d) }

/-- `fungibles::Mutate::mint_into`. -/
def mint (x : Asset) (a : AccId) (v : Balance) : Except AssetErr Asset :=
  if v = 0 then .ok x
  else if !x.live then .error .notLive
  else if x.accts.contains a = false ∧ v < x.minBal then .error .belowMinimum
  else if 2 ^ 128 ≤ x.supply + v then .error .overflow
  else .ok { x with accts := x.accts.insert a (x.bal a + v), supply := x.supply + v }

/-- `fungibles::Mutate::burn_from` with `Precision::Exact`, `Fortitude::Polite`; the dust is burnt
with it. -/
def burn (x : Asset) (a : AccId) (v : Balance) : Except AssetErr Asset :=
  if v = 0 then .ok x
  else if !x.live then .error .notLive
  else if x.frozen a then .error .frozen
  else if x.bal a < v then .error .balanceLow
  else .ok { x with accts := x.debit a v, supply := x.supply - (v + x.dust a v) }

theorem bal_debit (x : Asset) (a : AccId) (v : Balance) (b : AccId) :
    ((x.debit a v).get b).getD 0 = if b = a then x.bal a - v - x.dust a v else x.bal b := by
  unfold debit dust
  split
  · rw [FMap.get_erase]
    by_cases h : b = a
    · simp [h]
    · simp [h, bal]
  · by_cases h : b = a
    · subst h; simp
    · simp [h, FMap.get_insert_ne, bal]

/-- Effect of a transfer between two accounts. -/
theorem transfer_exact {x x' : Asset} {src dst : AccId} {v : Balance} (h : x.transfer src dst v = .ok x')
    (hne : src ≠ dst) :
    v ≤ x.bal src ∧ (v = 0 → x' = x) ∧
    (0 < v → x'.bal src + v + x.dust src v = x.bal src ∧
      x'.bal dst = x.bal dst + v + (if x.dustTo then x.dust src v else 0)) ∧
    (∀ y, y ≠ src → y ≠ dst → x'.bal y = x.bal y) ∧ x'.supply = x.supply := by
  unfold transfer at h
  split at h
  · rename_i h0
    cases h
    subst h0
    exact ⟨Nat.zero_le _, fun _ => rfl, fun h => absurd h (Nat.lt_irrefl 0), fun _ _ _ => rfl, rfl⟩
  rename_i h0
  split at h
  · cases h
  split at h
  · cases h
  split at h
  · cases h
  rename_i hb
  split at h
  · cases h
  cases h
  refine ⟨by omega, fun h => absurd h h0, fun _ => ⟨?_, ?_⟩, ?_, rfl⟩
  · simp only [bal, FMap.get_insert_ne _ _ hne]
    have h1 := bal_debit x src v src
    rw [if_pos rfl] at h1
    rw [h1]
    have : x.dust src v ≤ x.bal src - v := by unfold dust; split <;> omega
    simp only [bal] at *
    omega
  · simp [bal]
  · intro y h1 h2
    simp only [bal, FMap.get_insert_ne _ _ h2]
    have := bal_debit x src v y
    rw [if_neg h1] at this
    exact this

/-- A transfer to oneself changes nothing. -/
theorem transfer_self {x x' : Asset} {a : AccId} {v : Balance} (h : x.transfer a a v = .ok x') : x' = x := by
  unfold transfer at h
  split at h
  · cases h; rfl
  split at h
  · cases h
  split at h
  · cases h
  split at h
  · cases h
  split at h
  · cases h
  rw [if_pos rfl] at h
  cases h; rfl

/-- Effect of minting. -/
theorem mint_exact {x x' : Asset} {a : AccId} {v : Balance} (h : x.mint a v = .ok x') :
    x'.bal a = x.bal a + v ∧ (∀ y, y ≠ a → x'.bal y = x.bal y) ∧ x'.supply = x.supply + v := by
  unfold mint at h
  split at h
  · rename_i h0
    cases h; subst h0
    exact ⟨rfl, fun _ _ => rfl, rfl⟩
  split at h
  · cases h
  split at h
  · cases h
  split at h
  · cases h
  cases h
  refine ⟨by simp [bal], ?_, rfl⟩
  intro y hy
  simp [bal, FMap.get_insert_ne _ _ hy]

/-- Effect of burning. -/
theorem burn_exact {x x' : Asset} {a : AccId} {v : Balance} (h : x.burn a v = .ok x') :
    v ≤ x.bal a ∧ (v = 0 → x' = x) ∧ (0 < v → x'.bal a + v + x.dust a v = x.bal a) ∧
    (∀ y, y ≠ a → x'.bal y = x.bal y) ∧ (0 < v → x'.supply = x.supply - (v + x.dust a v)) := by
  unfold burn at h
  split at h
  · rename_i h0
    cases h; subst h0
    exact ⟨Nat.zero_le _, fun _ => rfl, fun h => absurd h (Nat.lt_irrefl 0), fun _ _ => rfl,
      fun h => absurd h (Nat.lt_irrefl 0)⟩
  rename_i h0
  split at h
  · cases h
  split at h
  · cases h
  split at h
  · cases h
  cases h
  refine ⟨by omega, fun h => absurd h h0, fun _ => ?_, ?_, fun _ => rfl⟩
  · have h1 := bal_debit x a v a
    rw [if_pos rfl] at h1
    have : x.dust a v ≤ x.bal a - v := by unfold dust; split <;> omega
    simp only [bal] at *
    omega
  · intro y hy
    have := bal_debit x a v y
    rw [if_neg hy] at this
    exact this

end Asset
end Verif
