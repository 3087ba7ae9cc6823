import Verif.Basic

/-
Model of the part of pallet-balances (polkadot-v1.1.0) that the pallets of this repository call
through the traits `Currency`, `ReservableCurrency` and `LockableCurrency`.

The source of pallet-balances is not part of /repo: this file is part of the trusted base.  The
functions below follow `frame/balances/src/lib.rs` (`try_mutate_account`) and
`frame/balances/src/impl_currency.rs` of polkadot-v1.1.0.  The runtime configures it at
runtime/src/lib.rs:487-510 (`DustRemoval = ()`, i.e. dust is burnt; `ExistentialDeposit` = `ed`).

Simplifications:
* amounts are unbounded naturals (no `u128` overflow);
* `frozen` is the largest lock of the account (all locks used here have all withdraw reasons);
* reference counts are summarised by `pinned` (the account holds a consumer reference from another
  pallet, or several providers keep it from dying);
* imbalances: dropping a `NegativeImbalance` lowers the issuance, dropping a `PositiveImbalance`
  raises it, so `issuance` is updated at once by the operation which created the imbalance.
-/

namespace Verif

/-- `AccountData` of pallet-balances (free and reserved part). -/
structure Acct where
  free : Balance
  reserved : Balance
deriving DecidableEq, Repr

/-- Balances of all accounts. -/
structure Bank where
  /-- `ExistentialDeposit` (runtime/src/lib.rs:487) -/
  ed : Balance
  /-- account store; an account is absent iff its balances are all zero -/
  accts : FMap AccId Acct
  /-- largest lock on the account -/
  frozen : AccId → Balance
  /-- other reasons for which the account cannot be reaped -/
  pinned : AccId → Bool
  /-- `TotalIssuance` -/
  issuance : Balance

inductive BankErr where
  | insufficientBalance
  | expendability
  | liquidityRestrictions
  | consumerRemaining
  | belowMinimum
  | deadAccount
deriving DecidableEq, Repr

namespace Bank

/-- `Account::get` (missing accounts read as zero). -/
def acct (b : Bank) (a : AccId) : Acct := (b.accts.get a).getD ⟨0, 0⟩

/-- `Currency::free_balance`. -/
def free (b : Bank) (a : AccId) : Balance := (b.acct a).free

/-- `ReservableCurrency::reserved_balance`. -/
def reserved (b : Bank) (a : AccId) : Balance := (b.acct a).reserved

/-- `Currency::total_balance`. -/
def total (b : Bank) (a : AccId) : Balance := b.free a + b.reserved a

/-- Sum of the balances of all accounts. -/
def sumAll (b : Bank) : Balance := b.accts.sum (fun _ x => x.free + x.reserved)

/-- An account may be reaped: `can_dec_provider`. -/
def canDie (b : Bank) (a : AccId) : Bool :=
  !b.pinned a && decide (b.reserved a = 0) && decide (b.frozen a = 0)

/-- `try_mutate_account_handling_dust`, storing part: an account with free balance below the
existential deposit and nothing reserved is removed and its dust burnt. -/
def put (b : Bank) (a : AccId) (x : Acct) : Bank :=
  if x.free < b.ed ∧ x.reserved = 0 then
    { b with accts := b.accts.erase a, issuance := b.issuance - x.free }
  else
    { b with accts := b.accts.insert a x }

/-- `Currency::withdraw` (impl_currency.rs). `keepAlive` is `ExistenceRequirement::KeepAlive`. -/
def withdraw (b : Bank) (a : AccId) (v : Balance) (keepAlive : Bool) : Except BankErr Bank :=
  if v = 0 then .ok b
  else if b.free a < v then .error .insufficientBalance
  else if keepAlive ∧ b.free a - v < b.ed ∧ b.ed ≤ b.free a then .error .expendability
  else if b.free a - v < b.frozen a then .error .liquidityRestrictions
  else if b.free a - v < b.ed ∧ b.ed ≤ b.free a ∧ ¬ b.canDie a then .error .consumerRemaining
  else
    .ok ({ b with issuance := b.issuance - v }.put a ⟨b.free a - v, b.reserved a⟩)

/-- `Currency::deposit_creating`: a new account is created only with at least the existential
deposit, otherwise nothing is minted. -/
def depositCreating (b : Bank) (a : AccId) (v : Balance) : Bank :=
  if v = 0 then b
  else if b.accts.contains a = false ∧ v < b.ed then b
  else { b with issuance := b.issuance + v }.put a ⟨b.free a + v, b.reserved a⟩

/-- `Currency::deposit_into_existing`. -/
def depositExisting (b : Bank) (a : AccId) (v : Balance) : Except BankErr Bank :=
  if v = 0 then .ok b
  else if b.accts.contains a = false then .error .deadAccount
  else .ok ({ b with issuance := b.issuance + v }.put a ⟨b.free a + v, b.reserved a⟩)

/-- `Currency::transfer` (`fungible::Mutate::transfer`). -/
def transfer (b : Bank) (src dst : AccId) (v : Balance) (keepAlive : Bool) : Except BankErr Bank :=
  if v = 0 ∨ src = dst then .ok b
  else if b.free src < v then .error .insufficientBalance
  else if b.free src - v < b.frozen src - b.reserved src then .error .liquidityRestrictions
  else if keepAlive ∧ b.free src - v < b.ed then .error .expendability
  else if b.free src - v < b.ed ∧ ¬ b.canDie src then .error .consumerRemaining
  else if b.free dst + v < b.ed then .error .belowMinimum
  else
    let b1 := b.put src ⟨b.free src - v, b.reserved src⟩
    .ok (b1.put dst ⟨b1.free dst + v, b1.reserved dst⟩)

/-- `ReservableCurrency::reserve`. -/
def reserve (b : Bank) (a : AccId) (v : Balance) : Except BankErr Bank :=
  if v = 0 then .ok b
  else if b.free a < v then .error .insufficientBalance
  else if b.free a - v < b.frozen a then .error .liquidityRestrictions
  else if b.free a - v < b.ed ∧ b.ed ≤ b.free a then .error .consumerRemaining
  else .ok (b.put a ⟨b.free a - v, b.reserved a + v⟩)

/-- `ReservableCurrency::unreserve`: moves at most the reserved balance. -/
def unreserve (b : Bank) (a : AccId) (v : Balance) : Bank :=
  if v = 0 ∨ b.total a = 0 then b
  else b.put a ⟨b.free a + min v (b.reserved a), b.reserved a - min v (b.reserved a)⟩

/-- `ReservableCurrency::slash_reserved`, returns the amount taken. -/
def slashReserved (b : Bank) (a : AccId) (v : Balance) : Bank × Balance :=
  if v = 0 ∨ b.total a = 0 then (b, 0)
  else
    let t := min v (b.reserved a)
    ({ b with issuance := b.issuance - t }.put a ⟨b.free a, b.reserved a - t⟩, t)

/-- `Currency::slash` on the free balance, returns the amount taken. -/
def slash (b : Bank) (a : AccId) (v : Balance) : Bank × Balance :=
  if v = 0 ∨ b.total a = 0 then (b, 0)
  else
    let t := if b.canDie a then min v (b.free a) else min v (b.free a - b.ed)
    ({ b with issuance := b.issuance - t }.put a ⟨b.free a - t, b.reserved a⟩, t)

/-- Book-keeping invariant of pallet-balances: the issuance is the sum of all balances, and no
account holds only dust. -/
structure Inv (b : Bank) : Prop where
  edPos : 0 < b.ed
  issuance : b.issuance = b.sumAll
  noDust : ∀ a x, b.accts.get a = some x → ¬ (x.free < b.ed ∧ x.reserved = 0)

theorem acct_of_get {b : Bank} {a : AccId} {x : Acct} (h : b.accts.get a = some x) :
    b.acct a = x := by simp [acct, h]

theorem acct_of_none {b : Bank} {a : AccId} (h : b.accts.get a = none) :
    b.acct a = ⟨0, 0⟩ := by simp [acct, h]

theorem at?_total (b : Bank) (a : AccId) :
    b.accts.at? (fun _ x => x.free + x.reserved) a = b.free a + b.reserved a := by
  unfold free reserved acct FMap.at?
  cases b.accts.get a <;> rfl

/-- Effect of `put` on the account itself. -/
theorem acct_put_self (b : Bank) (a : AccId) (x : Acct) :
    (b.put a x).acct a = if x.free < b.ed ∧ x.reserved = 0 then ⟨0, 0⟩ else x := by
  unfold put
  split <;> simp [acct]

theorem acct_put_ne (b : Bank) {a a' : AccId} (x : Acct) (h : a' ≠ a) :
    (b.put a x).acct a' = b.acct a' := by
  unfold put
  split <;> simp [acct, FMap.get_insert, FMap.get_erase, h]

theorem free_put_ne (b : Bank) {a a' : AccId} (x : Acct) (h : a' ≠ a) :
    (b.put a x).free a' = b.free a' := by simp [free, acct_put_ne b x h]

theorem reserved_put_ne (b : Bank) {a a' : AccId} (x : Acct) (h : a' ≠ a) :
    (b.put a x).reserved a' = b.reserved a' := by simp [reserved, acct_put_ne b x h]

@[simp] theorem put_ed (b : Bank) (a : AccId) (x : Acct) : (b.put a x).ed = b.ed := by
  unfold put; split <;> rfl
@[simp] theorem put_frozen (b : Bank) (a : AccId) (x : Acct) : (b.put a x).frozen = b.frozen := by
  unfold put; split <;> rfl
@[simp] theorem put_pinned (b : Bank) (a : AccId) (x : Acct) : (b.put a x).pinned = b.pinned := by
  unfold put; split <;> rfl

theorem sumAll_put (b : Bank) (a : AccId) (x : Acct) :
    (b.put a x).sumAll + b.total a =
      b.sumAll + (if x.free < b.ed ∧ x.reserved = 0 then 0 else x.free + x.reserved) := by
  have ht := at?_total b a
  unfold put
  split
  · have := FMap.sum_erase b.accts a (fun _ x => x.free + x.reserved)
    simp only [sumAll, total]
    omega
  · have := FMap.sum_insert b.accts a x (fun _ x => x.free + x.reserved)
    simp only [sumAll, total]
    omega

theorem total_le_sumAll (b : Bank) (a : AccId) : b.total a ≤ b.sumAll := by
  have := FMap.at?_le_sum b.accts a (fun _ x => x.free + x.reserved)
  rw [at?_total] at this
  exact this

/-- Two distinct accounts together. -/
theorem total_add_le_sumAll (b : Bank) {a a' : AccId} (h : a ≠ a') :
    b.total a + b.total a' ≤ b.sumAll := by
  have h1 := FMap.sum_erase b.accts a (fun _ x => x.free + x.reserved)
  have h2 := FMap.at?_le_sum (b.accts.erase a) a' (fun _ x => x.free + x.reserved)
  have h3 : (b.accts.erase a).at? (fun _ x => x.free + x.reserved) a'
      = b.free a' + b.reserved a' := by
    rw [← at?_total b a']
    unfold FMap.at?
    rw [FMap.get_erase_ne _ (Ne.symm h)]
  rw [at?_total] at h1
  simp only [sumAll, total] at *
  omega

/-- Issuance and sum of balances differ by `d` tokens "in flight"; no dust accounts. -/
structure InFlight (b : Bank) (d : Nat) : Prop where
  edPos : 0 < b.ed
  issuance : b.issuance = b.sumAll + d
  noDust : ∀ a x, b.accts.get a = some x → ¬ (x.free < b.ed ∧ x.reserved = 0)

theorem Inv.inFlight {b : Bank} (h : b.Inv) : b.InFlight 0 :=
  ⟨h.edPos, by simpa using h.issuance, h.noDust⟩

theorem InFlight.inv {b : Bank} (h : b.InFlight 0) : b.Inv :=
  ⟨h.edPos, by simpa using h.issuance, h.noDust⟩

theorem put_inFlight {b : Bank} {d d' : Nat} (h : b.InFlight d) (a : AccId) (x : Acct)
    (hx : x.free + x.reserved + d' = b.total a + d) : (b.put a x).InFlight d' := by
  have hs := sumAll_put b a x
  have hle := total_le_sumAll b a
  have hi := h.issuance
  refine ⟨by simpa using h.edPos, ?_, ?_⟩
  · by_cases hd : x.free < b.ed ∧ x.reserved = 0
    · have e : (b.put a x).issuance = b.issuance - x.free := by simp [put, hd]
      rw [if_pos hd] at hs
      rw [e]; omega
    · have e : (b.put a x).issuance = b.issuance := by simp only [put]; rw [if_neg hd]
      rw [if_neg hd] at hs
      rw [e]; omega
  · intro a' y hy
    simp only [put_ed]
    unfold put at hy
    by_cases hd : x.free < b.ed ∧ x.reserved = 0
    · rw [if_pos hd] at hy
      simp only [FMap.get_erase] at hy
      by_cases ha : a' = a
      · simp [ha] at hy
      · simp [ha] at hy; exact h.noDust a' y hy
    · rw [if_neg hd] at hy
      simp only [FMap.get_insert] at hy
      by_cases ha : a' = a
      · simp [ha] at hy; subst hy; exact hd
      · simp [ha] at hy; exact h.noDust a' y hy

/-- A raw state change of one account that adds `up` to and takes `down` from the issuance keeps
the invariant provided the account total changes by the same amounts. -/
theorem put_inv {b : Bank} (h : b.Inv) (a : AccId) (x : Acct) (up down : Nat)
    (hx : x.free + x.reserved + down = b.total a + up) :
    ({ b with issuance := b.issuance + up - down }.put a x).Inv := by
  have hle := total_le_sumAll b a
  have hi := h.issuance
  have hsum : ({ b with issuance := b.issuance + up - down } : Bank).sumAll = b.sumAll := rfl
  have htot : ({ b with issuance := b.issuance + up - down } : Bank).total a = b.total a := rfl
  by_cases hud : down ≤ up
  · have h0 : ({ b with issuance := b.issuance + up - down } : Bank).InFlight (up - down) :=
      ⟨h.edPos, by rw [hsum]; simp only; omega, h.noDust⟩
    exact (put_inFlight h0 a x (d' := 0) (by rw [htot]; omega)).inv
  · -- the account loses tokens: `put` first, then compare
    have hs := sumAll_put { b with issuance := b.issuance + up - down } a x
    rw [hsum, htot] at hs
    have hd' := (put_inFlight h.inFlight a x (d' := down - up) (by omega))
    refine ⟨by simpa using h.edPos, ?_, ?_⟩
    · by_cases hd : x.free < b.ed ∧ x.reserved = 0
      · have e : ({ b with issuance := b.issuance + up - down }.put a x).issuance
            = b.issuance + up - down - x.free := by simp [put, hd]
        rw [if_pos hd] at hs
        rw [e]; omega
      · have e : ({ b with issuance := b.issuance + up - down }.put a x).issuance
            = b.issuance + up - down := by simp only [put]; rw [if_neg hd]
        rw [if_neg hd] at hs
        rw [e]; omega
    · have e : ({ b with issuance := b.issuance + up - down }.put a x).accts
          = (b.put a x).accts := by simp only [put]; split <;> rfl
      intro a' y hy
      rw [e] at hy
      have := hd'.noDust a' y hy
      simpa using this

/-! ### Preservation of the invariant -/

theorem withdraw_inv {b b' : Bank} {a : AccId} {v : Balance} {k : Bool} (h : b.Inv)
    (hw : b.withdraw a v k = .ok b') : b'.Inv := by
  unfold withdraw at hw
  split at hw
  · cases hw; exact h
  repeat (split at hw; · cases hw)
  cases hw
  have := put_inv h a ⟨b.free a - v, b.reserved a⟩ 0 v (by simp only [total]; omega)
  simpa using this

theorem depositCreating_inv {b : Bank} (h : b.Inv) (a : AccId) (v : Balance) :
    (b.depositCreating a v).Inv := by
  unfold depositCreating
  split
  · exact h
  split
  · exact h
  have := put_inv h a ⟨b.free a + v, b.reserved a⟩ v 0 (by simp only [total]; omega)
  simpa using this

theorem depositExisting_inv {b b' : Bank} {a : AccId} {v : Balance} (h : b.Inv)
    (hd : b.depositExisting a v = .ok b') : b'.Inv := by
  unfold depositExisting at hd
  split at hd
  · cases hd; exact h
  split at hd
  · cases hd
  cases hd
  have := put_inv h a ⟨b.free a + v, b.reserved a⟩ v 0 (by simp only [total]; omega)
  simpa using this

theorem reserve_inv {b b' : Bank} {a : AccId} {v : Balance} (h : b.Inv)
    (hw : b.reserve a v = .ok b') : b'.Inv := by
  unfold reserve at hw
  split at hw
  · cases hw; exact h
  repeat (split at hw; · cases hw)
  cases hw
  have := put_inv h a ⟨b.free a - v, b.reserved a + v⟩ 0 0 (by simp only [total]; omega)
  simpa using this

theorem unreserve_inv {b : Bank} (h : b.Inv) (a : AccId) (v : Balance) : (b.unreserve a v).Inv := by
  unfold unreserve
  split
  · exact h
  have := put_inv h a ⟨b.free a + min v (b.reserved a), b.reserved a - min v (b.reserved a)⟩ 0 0
    (by simp only [total]; omega)
  simpa using this

theorem slashReserved_inv {b : Bank} (h : b.Inv) (a : AccId) (v : Balance) :
    (b.slashReserved a v).1.Inv := by
  unfold slashReserved
  split
  · exact h
  have := put_inv h a ⟨b.free a, b.reserved a - min v (b.reserved a)⟩ 0 (min v (b.reserved a))
    (by simp only [total]; omega)
  simpa using this

theorem slash_inv {b : Bank} (h : b.Inv) (a : AccId) (v : Balance) : (b.slash a v).1.Inv := by
  unfold slash
  split
  · exact h
  generalize ht : (if b.canDie a then min v (b.free a) else min v (b.free a - b.ed)) = t
  have hle : t ≤ b.free a := by
    rw [← ht]; split <;> omega
  have := put_inv h a ⟨b.free a - t, b.reserved a⟩ 0 t (by simp only [total]; omega)
  simpa using this

theorem transfer_inv {b b' : Bank} {s d : AccId} {v : Balance} {k : Bool} (h : b.Inv)
    (hw : b.transfer s d v k = .ok b') : b'.Inv := by
  unfold transfer at hw
  split at hw
  · cases hw; exact h
  repeat (split at hw; · cases hw)
  cases hw
  have h1 := put_inFlight h.inFlight s ⟨b.free s - v, b.reserved s⟩ (d' := v)
    (by simp only [total]; omega)
  exact (put_inFlight h1 d _ (d' := 0) (by simp only [total]; omega)).inv

/-! ### Exact effects -/

theorem contains_iff_get (b : Bank) (a : AccId) :
    b.accts.contains a = true ↔ ∃ x, b.accts.get a = some x := FMap.contains_iff _ _

/-- Under the invariant an existing account is not dust. -/
theorem Inv.alive {b : Bank} (h : b.Inv) {a : AccId} (hc : b.accts.contains a = true) :
    b.ed ≤ b.free a ∨ 0 < b.reserved a := by
  obtain ⟨x, hx⟩ := (contains_iff_get b a).1 hc
  have := h.noDust a x hx
  simp only [free, reserved, acct_of_get hx]
  omega

theorem contains_put_ne (b : Bank) {a a' : AccId} (x : Acct) (h : a' ≠ a) :
    (b.put a x).accts.contains a' = b.accts.contains a' := by
  unfold put
  split <;> simp [FMap.contains, FMap.get_insert, FMap.get_erase, h]

theorem contains_put_self (b : Bank) (a : AccId) (x : Acct) :
    (b.put a x).accts.contains a = !decide (x.free < b.ed ∧ x.reserved = 0) := by
  unfold put
  split
  · rename_i h; simp [FMap.contains, h]
  · rename_i h; simp only [FMap.contains, FMap.get_insert_self, Option.isSome_some]
    simp [h]

theorem not_contains_zero {b : Bank} {a : AccId} (h : b.accts.contains a = false) :
    b.free a = 0 ∧ b.reserved a = 0 := by
  have : b.accts.get a = none := by
    simpa [FMap.contains] using h
  simp [free, reserved, acct_of_none this]

/-- A successful keep-alive withdrawal takes exactly `v` from the free balance of `a` and changes
nothing else. -/
theorem withdraw_keep {b b' : Bank} {a : AccId} {v : Balance} (h : b.Inv)
    (hw : b.withdraw a v true = .ok b') :
    b'.sumAll + v = b.sumAll ∧ v ≤ b.free a ∧ b'.free a = b.free a - v ∧
      b'.reserved a = b.reserved a ∧ (∀ a', a' ≠ a → b'.acct a' = b.acct a') ∧
      (∀ a', b'.accts.contains a' = b.accts.contains a') ∧ b'.ed = b.ed ∧
      b'.frozen = b.frozen := by
  unfold withdraw at hw
  split at hw
  · cases hw; simp_all
  rename_i hv
  split at hw
  · cases hw
  rename_i hf
  split at hw
  · cases hw
  rename_i hk
  split at hw
  · cases hw
  split at hw
  · cases hw
  cases hw
  have hcont : b.accts.contains a = true := by
    cases hc : b.accts.contains a with
    | true => rfl
    | false => have := not_contains_zero hc; omega
  have hal := h.alive hcont
  have hnd : ¬ (b.free a - v < b.ed ∧ b.reserved a = 0) := by
    simp only [true_and, not_and, Nat.not_le] at hk
    omega
  have hs := sumAll_put { b with issuance := b.issuance - v } a ⟨b.free a - v, b.reserved a⟩
  rw [if_neg hnd] at hs
  have hsum : ({ b with issuance := b.issuance - v } : Bank).sumAll = b.sumAll := rfl
  have htot : ({ b with issuance := b.issuance - v } : Bank).total a = b.total a := rfl
  rw [hsum, htot] at hs
  have hle := total_le_sumAll b a
  have hacct := acct_put_self { b with issuance := b.issuance - v } a ⟨b.free a - v, b.reserved a⟩
  rw [if_neg hnd] at hacct
  refine ⟨?_, by omega, ?_, ?_, ?_, ?_, by simp, by simp⟩
  · simp only [total] at hs hle; omega
  · exact congrArg Acct.free hacct
  · have := congrArg Acct.reserved hacct; exact this
  · intro a' ha'; rw [acct_put_ne _ _ ha']; rfl
  · intro a'
    by_cases ha : a' = a
    · subst ha
      rw [contains_put_self, hcont]
      simp only [Bool.not_eq_eq_eq_not, Bool.not_true, decide_eq_false_iff_not]
      exact hnd
    · rw [contains_put_ne _ _ ha]

/-- `deposit_creating` on an existing account, or with at least the existential deposit, credits
exactly `v`. -/
theorem depositCreating_credit {b : Bank} {a : AccId} {v : Balance} (h : b.Inv)
    (hc : b.accts.contains a = true ∨ b.ed ≤ v) :
    (b.depositCreating a v).sumAll = b.sumAll + v ∧
      (b.depositCreating a v).free a = b.free a + v ∧
      (b.depositCreating a v).reserved a = b.reserved a ∧
      (b.depositCreating a v).accts.contains a = true := by
  unfold depositCreating
  have hed := h.edPos
  by_cases hv : v = 0
  · subst hv
    rcases hc with hc | hc
    · simp [hc]
    · omega
  rw [if_neg hv]
  have hne : ¬ (b.accts.contains a = false ∧ v < b.ed) := by
    rintro ⟨h1, h2⟩
    rcases hc with hc | hc
    · simp [h1] at hc
    · omega
  rw [if_neg hne]
  have hnd : ¬ (b.free a + v < b.ed ∧ b.reserved a = 0) := by
    rcases hc with hc | hc
    · have := h.alive hc; omega
    · omega
  have hs := sumAll_put { b with issuance := b.issuance + v } a ⟨b.free a + v, b.reserved a⟩
  rw [if_neg hnd] at hs
  have hsum : ({ b with issuance := b.issuance + v } : Bank).sumAll = b.sumAll := rfl
  have htot : ({ b with issuance := b.issuance + v } : Bank).total a = b.total a := rfl
  rw [hsum, htot] at hs
  have hacct := acct_put_self { b with issuance := b.issuance + v } a ⟨b.free a + v, b.reserved a⟩
  rw [if_neg hnd] at hacct
  refine ⟨?_, ?_, ?_, ?_⟩
  · simp only [total] at hs; omega
  · exact congrArg Acct.free hacct
  · have := congrArg Acct.reserved hacct; exact this
  · rw [contains_put_self]
    simp only [Bool.not_eq_eq_eq_not, Bool.not_true, decide_eq_false_iff_not]
    exact hnd

/-- `deposit_creating` with less than the existential deposit on a missing account does nothing. -/
theorem depositCreating_noop {b : Bank} {a : AccId} {v : Balance}
    (hc : b.accts.contains a = false) (hv : v < b.ed) : b.depositCreating a v = b := by
  unfold depositCreating
  split
  · rfl
  · simp [hc, hv]

theorem depositCreating_ne {b : Bank} {a a' : AccId} (v : Balance) (h : a' ≠ a) :
    (b.depositCreating a v).acct a' = b.acct a' ∧
      (b.depositCreating a v).accts.contains a' = b.accts.contains a' := by
  unfold depositCreating
  split
  · simp
  split
  · simp
  exact ⟨by rw [acct_put_ne _ _ h]; rfl, by rw [contains_put_ne _ _ h]⟩

@[simp] theorem depositCreating_ed (b : Bank) (a : AccId) (v : Balance) :
    (b.depositCreating a v).ed = b.ed := by
  unfold depositCreating
  split
  · rfl
  split <;> simp

@[simp] theorem depositCreating_frozen (b : Bank) (a : AccId) (v : Balance) :
    (b.depositCreating a v).frozen = b.frozen := by
  unfold depositCreating
  split
  · rfl
  split <;> simp

/-- `deposit_creating` never destroys money and never creates more than `v`. -/
theorem depositCreating_le {b : Bank} (h : b.Inv) (a : AccId) (v : Balance) :
    b.sumAll ≤ (b.depositCreating a v).sumAll ∧ (b.depositCreating a v).sumAll ≤ b.sumAll + v := by
  by_cases hc : b.accts.contains a = true ∨ b.ed ≤ v
  · have := (depositCreating_credit h hc).1; omega
  · simp only [not_or, Bool.not_eq_true, Nat.not_le] at hc
    rw [depositCreating_noop hc.1 hc.2]; omega

theorem depositCreating_mono {b : Bank} (h : b.Inv) (a : AccId) (v : Balance) {a' : AccId}
    (hc : b.accts.contains a' = true) : (b.depositCreating a v).accts.contains a' = true := by
  by_cases ha : a' = a
  · subst ha; exact (depositCreating_credit h (Or.inl hc)).2.2.2
  · rw [(depositCreating_ne v ha).2]; exact hc

end Bank
end Verif
