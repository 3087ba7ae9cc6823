import Verif.RewardsProofs

/-
C46 (what is minted comes out of the mining pool) and C49 (the NPoW mint call).
-/

namespace Verif.Delegation

open Verif

/-! ### C46 -/

/-- What a call adds to the pool. -/
def Op.added : Op → Balance
  | .increasePool true v => v
  | _ => 0

/-- The calls of this part: everything but bonding calls and changes of balances elsewhere. -/
def Op.fromPool : Op → Bool
  | .ledger _ => false
  | _ => true

/-- Pool and issuance in one step, for states in which reward points add up and lists of elected validators have
no duplicates. -/
theorem pool_step (cfg : Cfg) {s : State} (op : Op) (h : PInv s) (hop : op.fromPool = true) :
    (issued (step cfg s op).1 + poolOf cfg (step cfg s op).1 ≤ issued s + poolOf cfg s + op.added ∧
      poolOf cfg (step cfg s op).1 ≤ poolOf cfg s + op.added) ∨
    ∃ e, op = .endEra e ∧ poolOf cfg (step cfg s op).1 = 0 ∧
      2 * issued (step cfg s op).1 ≤ 2 * (issued s + poolOf cfg s) + ((s.erasValidators.get e).getD []).length := by
  have same : ∀ t : State, money t = money s → issued t + poolOf cfg t ≤ issued s + poolOf cfg s + op.added ∧
      poolOf cfg t ≤ poolOf cfg s + op.added := by
    intro t e
    simp only [money, Prod.mk.injEq] at e
    unfold issued poolOf
    rw [e.1, e.2]; omega
  unfold step
  split
  case h_2 => exact .inl (same s rfl)
  case h_1 r hb =>
    cases op with
    | delegate d vs p =>
      obtain ⟨t, hd, rfl⟩ := map_ok hb
      exact .inl (same t (money_doDelegate (doDelegate_pass (delegate_do hd))))
    | delegateAny d o p =>
      obtain ⟨t, hd, rfl⟩ := map_ok hb
      unfold delegateAny at hd
      split at hd
      · cases hd
      · exact .inl (same t (money_doDelegate (doDelegate_pass hd)))
    | undelegate d =>
      obtain ⟨t, hd, rfl⟩ := map_ok hb
      unfold undelegate at hd
      split at hd
      · cases hd
      · cases hd; exact .inl (same _ (money_undelegateOf s d))
    | forceUndelegate r ds =>
      simp only [body] at hb
      split at hb
      · cases hb
      · cases hb; exact .inl (same _ (money_undelegates ds s))
    | forceUnstaking k d =>
      simp only [body] at hb
      split at hb
      · cases hb
      · cases hb; exact .inl (same _ (money_undelegateOf s d))
    | setReferer k a r =>
      obtain ⟨t, hd, rfl⟩ := map_ok hb
      unfold setReferer at hd
      split at hd; · cases hd
      split at hd; · cases hd
      cases hd; exact .inl (same _ rfl)
    | unsetReferer k a =>
      obtain ⟨t, hd, rfl⟩ := map_ok hb
      unfold unsetReferer at hd
      split at hd; · cases hd
      cases hd; exact .inl (same _ rfl)
    | blackList k a e =>
      simp only [body] at hb
      split at hb
      · cases hb
      · cases hb; exact .inl (same _ rfl)
    | npowMint k t v =>
      obtain ⟨u, hd, rfl⟩ := map_ok hb
      unfold npowMint at hd
      split at hd; · cases hd
      split at hd; · cases hd
      cases hd
      left
      have := depositCreating_issuance s.led.bank t v
      simp only [issued, poolOf, deposit, Option.getD_some] at *
      omega
    | compensate k l d r p =>
      obtain ⟨u, hd, rfl⟩ := map_ok hb
      unfold compensate at hd
      split at hd; · cases hd
      split at hd; · cases hd
      cases hd
      left
      have := depositCreating_issuance s.led.bank d (min (poolOf cfg s) (r + p))
      simp only [issued, poolOf, deposit, Option.getD_some] at *
      omega
    | increasePool r v =>
      obtain ⟨u, hd, rfl⟩ := map_ok hb
      unfold increasePool at hd
      split at hd; · cases hd
      rename_i hr
      have hr : r = true := by simpa using hr
      cases hd
      subst hr
      left
      simp only [issued, poolOf, Op.added, Option.getD_some]
      omega
    | configure e c m w d => cases hb; exact .inl (same _ rfl)
    | block r =>
      cases hb
      exact .inl ⟨Nat.le_trans (onBlock_issued cfg s r) (Nat.le_add_right _ _), Nat.le_trans (onBlock_pool cfg s r) (Nat.le_add_right _ _)⟩
    | endEra e =>
      cases hb
      rcases payValidators_issued cfg e h with h1 | h1
      · exact .inl ⟨Nat.le_trans h1 (Nat.le_add_right _ _), Nat.le_trans (payValidators_pool cfg s e) (Nat.le_add_right _ _)⟩
      · exact .inr ⟨e, rfl, h1⟩
    | newEra o => cases hb; exact .inl (same _ (money_newEra s o))
    | addPoints e v n => cases hb; exact .inl (same _ rfl)
    | ledger op => cases hop

theorem pinv_run (cfg : Cfg) {s : State} (h : PInv s) (ops : List Op) (hi : ∀ op ∈ ops, op.Iterates) : PInv (run cfg s ops).1 := by
  induction ops generalizing s with
  | nil => exact h
  | cons op ops ih => exact ih (pinv_step cfg h (hi op (by simp))) fun o ho => hi o (by simp [ho])

theorem pinv_genesis (bank : Bank) (m : Balance) : PInv (genesis bank m) := ⟨(fun _ _ h => nomatch h), (fun _ _ h => nomatch h)⟩

/-- C46, one step: after every history, what a call mints is taken out of the pool, except that the payout to
validators which empties the pool may mint half a unit more for each validator. (The full statement, without the
exception, is false: `C46_overshoot`.) -/
theorem C46_step_partial (cfg : Cfg) (bank : Bank) (m : Balance) (ops : List Op) (hi : ∀ op ∈ ops, op.Iterates) (op : Op)
    (hop : op.fromPool = true) :
    let s := (run cfg (genesis bank m) ops).1
    let s' := (step cfg s op).1
    (issued s' + poolOf cfg s' ≤ issued s + poolOf cfg s + op.added ∧ poolOf cfg s' ≤ poolOf cfg s + op.added) ∨
    ∃ e, op = .endEra e ∧ poolOf cfg s' = 0 ∧ 2 * issued s' ≤ 2 * (issued s + poolOf cfg s) + ((s.erasValidators.get e).getD []).length :=
  pool_step cfg op (pinv_run cfg (pinv_genesis bank m) ops hi) hop

/-- Sum over the steps of a history of what the calls of this part mint. -/
def mintedBy (cfg : Cfg) (s : State) : List Op → Balance
  | [] => 0
  | op :: ops => (if op.fromPool then issued (step cfg s op).1 - issued s else 0) + mintedBy cfg (step cfg s op).1 ops

/-- Sum of the successful increases. -/
def addedBy (cfg : Cfg) (s : State) : List Op → Balance
  | [] => 0
  | op :: ops => op.added + addedBy cfg (step cfg s op).1 ops

/-- Number of validators in the payouts after which the pool is empty. -/
def drains (cfg : Cfg) (s : State) : List Op → Nat
  | [] => 0
  | op :: ops =>
    (match op with
      | .endEra e => if poolOf cfg (step cfg s op).1 = 0 then ((s.erasValidators.get e).getD []).length else 0
      | _ => 0) + drains cfg (step cfg s op).1 ops

theorem ledger_pool (cfg : Cfg) (s : State) (o : Ledger.Op) : poolOf cfg (step cfg s (.ledger o)).1 = poolOf cfg s := rfl

theorem lifetime (cfg : Cfg) (ops : List Op) : ∀ (s : State), PInv s → (∀ op ∈ ops, op.Iterates) →
    2 * (mintedBy cfg s ops + poolOf cfg (run cfg s ops).1) ≤ 2 * (poolOf cfg s + addedBy cfg s ops) + drains cfg s ops := by
  induction ops with
  | nil => intro s _ _; simp [mintedBy, addedBy, drains, run]
  | cons op ops ih =>
    intro s h hi
    have h1 := ih (step cfg s op).1 (pinv_step cfg h (hi op (by simp))) fun o ho => hi o (by simp [ho])
    have e : (run cfg s (op :: ops)).1 = (run cfg (step cfg s op).1 ops).1 := rfl
    rw [e]
    simp only [mintedBy, addedBy, drains]
    cases hop : op.fromPool with
    | false =>
      cases op with
      | ledger o =>
        rw [ledger_pool] at h1
        simp only [Op.added, if_false, Bool.false_eq_true]
        omega
      | _ => cases hop
    | true =>
      simp only [if_true]
      rcases pool_step cfg op h hop with h2 | ⟨e', rfl, h2, h3⟩
      · omega
      · simp only [h2, if_true, Op.added] at h1 ⊢
        omega

/-- C46, lifetime: in every history all mints together with what is left in the pool are at most the initial size
of the pool, the increases by root, and half a unit per validator for each payout that empties the pool. -/
theorem C46_lifetime_partial (cfg : Cfg) (bank : Bank) (m : Balance) (ops : List Op) (hi : ∀ op ∈ ops, op.Iterates) :
    let s := genesis bank m
    2 * (mintedBy cfg s ops + poolOf cfg (run cfg s ops).1) ≤ 2 * (cfg.totalMining + addedBy cfg s ops) + drains cfg s ops :=
  lifetime cfg ops _ (pinv_genesis bank m) hi

/-- C46: as long as no payout to validators empties the pool the full statement holds. -/
theorem C46_exact_partial (cfg : Cfg) (bank : Bank) (m : Balance) (ops : List Op) (hi : ∀ op ∈ ops, op.Iterates)
    (hd : drains cfg (genesis bank m) ops = 0) :
    let s := genesis bank m
    mintedBy cfg s ops + poolOf cfg (run cfg s ops).1 ≤ cfg.totalMining + addedBy cfg s ops := by
  intro s
  have h := lifetime cfg ops s (pinv_genesis bank m) hi
  have h2 : drains cfg s ops = 0 := hd
  have h3 : poolOf cfg s = cfg.totalMining := rfl
  omega

/-- Three validators with equal points; the pool holds 8. -/
def exThree : List Op :=
  [.ledger (.bond 1 11 100 .stash true), .ledger (.validate 11 (0, false)), .ledger (.bond 2 12 100 .stash true),
   .ledger (.validate 12 (0, false)), .ledger (.bond 3 13 100 .stash true), .ledger (.validate 13 (0, false)),
   .configure 100 3 1 [] 84, .newEra [1, 2, 3], .addPoints 0 1 20, .addPoints 0 2 20, .addPoints 0 3 20]

def exBank3 : Bank :=
  { ed := 1, accts := (((∅ : FMap AccId Acct).insert 1 ⟨1000, 0⟩).insert 2 ⟨1000, 0⟩).insert 3 ⟨1000, 0⟩, frozen := fun _ => 0,
    pinned := fun _ => true, issuance := 3000 }

/-- C46, finding: three validators with equal reward points get 3 units each out of a pool of 8: each share is
rounded to the nearest unit, and the subtraction from the pool saturates. -/
theorem C46_overshoot : ∃ ops : List Op, (∀ op ∈ ops, op.Iterates) ∧
    let cfg : Cfg := ⟨Ledger.exCfg, 2, 4, 8, id⟩
    let s := (run cfg (genesis exBank3 10) ops).1
    addedBy cfg (genesis exBank3 10) ops = 0 ∧ mintedBy cfg (genesis exBank3 10) ops = cfg.totalMining + 1 ∧ s.pool = some 0 ∧
    issued s = 3009 := by
  refine ⟨exThree ++ [.endEra 0], ?_, by decide +kernel⟩
  intro op hop
  simp only [exThree, List.cons_append, List.nil_append, List.mem_cons, List.not_mem_nil, or_false] at hop
  rcases hop with rfl | rfl | rfl | rfl | rfl | rfl | rfl | rfl | rfl | rfl | rfl | rfl <;> simp [Op.Iterates]

/-- A payout with delegators, a referrer and validators out of a pool that suffices. -/
example :
    let ops := exDelegate ++ [.setReferer true 9 8, .addPoints 1 2 20, .addPoints 1 1 40, .endEra 1, .npowMint true 30 50, .npowMint false 30 50] ++
      List.replicate 5 (Op.block fun a e f => some (10 * a * (f + 1 - e)))
    let s := (run exCfg (genesis exBank 10) ops).1
    drains exCfg (genesis exBank 10) ops = 0 ∧ mintedBy exCfg (genesis exBank 10) ops = 501 ∧ s.pool = some 499 := by
  decide +kernel

/-! ### C49 -/

/-- C49: only an account with the privilege mints, never more than is in the pool, and the amount is taken out of
the pool. (Missing: the daily limit, which the code does not have, `C49_no_limit`.) -/
theorem C49_partial (cfg : Cfg) (s : State) (privileged : Bool) (target : AccId) (v : Balance) :
    let r := step cfg s (.npowMint privileged target v)
    (∃ e, r = (s, .failed e) ∧ (privileged = false ∨ poolOf cfg s < v)) ∨
    (r.2 = .done ∧ privileged = true ∧ v ≤ poolOf cfg s ∧ poolOf cfg r.1 = poolOf cfg s - v ∧
      r.1.led.bank = s.led.bank.depositCreating target v) := by
  intro r
  cases hp : privileged with
  | false => exact .inl ⟨.unauthorized, by simp [r, step, body, npowMint, hp, Except.map], .inl rfl⟩
  | true =>
    by_cases h : poolOf cfg s < v
    · exact .inl ⟨.insufficientValue, by simp [r, step, body, npowMint, hp, h, Except.map], .inr h⟩
    · have e : r = ({ deposit s target v with pool := some (poolOf cfg s - v) }, .done) := by
        simp [r, step, body, npowMint, hp, h, Except.map]
      rw [e]
      exact .inr ⟨rfl, rfl, Nat.le_of_not_lt h, rfl, rfl⟩

/-- C49, finding: there is no daily limit. For every limit, calls within one block mint more than it, out of a
large enough pool. -/
theorem C49_no_limit (limit : Balance) : ∃ (cfg : Cfg) (ops : List Op), (∀ op ∈ ops, ∃ v, op = .npowMint true 5 v) ∧
    let s := (run cfg (genesis exBank 10) ops).1
    limit < s.led.bank.free 5 ∧ s.block = 0 := by
  refine ⟨⟨Ledger.exCfg, 2, 4, limit + 2, id⟩, [.npowMint true 5 1, .npowMint true 5 (limit + 1)], ?_, ?_⟩
  · intro op hop
    simp only [List.mem_cons, List.not_mem_nil, or_false] at hop
    rcases hop with rfl | rfl <;> exact ⟨_, rfl⟩
  · have h0 : (genesis exBank 10).led.bank = exBank := rfl
    have e1 : step ⟨Ledger.exCfg, 2, 4, limit + 2, id⟩ (genesis exBank 10) (.npowMint true 5 1) =
        ({ deposit (genesis exBank 10) 5 1 with pool := some (limit + 1) }, .done) := by
      simp [step, body, npowMint, poolOf, genesis, Except.map]
    simp only [run, e1]
    have e2 : step ⟨Ledger.exCfg, 2, 4, limit + 2, id⟩ { deposit (genesis exBank 10) 5 1 with pool := some (limit + 1) } (.npowMint true 5 (limit + 1)) =
        ({ deposit (deposit (genesis exBank 10) 5 1) 5 (limit + 1) with pool := some 0 }, .done) := by
      simp [step, body, npowMint, poolOf, Except.map, deposit]
    rw [e2]
    refine ⟨?_, rfl⟩
    have e3 : (exBank.depositCreating 5 1).accts.contains 5 = true ∧ (exBank.depositCreating 5 1).free 5 = 1 ∧ (exBank.depositCreating 5 1).ed = 1 := by
      decide
    show limit < ((exBank.depositCreating 5 1).depositCreating 5 (limit + 1)).free 5
    generalize exBank.depositCreating 5 1 = b at e3
    unfold Bank.depositCreating
    rw [if_neg (by omega), if_neg (by rw [e3.1]; simp)]
    unfold Bank.put
    rw [if_neg (by simp only [e3.2.1, e3.2.2]; omega)]
    simp only [Bank.free, Bank.acct, FMap.get_insert_self, Option.getD_some]
    omega

example :
    let s := (run exCfg (genesis exBank 10) [.npowMint true 5 600]).1
    s.led.bank.free 5 = 600 ∧ s.pool = some 400 ∧
    (step exCfg s (.npowMint true 5 401)).1.led.bank.free 5 = 600 ∧ (step exCfg s (.npowMint true 5 400)).1.led.bank.free 5 = 1000 := by
  decide +kernel

end Verif.Delegation
