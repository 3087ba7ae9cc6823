import Verif.WorldSupply
import Verif.LedgerLaw

/-!
# C108: staked money is really there, on the chain as a whole
-/

namespace Verif.World

open Verif

/-! ### Specification -/

/-- The calls which take money as a penalty: a slash outside of staking, the slash of a tip, and everything in
the council elections, where money is only reserved, returned, or forfeited. -/
def penalty : Op → Bool
  | .money (.slash ..) => true
  | .tips (.slash ..) => true
  | .council _ => true
  | _ => false

/-- What an account loses by a call otherwise than by a payment of its own:
* all it loses by a penalty;
* the dust that is swept when it has, or has locked, less than the existential deposit;
* a reward which is added to the stake although the account is gone and cannot receive it. -/
def lossBy (cfg : Cfg) (w : State) (op : Op) (a : AccId) : Balance :=
  let w' := step cfg w op
  match op with
  | .ledger (.payout x v) => if x = a ∧ w.bank.total a = 0 then v else 0
  | .ledger _ => 0
  | op =>
    if penalty op then w.bank.total a - w'.bank.total a
    else if w.bank.frozen a < w.bank.ed ∨ w.bank.total a < w.bank.ed then
      min (w.bank.total a) (w.bank.frozen a) - w'.bank.total a
    else 0

/-- The sum over a history. -/
def losses (cfg : Cfg) (w : State) : List Op → AccId → Balance
  | [], _ => 0
  | op :: ops, a => lossBy cfg w op a + losses cfg (step cfg w op) ops a

/-- Nobody has staked yet, the books are correct, and the locks are those of the pallets. -/
structure Start (w : State) : Prop where
  books : w.bank.Inv
  locks : settle w = w
  noBond : w.ledger.bonded = ∅
  noLedger : w.ledger.ledgers = ∅
  noLock : w.ledger.locks = ∅

/-- No call of the root removes the lock of the staking pallet. -/
def keepsStakeLocks : Op → Bool
  | .unlockStake true _ => false
  | _ => true

/-! ### Operations which respect locks -/

theorem total_put_self (b : Bank) (a : AccId) (x : Acct) :
    (b.put a x).total a = if x.free < b.ed ∧ x.reserved = 0 then 0 else x.free + x.reserved := by
  have h := b.acct_put_self a x
  unfold Bank.total Bank.free Bank.reserved
  rw [h]
  split <;> rfl

theorem total_put_ne (b : Bank) {a y : AccId} (x : Acct) (h : y ≠ a) : (b.put a x).total y = b.total y := by
  unfold Bank.total Bank.free Bank.reserved
  rw [b.acct_put_ne x h]

/-- The balances stay correct, locks and references are the same, and no account with at least the existential
deposit locked loses locked money. -/
def Safe (b b' : Bank) : Prop :=
  b.Inv → b'.Inv ∧ b'.ed = b.ed ∧ b'.frozen = b.frozen ∧ b'.pinned = b.pinned ∧
    ∀ x, b.ed ≤ b.frozen x → b.ed ≤ b.total x → min (b.total x) (b.frozen x) ≤ b'.total x

theorem Safe.refl (b : Bank) : Safe b b := fun h => ⟨h, rfl, rfl, rfl, fun _ _ _ => Nat.min_le_left _ _⟩

theorem Safe.trans {a b c : Bank} (h : Safe a b) (h' : Safe b c) : Safe a c := by
  intro hi
  obtain ⟨i1, e1, f1, p1, t1⟩ := h hi
  obtain ⟨i2, e2, f2, p2, t2⟩ := h' i1
  refine ⟨i2, e2.trans e1, f2.trans f1, p2.trans p1, fun x hf ht => ?_⟩
  have h1 := t1 x hf ht
  have h2 := t2 x (by rw [e1, f1]; exact hf) (by rw [e1]; omega)
  rw [f1] at h2
  omega

theorem put_pinned (b : Bank) (a : AccId) (x : Acct) : (b.put a x).pinned = b.pinned := by
  unfold Bank.put; split <;> rfl

/-- One account is written. -/
theorem put_safe {b : Bank} {i : Nat} {a : AccId} {x : Acct} {u d : Nat}
    (hf : Flow u d b ({ b with issuance := i }.put a x))
    (h : b.Inv → b.ed ≤ b.frozen a → b.ed ≤ b.total a →
      ¬ (x.free < b.ed ∧ x.reserved = 0) ∧ min (b.total a) (b.frozen a) ≤ x.free + x.reserved) :
    Safe b ({ b with issuance := i }.put a x) := by
  intro hi
  refine ⟨(hf hi).1, by simp, by simp, put_pinned _ _ _, fun y h1 h2 => ?_⟩
  by_cases hy : y = a
  · subst hy
    obtain ⟨h3, h4⟩ := h hi h1 h2
    rw [total_put_self]
    simp only
    rw [if_neg h3]
    exact h4
  · rw [total_put_ne _ _ hy]
    exact Nat.min_le_left _ _

theorem canDie_unlocked {b : Bank} {a : AccId} (h : b.canDie a = true) :
    b.pinned a = false ∧ b.reserved a = 0 ∧ b.frozen a = 0 := by
  unfold Bank.canDie at h
  simp only [Bool.and_eq_true, Bool.not_eq_true', decide_eq_true_eq] at h
  exact ⟨h.1.1, h.1.2, h.2⟩

theorem withdraw_safe {b b' : Bank} {a : AccId} {v : Balance} {k : Bool} (h : b.withdraw a v k = .ok b') :
    Safe b b' := by
  have hfl := withdraw_flow h
  unfold Bank.withdraw at h
  split at h
  · cases h; exact Safe.refl _
  split at h
  · cases h
  split at h
  · cases h
  split at h
  · cases h
  split at h
  · cases h
  rename_i h1 h2 h3 h4 h5
  cases h
  refine put_safe hfl fun hi hf ht => ⟨?_, ?_⟩
  · simp only
    rintro ⟨h6, h7⟩
    have : b.ed ≤ b.free a := by unfold Bank.total at ht; omega
    cases hd : b.canDie a with
    | true => have := (canDie_unlocked hd).2.2; have := hi.edPos; omega
    | false => exact h5 ⟨h6, this, by simp [hd]⟩
  · simp only
    omega

theorem depositCreating_safe (b : Bank) (a : AccId) (v : Balance) : Safe b (b.depositCreating a v) := by
  have hfl := depositCreating_flow b a v
  unfold Bank.depositCreating at hfl ⊢
  split
  · exact Safe.refl _
  split
  · exact Safe.refl _
  · rename_i h1 h2
    rw [if_neg h1, if_neg h2] at hfl
    refine put_safe hfl fun hi hf ht => ⟨?_, ?_⟩
    · simp only; unfold Bank.total at ht; omega
    · simp only; unfold Bank.total; omega

theorem transfer_safe {b b' : Bank} {x y : AccId} {v : Balance} {k : Bool} (h : b.transfer x y v k = .ok b') :
    Safe b b' := by
  have hfl := transfer_flow h
  unfold Bank.transfer at h
  split at h
  · cases h; exact Safe.refl _
  split at h
  · cases h
  split at h
  · cases h
  split at h
  · cases h
  split at h
  · cases h
  split at h
  · cases h
  rename_i h0 h1 h2 h3 h4 h5
  have hxy : x ≠ y := fun e => h0 (Or.inr e)
  simp only at h
  cases h
  intro hi
  refine ⟨(hfl hi).1, by simp, by simp, by simp only [put_pinned], fun z hf ht => ?_⟩
  have hpx : b.ed ≤ b.frozen x → ¬ (b.free x - v < b.ed) := by
    intro hf h6
    cases hd : b.canDie x with
    | true => have := (canDie_unlocked hd).2.2; have := hi.edPos; omega
    | false => exact h4 ⟨h6, by simp [hd]⟩
  by_cases hzy : z = y
  · subst hzy
    rw [total_put_self]
    have e1 : (b.put x ⟨b.free x - v, b.reserved x⟩).free z = b.free z := b.free_put_ne _ (Ne.symm hxy)
    have e2 : (b.put x ⟨b.free x - v, b.reserved x⟩).reserved z = b.reserved z := b.reserved_put_ne _ (Ne.symm hxy)
    simp only [e1, e2]
    rw [if_neg (by simp; omega)]
    unfold Bank.total
    omega
  · rw [total_put_ne _ _ hzy]
    by_cases hzx : z = x
    · subst hzx
      rw [total_put_self]
      have := hpx hf
      simp only
      rw [if_neg (by omega)]
      omega
    · rw [total_put_ne _ _ hzx]
      exact Nat.min_le_left _ _

/-- A transfer never takes locked money. -/
theorem transfer_keeps {b b' : Bank} {x y : AccId} {v : Balance} {k : Bool} (h : b.transfer x y v k = .ok b') (z : AccId) :
    min (b.total z) (b.frozen z) ≤ b'.total z := by
  unfold Bank.transfer at h
  split at h
  · cases h; exact Nat.min_le_left _ _
  split at h
  · cases h
  split at h
  · cases h
  split at h
  · cases h
  split at h
  · cases h
  split at h
  · cases h
  rename_i h0 h1 h2 h3 h4 h5
  have hxy : x ≠ y := fun e => h0 (Or.inr e)
  simp only at h
  cases h
  by_cases hzy : z = y
  · subst hzy
    rw [total_put_self]
    have e1 : (b.put x ⟨b.free x - v, b.reserved x⟩).free z = b.free z := b.free_put_ne _ (Ne.symm hxy)
    have e2 : (b.put x ⟨b.free x - v, b.reserved x⟩).reserved z = b.reserved z := b.reserved_put_ne _ (Ne.symm hxy)
    simp only [e1, e2]
    rw [if_neg (by simp; omega)]
    unfold Bank.total
    omega
  · rw [total_put_ne _ _ hzy]
    by_cases hzx : z = x
    · subst hzx
      rw [total_put_self]
      simp only
      split
      · rename_i h6
        cases hd : b.canDie z with
        | true => have := (canDie_unlocked hd).2.2; omega
        | false => exact absurd ⟨h6.1, by simp [hd]⟩ h4
      · omega
    · rw [total_put_ne _ _ hzx]
      exact Nat.min_le_left _ _

theorem reserve_safe {b b' : Bank} {a : AccId} {v : Balance} (h : b.reserve a v = .ok b') : Safe b b' := by
  have hfl := reserve_flow h
  unfold Bank.reserve at h
  split at h
  · cases h; exact Safe.refl _
  split at h
  · cases h
  split at h
  · cases h
  split at h
  · cases h
  rename_i h1 h2 h3 h4
  cases h
  refine put_safe (b := b) (i := b.issuance) hfl fun hi hf ht => ⟨?_, ?_⟩
  · simp only; omega
  · simp only; unfold Bank.total; omega

theorem unreserve_safe (b : Bank) (a : AccId) (v : Balance) : Safe b (b.unreserve a v) := by
  have hfl := unreserve_flow b a v
  unfold Bank.unreserve at hfl ⊢
  split
  · exact Safe.refl _
  · rename_i h1
    rw [if_neg h1] at hfl
    refine put_safe (b := b) (i := b.issuance) hfl fun hi hf ht => ⟨?_, ?_⟩
    · simp only; unfold Bank.total at ht; omega
    · simp only; unfold Bank.total; omega

theorem depositExisting_safe {b b' : Bank} {a : AccId} {v : Balance} (h : b.depositExisting a v = .ok b') : Safe b b' := by
  have hfl := depositExisting_flow h
  unfold Bank.depositExisting at h
  split at h
  · cases h; exact Safe.refl _
  split at h
  · cases h
  · cases h
    refine put_safe hfl fun hi hf ht => ⟨?_, ?_⟩
    · simp only; unfold Bank.total at ht; omega
    · simp only; unfold Bank.total; omega

theorem money_safe (b : Bank) (m : Money) (hp : penalty (.money m) = false) : Safe b (money b m) := by
  cases m with
  | transfer x y v k =>
    simp only [money]
    cases h : b.transfer x y v k with
    | ok b' => exact transfer_safe h
    | error e => exact Safe.refl _
  | withdraw a v k =>
    simp only [money]
    cases h : b.withdraw a v k with
    | ok b' => exact withdraw_safe h
    | error e => exact Safe.refl _
  | mint a v => exact depositCreating_safe b a v
  | mintExisting a v =>
    simp only [money]
    cases h : b.depositExisting a v with
    | ok b' => exact depositExisting_safe h
    | error e => exact Safe.refl _
  | slash a v => cases hp

theorem node_safe (cfg : DeeperNode.Cfg) (s : DeeperNode.State) (op : DeeperNode.Op) (ho : nodeOwn op = true) :
    Safe s.bank (DeeperNode.step cfg s op).1.bank := by
  have hne : ∀ n b v x, op ≠ .external n b v x := by rintro n b v x rfl; cases ho
  rcases DeeperNode.step_shape cfg s op hne with ⟨h1, -⟩ | ⟨x, c, -, -, h2, -⟩ | ⟨x, -, -, h2, -⟩
  · rw [h1]; exact Safe.refl _
  · exact reserve_safe h2
  · rw [h2]; exact unreserve_safe _ _ _

section Tips
open Tips

theorem giveBack_safe (b : Bank) (t : OpenTip) : Safe b (giveBack b t) := by
  unfold giveBack
  split
  · exact Safe.refl _
  · exact unreserve_safe _ _ _

theorem attempt_safe (b : Bank) (x y : AccId) (v : Balance) : Safe b (Tips.attempt b x y v) := by
  unfold Tips.attempt
  split
  · rename_i h; exact transfer_safe h
  · exact Safe.refl _

theorem tips_safe (cfg : Tips.Cfg) (s : Tips.State) (op : Tips.Op) (ho : tipsOwn op = true)
    (hp : ∀ ok h, op ≠ .slash ok h) :
    Safe s.bank (Tips.step cfg s op).1.bank := by
  rcases Tips.step_shape cfg s op with ⟨e, hst⟩ | ⟨n, b, m, rfl, hst⟩ | ⟨a, rfl, hst⟩ |
    ⟨f, r, w, b, rfl, _, _, _, hb, hst⟩ | ⟨a, r, w, v, rfl, _, _, hst⟩ | ⟨a, r, w, v, rfl, _, _, hst⟩ |
    ⟨a, h', v, t, rfl, _, _, hst⟩ | ⟨a, h', v, t, rfl, _, _, hst⟩ | ⟨h', t, b, o, _, hst, hc⟩ <;> rw [hst]
  · exact Safe.refl _
  · cases ho
  · exact Safe.refl _
  · exact reserve_safe hb
  · exact Safe.refl _
  · exact Safe.refl _
  · exact Safe.refl _
  · exact Safe.refl _
  · show Safe s.bank b
    rcases hc with ⟨-, -, rfl⟩ | ⟨hs, -, rfl⟩ | ⟨v, n, -, -, -, -, hp⟩ | ⟨v, n, -, -, -, -, hp⟩
    · exact giveBack_safe _ _
    · exact absurd hs (hp _ _)
    · unfold payoutTip at hp
      split at hp
      · cases hp
      · cases hp
        exact ((giveBack_safe _ _).trans (attempt_safe _ _ _ _)).trans (attempt_safe _ _ _ _)
    · unfold payoutCredit at hp
      split at hp
      · cases hp
      · cases hp
        exact giveBack_safe _ _

end Tips

section Micro
open Micropayment

theorem take_safe {b b' : Bank} {a : AccId} {v : Balance} (h : takeFromAccount b a v = some b') : Safe b b' := by
  unfold takeFromAccount at h
  split at h
  · rename_i hw; cases h; exact withdraw_safe hw
  · cases h

theorem deposit_safe {cfg : Config} {b b' : Bank} {a : AccId} {v : Balance}
    (h : depositIntoAccount cfg b a v = .ok b') : Safe b b' := by
  unfold depositIntoAccount at h
  split at h
  · cases h
  · rename_i hw
    cases h
    exact ((depositCreating_safe b a v).trans (withdraw_safe hw)).trans (depositCreating_safe _ _ _)

theorem refund_safe (cfg : Config) (s : Micropayment.State) (c srv : AccId) (ch : Chan) :
    Safe s.bank (refundAndClose cfg s c srv ch).state.bank := by
  unfold refundAndClose
  cases h : depositIntoAccount cfg (lowerTotal s c ch.balance).bank c ch.balance with
  | error e => simp only [h]; exact Safe.refl _
  | ok b => simp only [h]; exact deposit_safe (b := s.bank) h

theorem loop_safe (cfg : Config) (c : AccId) (l : List AccId) : ∀ s : Micropayment.State,
    Safe s.bank (closeExpiredLoop cfg c l s).state.bank := by
  induction l with
  | nil => intro s; exact Safe.refl _
  | cons srv l ih =>
    intro s
    unfold closeExpiredLoop
    split
    · exact ih s
    · rename_i ch _
      split
      · simp only
        split
        · exact refund_safe cfg s c srv ch
        · exact (refund_safe cfg s c srv ch).trans (ih _)
      · exact ih s

theorem micro_safe (cfg : Config) (s : Micropayment.State) (op : Micropayment.Op) (ho : microOwn op = true) :
    Safe s.bank (Micropayment.step cfg s op).1.bank := by
  have hb : Safe s.bank (Micropayment.body cfg s op).state.bank := by
    cases op with
    | openChannel c srv l d =>
      simp only [Micropayment.body, openChannel]
      split
      · exact Safe.refl _
      split
      · exact Safe.refl _
      split
      · exact Safe.refl _
      · rename_i h; exact take_safe h
    | closeChannel sg a =>
      simp only [Micropayment.body, closeChannel]
      split
      · exact refund_safe _ _ _ _ _
      split
      · split
        · exact refund_safe _ _ _ _ _
        · exact Safe.refl _
      · exact Safe.refl _
    | closeExpired c o =>
      simp only [Micropayment.body, closeExpired]
      split
      · exact loop_safe _ _ _ _
      · exact Safe.refl _
    | addBalance c srv a =>
      simp only [Micropayment.body, addBalance]
      split
      · exact Safe.refl _
      split
      · exact Safe.refl _
      · rename_i h; exact take_safe h
    | claim srv c ses a sig =>
      simp only [Micropayment.body, claimPayment]
      split
      · exact Safe.refl _
      split
      · exact refund_safe _ _ _ _ _
      split
      · exact Safe.refl _
      split
      · exact Safe.refl _
      split
      · split
        · exact Safe.refl _
        · rename_i h; exact deposit_safe (b := s.bank) h
      · split
        · exact Safe.refl _
        · rename_i h; exact deposit_safe (b := s.bank) h
    | external n e b => cases ho
  unfold Micropayment.step
  split
  · exact hb
  · exact Safe.refl _

end Micro

section Oper
open Operation

theorem scan_safe (cfg : Operation.Cfg) (s : Operation.State) (day : Nat) (l : List (AccId × Info)) : ∀ c : Scan,
    Safe c.bank (scan cfg s day l c).bank := by
  induction l with
  | nil => intro c; exact Safe.refl _
  | cons e l ih =>
    intro c
    obtain ⟨a, i⟩ := e
    unfold scan
    split
    · exact ih c
    split
    · exact Safe.refl _
    · have h : Safe c.bank (release day c a i).bank := depositCreating_safe c.bank a (accrued day i)
      simp only
      split
      · exact h
      split
      · exact h
      · exact h.trans (ih (release day c a i))

theorem finalize_safe (cfg : Operation.Cfg) (s : Operation.State) : Safe s.bank (finalize cfg s).1.bank := by
  unfold finalize
  split
  · exact Safe.refl _
  · unfold releaseStaking
    split
    · exact Safe.refl _
    · exact scan_safe cfg s s.today
        ((sortByKey cfg.key s.infos.entries).filter fun e => decide (s.lastKey < cfg.key e.1))
        ⟨s.bank, s.infos, s.totalRelease, (s.daily.get s.today).getD 0, 0, [], s.dayEnd, s.lastKey, []⟩

theorem oper_safe (cfg : Operation.Cfg) (s : Operation.State) (op : Operation.Op) (ho : operOwn op = true) :
    Safe s.bank (Operation.step cfg s op).1.bank := by
  cases op with
  | external dt b p k => cases ho
  | forceRemoveLock r a f => cases ho
  | unlockAssets r x y v f => cases ho
  | finalize => exact finalize_safe cfg s
  | _ =>
    unfold Operation.step
    split
    · rename_i r hb
      simp only [Operation.body] at hb
      first
        | (obtain ⟨s', hs, rfl⟩ := map_ok hb
           simp only [forceReserve, setLimits, unstakingRelease, removeInfos, burnForEzc, setFund, bridgeOut, bridgeIn] at hs
           repeat' (split at hs)
           all_goals first
             | (cases hs; done)
             | (cases hs; exact Safe.refl _)
             | (obtain ⟨b, hl, rfl⟩ := map_ok hs
                first
                  | exact reserve_safe (liftBank_ok hl)
                  | exact transfer_safe (liftBank_ok hl)
                  | exact (withdraw_safe (liftBank_ok hl)).trans (depositCreating_safe _ _ _)))
        | (cases hb; exact Safe.refl _)
    · exact Safe.refl _

end Oper

section Led
open Ledger

/-- Every ledger is covered by the balance of its stash and `F`. -/
def Covered (s : Ledger.State) (F : AccId → Balance) : Prop :=
  ∀ c l, s.ledgers.get c = some l → l.total ≤ s.bank.total l.stash + F l.stash

theorem total_accts {b b' : Bank} (h : b'.accts = b.accts) (x : AccId) : b'.total x = b.total x := by
  unfold Bank.total Bank.free Bank.reserved Bank.acct
  rw [h]

theorem covered_update {cfg : Ledger.Cfg} {s s0 : Ledger.State} {F : AccId → Balance} {c : AccId} {l : Ledger.Ledger}
    (hs : s0.ledgers = s.ledgers)
    (h : ∀ c' l', c' ≠ c → s.ledgers.get c' = some l' → l'.total ≤ s0.bank.total l'.stash + F l'.stash)
    (h0 : l.total ≤ s0.bank.total l.stash + F l.stash) : Covered (updateLedger cfg s0 c l) F := by
  intro c' l' hl'
  rw [total_accts (updateLedger_accts cfg s0 c l)]
  have e : (updateLedger cfg s0 c l).ledgers = s.ledgers.insert c l := by
    show (setLock cfg s0 l.stash l.total).ledgers.insert c l = _
    rw [(setLock_fields cfg s0 l.stash l.total).2.1, hs]
  rw [e] at hl'
  by_cases hc : c' = c
  · subst hc
    rw [FMap.get_insert_self] at hl'
    cases hl'
    exact h0
  · rw [FMap.get_insert_ne _ _ hc] at hl'
    exact h c' l' hc hl'

theorem covered_same {s s' : Ledger.State} {F : AccId → Balance} (h : Covered s F)
    (h1 : s'.ledgers = s.ledgers) (h2 : ∀ x, s.bank.total x ≤ s'.bank.total x) : Covered s' F := by
  intro c l hl
  rw [h1] at hl
  have := h c l hl
  have := h2 l.stash
  omega

theorem covered_kill {s s1 : Ledger.State} {F : AccId → Balance} {a : AccId} {k : Bool} (h : Covered s F)
    (hk : killStash s a k = .ok s1) : Covered (removeLock s1 a) F := by
  obtain ⟨c, -, rfl⟩ := killStash_ok hk
  intro c' l' hl'
  have hl : (s.ledgers.erase c).get c' = some l' := hl'
  by_cases hc : c' = c
  · subst hc; rw [FMap.get_erase_self] at hl; cases hl
  · rw [FMap.get_erase_ne _ hc] at hl
    exact h c' l' hl

theorem depositCreating_total {b : Bank} (hb : b.Inv) (a : AccId) (v : Balance) (x : AccId) :
    b.total x ≤ (b.depositCreating a v).total x := by
  by_cases hx : x = a
  · subst hx
    unfold Bank.total
    rw [Bank.depositCreating_free hb, Bank.depositCreating_reserved hb]
    unfold Bank.minted
    split <;> omega
  · have := (Bank.depositCreating_ne (b := b) (a := a) v hx).1
    unfold Bank.total Bank.free Bank.reserved
    rw [this]

theorem absent_total {b : Bank} {a : AccId} (h : b.accts.contains a = false) : b.total a = 0 := by
  have : b.accts.get a = none := by
    cases hg : b.accts.get a with
    | none => rfl
    | some x => simp [FMap.contains, hg] at h
  unfold Bank.total Bank.free Bank.reserved
  simp only [Bank.acct_of_none this]

theorem depositOr_total {b : Bank} (hb : b.Inv) (a : AccId) (v : Balance) :
    (∀ x, b.total x ≤ (depositOr b a v).total x) ∧
    b.total a + v ≤ (depositOr b a v).total a + (if b.total a = 0 then v else 0) := by
  cases hc : b.accts.contains a with
  | true =>
    obtain ⟨h1, h2, h3⟩ := depositOr_bal hb a v hc
    refine ⟨fun x => ?_, ?_⟩
    · by_cases hx : x = a
      · subst hx; unfold Bank.total; omega
      · unfold Bank.total Bank.free Bank.reserved; rw [h3 x hx]
    · unfold Bank.total at *; omega
  | false =>
    have h0 := absent_total hc
    have e : depositOr b a v = b := by
      unfold depositOr Bank.depositExisting
      by_cases hv : v = 0
      · simp [hv]
      · simp [hv, hc]
    rw [e, if_pos h0]
    exact ⟨fun _ => Nat.le_refl _, by omega⟩

/-- A slash of an account which cannot be removed takes no more than asked. -/
theorem slash_total {b : Bank} (hb : b.Inv) {a : AccId} (hp : b.pinned a = true) (v : Balance) :
    b.total a ≤ (b.slash a v).1.total a + v ∧ ∀ x, x ≠ a → (b.slash a v).1.total x = b.total x := by
  refine ⟨?_, fun x hx => ?_⟩
  · unfold Bank.slash
    split
    · simp only; omega
    · rename_i h0
      have hd : b.canDie a = false := by simp [Bank.canDie, hp]
      simp only [hd, Bool.false_eq_true, if_false]
      rw [total_put_self]
      simp only
      split
      · rename_i h1
        cases hg : b.accts.get a with
        | none => exact absurd (Or.inr (by unfold Bank.total Bank.free Bank.reserved; simp only [Bank.acct_of_none hg])) h0
        | some y =>
          have hn := hb.noDust a y hg
          have e1 : b.free a = y.free := by unfold Bank.free; rw [Bank.acct_of_get hg]
          have e2 : b.reserved a = y.reserved := by unfold Bank.reserved; rw [Bank.acct_of_get hg]
          omega
      · unfold Bank.total; omega
  · have := (slash_taken b a v).2.2 x hx
    unfold Bank.total
    omega

/-- What a payout adds to a stake without the money. -/
def unpaid (s : Ledger.State) (op : Ledger.Op) (a : AccId) : Balance :=
  match op with
  | .payout x v => if x = a ∧ s.bank.total a = 0 then v else 0
  | _ => 0

theorem ledger_covered (cfg : Ledger.Cfg) (s : Ledger.State) (op : Ledger.Op) (ho : ledgerOwn op = true)
    (hi : Ledger.Inv cfg s) (hb : s.bank.Inv) (hp : ∀ a, s.bonded.get a ≠ none → s.bank.pinned a = true)
    (F : AccId → Balance) (h : Covered s F) :
    Covered (Ledger.step cfg s op).1 (fun a => F a + unpaid s op a) := by
  have hF : Covered s (fun a => F a + unpaid s op a) := fun c l hl => by have := h c l hl; simp only; omega
  generalize hG : (fun a => F a + unpaid s op a) = G at hF ⊢
  unfold Ledger.step
  cases he : Ledger.body cfg s op with
  | error e => exact hF
  | ok r =>
    show Covered r.1 G
    have upd : ∀ {c : AccId} {l l' : Ledger.Ledger}, s.ledgers.get c = some l → l'.stash = l.stash → l'.total ≤ l.total →
        Covered (updateLedger cfg s c l') G := by
      intro c l l' h1 h2 h3
      refine covered_update rfl (fun c' m hc hm => hF c' m hm) ?_
      have := hF c l h1
      rw [h2]
      omega
    have cut : ∀ {c : AccId} {l : Ledger.Ledger} (b : Bank) (v : Balance), s.ledgers.get c = some l → b.accts = s.bank.accts → b.Inv →
        b.pinned l.stash = true → ∀ s0 : Ledger.State, s0.ledgers = s.ledgers → s0.bank = (b.slash l.stash (slashLedger l v s.bank.ed).2).1 →
        Covered (updateLedger cfg s0 c (slashLedger l v s.bank.ed).1) G := by
      intro c l b v h1 h2 h3 h4 s0 h5 h6
      obtain ⟨g1, g2⟩ := slash_total h3 h4 (slashLedger l v s.bank.ed).2
      obtain ⟨-, g3, -, -, -, g4, -⟩ := slash_spec (hi.balanced c l h1) v s.bank.ed
      refine covered_update h5 (fun c' m hc hm => ?_) ?_
      · have hne : m.stash ≠ l.stash := by
          intro e
          have e1 := hi.back c' m hm
          have e2 := hi.back c l h1
          rw [e, e2] at e1
          cases e1
          exact hc rfl
        rw [h6, g2 _ hne, total_accts h2]
        exact hF c' m hm
      · rw [g4, h6]
        have := hF c l h1
        rw [total_accts h2] at g1
        omega
    cases op with
    | external b o c => cases ho
    | bond a c v d k =>
      simp only [Ledger.body, bond] at he
      repeat' (split at he)
      all_goals first | (cases he; done) | skip
      cases he
      refine covered_update rfl (fun c' m hc hm => hF c' m hm) ?_
      show min v (s.bank.free a) ≤ s.bank.total a + _
      unfold Bank.total
      omega
    | setMinBond r v =>
      simp only [Ledger.body, setMinBond] at he
      repeat' (split at he)
      all_goals first | (cases he; done) | skip
      cases he
      exact covered_same hF rfl (fun _ => Nat.le_refl _)
    | bondExtra a v =>
      simp only [Ledger.body, bondExtra] at he
      repeat' (split at he)
      all_goals first | (cases he; done) | skip
      · cases he; exact hF
      · rename_i c hc _ l hl hf _
        cases he
        have hst : l.stash = a := by
          obtain ⟨l', e1, e2⟩ := hi.forward a c hc
          rw [hl] at e1; cases e1; exact e2
        refine covered_update rfl (fun c' m hc hm => hF c' m hm) ?_
        show l.total + min (s.bank.free a - l.total) v ≤ s.bank.total l.stash + _
        rw [hst]
        unfold Bank.total
        omega
    | unbond c v =>
      simp only [Ledger.body, unbond] at he
      repeat' (split at he)
      all_goals first | (cases he; done) | skip
      all_goals first
        | (cases he; exact hF)
        | (have hl := ‹s.ledgers.get c = some _›; cases he; exact upd hl rfl (Nat.le_refl _))
    | withdraw c k =>
      simp only [Ledger.body, Ledger.withdraw] at he
      repeat' (split at he)
      all_goals first | (cases he; done) | skip
      all_goals first
        | (have hk := ‹killStash s _ k = .ok _›; cases he; exact covered_kill hF hk)
        | (have hl := ‹s.ledgers.get c = some _›
           cases he
           refine upd hl ?_ ?_
           · unfold consolidateAt; split <;> rfl
           · unfold consolidateAt
             split
             · rename_i e _
               have := (consolidate_balanced (hi.balanced c _ hl) e).2; omega
             · exact Nat.le_refl _)
    | validate c q =>
      simp only [Ledger.body, validate] at he
      repeat' (split at he)
      all_goals first | (cases he; done) | skip
      cases he; exact covered_same hF rfl (fun _ => Nat.le_refl _)
    | chill c =>
      simp only [Ledger.body, chill] at he
      repeat' (split at he)
      all_goals first | (cases he; done) | skip
      cases he; exact covered_same hF rfl (fun _ => Nat.le_refl _)
    | setPayee c d =>
      simp only [Ledger.body, setPayee] at he
      repeat' (split at he)
      all_goals first | (cases he; done) | skip
      cases he; exact covered_same hF rfl (fun _ => Nat.le_refl _)
    | setController a c =>
      simp only [Ledger.body, setController] at he
      repeat' (split at he)
      all_goals first | (cases he; done) | skip
      · cases he; exact hF
      · cases he; exact covered_same hF rfl (fun _ => Nat.le_refl _)
      · rename_i old hold hnc hne _ l hl
        cases he
        intro c' m hm
        have hm' : ((s.ledgers.erase old).insert c l).get c' = some m := hm
        by_cases hc : c' = c
        · subst hc
          rw [FMap.get_insert_self] at hm'
          cases hm'
          exact hF old _ hl
        · rw [FMap.get_insert_ne _ _ hc] at hm'
          by_cases ho' : c' = old
          · subst ho'; rw [FMap.get_erase_self] at hm'; cases hm'
          · rw [FMap.get_erase_ne _ ho'] at hm'
            exact hF c' m hm'
    | forceUnstake r a k =>
      simp only [Ledger.body, forceUnstake] at he
      repeat' (split at he)
      all_goals first | (cases he; done) | skip
      rename_i hk; cases he; exact covered_kill hF hk
    | rebond c v =>
      simp only [Ledger.body, rebond] at he
      repeat' (split at he)
      all_goals first | (cases he; done) | skip
      rename_i l hl _ _
      cases he
      exact upd hl rfl (Nat.le_of_eq (rebond_spec (hi.balanced c l hl) v).2.1)
    | reap a k =>
      simp only [Ledger.body, reap] at he
      repeat' (split at he)
      all_goals first | (cases he; done) | skip
      rename_i hk; cases he; exact covered_kill hF hk
    | burn c v =>
      simp only [Ledger.body, burn] at he
      split at he
      · cases he
      · rename_i l hl
        cases he
        have hpin : s.bank.pinned l.stash = true := hp _ (by rw [hi.back c l hl]; exact Option.some_ne_none _)
        exact cut (removeLock s l.stash).bank v hl rfl ⟨hb.edPos, hb.issuance, hb.noDust⟩ hpin _ rfl rfl
    | slash a v =>
      simp only [Ledger.body, doSlash] at he
      cases hbd : s.bonded.get a with
      | none => rw [hbd] at he; cases he; exact hF
      | some c =>
        rw [hbd] at he
        simp only at he
        cases hl : s.ledgers.get c with
        | none => rw [hl] at he; cases he; exact hF
        | some l =>
          rw [hl] at he
          simp only at he
          have hst : l.stash = a := by
            obtain ⟨l', e1, e2⟩ := hi.forward a c hbd
            rw [hl] at e1; cases e1; exact e2
          split at he
          · cases he; exact hF
          · cases he
            have hpin : s.bank.pinned l.stash = true := hp _ (by rw [hi.back c l hl]; exact Option.some_ne_none _)
            refine cut s.bank v hl rfl hb hpin _ rfl ?_
            rw [hst]
    | payout a v =>
      simp only [Ledger.body] at he
      cases he
      simp only [payout]
      split
      · split
        · exact hF
        · exact covered_same hF rfl (depositCreating_total hb _ _)
      · exact covered_same hF rfl (depositOr_total hb _ _).1
      · split
        · exact hF
        · rename_i c hbd
          split
          · exact hF
          · rename_i l hl
            have hst : l.stash = a := by
              obtain ⟨l', e1, e2⟩ := hi.forward a c hbd
              rw [hl] at e1; cases e1; exact e2
            obtain ⟨g1, g2⟩ := depositOr_total hb a v
            refine covered_update rfl (fun c' m hc hm => ?_) ?_
            · have := hF c' m hm
              have := g1 m.stash
              simp only
              omega
            · show l.total + v ≤ (depositOr s.bank a v).total l.stash + G l.stash
              have := h c l hl
              rw [← hG]
              simp only [unpaid, hst] at *
              simp only [true_and]
              omega
      · exact covered_same hF rfl (depositCreating_total hb _ _)
    | kick a => simp only [Ledger.body] at he; cases he; exact covered_same hF rfl (fun _ => Nat.le_refl _)
    | newEra => simp only [Ledger.body] at he; cases he; exact covered_same hF rfl (fun _ => Nat.le_refl _)

end Led

/-! ### The chain -/

/-- What is kept about the chain. -/
structure LInv (cfg : Cfg) (w : State) : Prop where
  books : w.bank.Inv
  ledger : Ledger.Inv cfg.ledger w.ledger
  locks : settle w = w

theorem settled_frozen {w : State} (h : settle w = w) (a : AccId) :
    w.bank.frozen a = max (voteLock w a) (max (Ledger.lockOf w.ledger a) (w.rest a)) :=
  (congrFun (congrArg (fun v : State => v.bank.frozen) h) a).symm

theorem settled_pinned {w : State} (h : settle w = w) (a : AccId) :
    w.bank.pinned a = (w.ledger.bonded.contains a || w.pins a) :=
  (congrFun (congrArg (fun v : State => v.bank.pinned) h) a).symm

theorem settle_settle (w : State) : settle (settle w) = settle w := rfl

theorem stake_frozen {cfg : Cfg} {w : State} (h : LInv cfg w) {c : AccId} {l : Ledger.Ledger}
    (hl : w.ledger.ledgers.get c = some l) : l.total ≤ w.bank.frozen l.stash := by
  rw [settled_frozen h.locks]
  rcases h.ledger.lock c l hl with h1 | ⟨h1, -⟩
  · have : Ledger.lockOf w.ledger l.stash = l.total := by unfold Ledger.lockOf; rw [h1]; rfl
    omega
  · omega

theorem ledger_inv_env {cfg : Ledger.Cfg} {s : Ledger.State} (b : Bank) (o : AccId → Balance) (h : Ledger.Inv cfg s) :
    Ledger.Inv cfg { s with bank := b, otherLocks := o } := ⟨h.forward, h.back, h.balanced, h.lock, h.noLock⟩

theorem effect_ledger {cfg : Cfg} {w : State} (op : Op) (hn : ∀ o, op ≠ .ledger o) (hu : keepsStakeLocks op = true) :
    (effect cfg w op).ledger = w.ledger := by
  cases op with
  | ledger o => exact absurd rfl (hn o)
  | hold a v => simp only [effect]; split <;> rfl
  | release a v => simp only [effect]; split <;> rfl
  | unlockStake r a => cases r with | true => cases hu | false => rfl
  | unlockVote r a => simp only [effect]; split <;> rfl
  | unlockMove r x y v => simp only [effect]; split <;> rfl
  | _ => rfl

theorem step_linv {cfg : Cfg} {w : State} (h : LInv cfg w) (op : Op) (hu : keepsStakeLocks op = true) :
    LInv cfg (step cfg w op) := by
  refine ⟨(step_supply cfg w op h.books).1, ?_, settle_settle _⟩
  have he : Ledger.Inv cfg.ledger (effect cfg w op).ledger := by
    by_cases hn : ∃ o, op = .ledger o
    · obtain ⟨o, rfl⟩ := hn
      exact Ledger.Inv.change (ledger_inv_env w.bank w.ledger.otherLocks h.ledger)
        (Ledger.step_change cfg.ledger { w.ledger with bank := w.bank } o)
    · rw [effect_ledger op (fun o e => hn ⟨o, e⟩) hu]
      exact h.ledger
  exact ⟨he.forward, he.back, he.balanced, he.lock, he.noLock⟩

/-- Payments of the pallets other than staking respect the locks. -/
theorem effect_safe {cfg : Cfg} {w : State} (h : LInv cfg w) (op : Op) (hn : ∀ o, op ≠ .ledger o)
    (hp : penalty op = false) (hm : ∀ r x y v, op ≠ .unlockMove r x y v) : Safe w.bank (effect cfg w op).bank := by
  cases op with
  | ledger o => exact absurd rfl (hn o)
  | unlockMove r x y v => exact absurd rfl (hm r x y v)
  | council o => cases hp
  | node o =>
    cases ho : nodeOwn o with
    | false => simp only [effect, ho]; exact Safe.refl _
    | true => simp only [effect, ho, if_true]; exact node_safe cfg.node { w.node with bank := w.bank } o ho
  | tips o =>
    cases ho : tipsOwn o with
    | false => simp only [effect, ho]; exact Safe.refl _
    | true =>
      simp only [effect, ho, if_true]
      exact tips_safe cfg.tips { w.tips with bank := w.bank } o ho (by rintro k t rfl; cases hp)
  | oper o =>
    cases ho : operOwn o with
    | false => simp only [effect, ho]; exact Safe.refl _
    | true => simp only [effect, ho, if_true]; exact oper_safe cfg.oper { w.oper with bank := w.bank } o ho
  | micro o =>
    cases ho : microOwn o with
    | false => simp only [effect, ho]; exact Safe.refl _
    | true => simp only [effect, ho, if_true]; exact micro_safe cfg.micro { w.micro with bank := w.bank } o ho
  | money m => exact money_safe w.bank m hp
  | hold a v =>
    simp only [effect]
    split
    · rename_i hr; exact reserve_safe hr
    · exact Safe.refl _
  | release a v =>
    simp only [effect]
    split
    · exact unreserve_safe _ _ _
    · exact Safe.refl _
  | locks r p => exact Safe.refl _
  | unlockStake r a => cases r <;> exact Safe.refl _
  | unlockVote r a => cases r <;> exact Safe.refl _

/-- Moving the money of a voter respects the other locks. -/
theorem unlockMove_safe {cfg : Cfg} {w : State} (h : LInv cfg w) (r : Bool) (x y : AccId) (v : Balance) (a : AccId) :
    min (w.bank.total a) (Ledger.lockOf w.ledger a) ≤ (effect cfg w (.unlockMove r x y v)).bank.total a := by
  simp only [effect]
  split
  · rename_i t ht
    unfold Operation.unlockAssets at ht
    split at ht
    · cases ht
    · obtain ⟨b, hl, rfl⟩ := map_ok ht
      have hf := settled_frozen h.locks a
      have := transfer_keeps (liftBank_ok hl) a
      simp only at this ⊢
      have e : ∀ f : AccId → Balance, Bank.total { w.bank with frozen := f } a = w.bank.total a := fun _ => rfl
      rw [e] at this
      split at this <;> (try subst_vars) <;> omega
  · exact Nat.min_le_left _ _

theorem step_total (cfg : Cfg) (w : State) (op : Op) (a : AccId) :
    (step cfg w op).bank.total a = (effect cfg w op).bank.total a := rfl

theorem lossBy_other {cfg : Cfg} {w : State} {op : Op} (hn : ∀ o, op ≠ .ledger o) (a : AccId) :
    lossBy cfg w op a = if penalty op then w.bank.total a - (step cfg w op).bank.total a
      else if w.bank.frozen a < w.bank.ed ∨ w.bank.total a < w.bank.ed then
        min (w.bank.total a) (w.bank.frozen a) - (step cfg w op).bank.total a
      else 0 := by
  unfold lossBy
  cases op with
  | ledger o => exact absurd rfl (hn o)
  | _ => rfl

/-- One step. -/
theorem step_covered {cfg : Cfg} {w : State} (h : LInv cfg w) (op : Op) (hu : keepsStakeLocks op = true)
    (F : AccId → Balance)
    (hc : ∀ c l, w.ledger.ledgers.get c = some l → l.total ≤ w.bank.total l.stash + F l.stash) :
    ∀ c l, (step cfg w op).ledger.ledgers.get c = some l →
      l.total ≤ (step cfg w op).bank.total l.stash + (F l.stash + lossBy cfg w op l.stash) := by
  intro c l hl
  by_cases hn : ∃ o, op = .ledger o
  · obtain ⟨o, rfl⟩ := hn
    cases ho : ledgerOwn o with
    | false =>
      cases o <;> first | cases ho; done | skip
      exact Nat.le_trans (hc c l hl) (Nat.add_le_add_left (Nat.le_add_right _ _) _)
    | true =>
      have hp : ∀ a, w.ledger.bonded.get a ≠ none → w.bank.pinned a = true := by
        intro a ha
        rw [settled_pinned h.locks]
        obtain ⟨b, hb⟩ := Option.ne_none_iff_exists'.1 ha
        simp [FMap.contains, hb]
      have := ledger_covered cfg.ledger { w.ledger with bank := w.bank } o ho
        (ledger_inv_env w.bank w.ledger.otherLocks h.ledger) h.books hp F hc c l hl
      have e : unpaid { w.ledger with bank := w.bank } o l.stash = lossBy cfg w (.ledger o) l.stash := by
        unfold unpaid lossBy
        cases o <;> rfl
      simp only [step_total, effect, ho, if_true]
      rw [← e]
      exact this
  · have hn' : ∀ o, op ≠ .ledger o := fun o e => hn ⟨o, e⟩
    have hl' : w.ledger.ledgers.get c = some l := by
      have : (effect cfg w op).ledger.ledgers.get c = some l := hl
      rwa [effect_ledger op hn' hu] at this
    have h1 := hc c l hl'
    have h2 := stake_frozen h hl'
    rw [lossBy_other hn']
    cases hp : penalty op with
    | true => simp only [if_true]; omega
    | false =>
      simp only [Bool.false_eq_true, if_false]
      split
      · omega
      · rename_i hx
        rw [step_total]
        by_cases hm : ∃ r x y v, op = .unlockMove r x y v
        · obtain ⟨r, x, y, v, rfl⟩ := hm
          have h4 := unlockMove_safe (cfg := cfg) h r x y v l.stash
          rcases h.ledger.lock c l hl' with h3 | ⟨h3, -⟩
          · have : Ledger.lockOf w.ledger l.stash = l.total := by unfold Ledger.lockOf; rw [h3]; rfl
            omega
          · omega
        · have := (effect_safe h op hn' hp (fun r x y v e => hm ⟨r, x, y, v, e⟩) h.books).2.2.2.2 l.stash (by omega) (by omega)
          omega

/-! ### Theorems -/

/-- C108. Staked money is really there. In every history of the chain in which the root does not remove the lock of
the staking pallet, the bond of a stash is covered by its balance, up to what the account lost by penalties outside
of staking, dust below the existential deposit, and rewards it could not receive. In particular no payment, no
deposit and no call of another pallet spends staked money. -/
theorem C108_backed (cfg : Cfg) {w : State} (g : Start w) (ops : List Op) (hu : ∀ op ∈ ops, keepsStakeLocks op = true) :
    ∀ c l, (run cfg w ops).ledger.ledgers.get c = some l →
      l.total ≤ (run cfg w ops).bank.total l.stash + losses cfg w ops l.stash := by
  have h0 : LInv cfg w := by
    refine ⟨g.books, ⟨?_, ?_, ?_, ?_, ?_⟩, g.locks⟩
    · intro a c h; rw [g.noBond] at h; cases h
    · intro c l h; rw [g.noLedger] at h; cases h
    · intro c l h; rw [g.noLedger] at h; cases h
    · intro c l h; rw [g.noLedger] at h; cases h
    · intro a _; rw [g.noLock]; rfl
  have key : ∀ (ops : List Op) (w : State) (F : AccId → Balance), LInv cfg w → (∀ op ∈ ops, keepsStakeLocks op = true) →
      (∀ c l, w.ledger.ledgers.get c = some l → l.total ≤ w.bank.total l.stash + F l.stash) →
      ∀ c l, (run cfg w ops).ledger.ledgers.get c = some l →
        l.total ≤ (run cfg w ops).bank.total l.stash + (F l.stash + losses cfg w ops l.stash) := by
    intro ops
    induction ops with
    | nil => intro w F _ _ hc c l hl; exact hc c l hl
    | cons op ops ih =>
      intro w F h hu hc c l hl
      have h1 := step_covered h op (hu op (by simp)) F hc
      have h2 := ih (step cfg w op) (fun a => F a + lossBy cfg w op a) (step_linv h op (hu op (by simp)))
        (fun o ho => hu o (by simp [ho])) h1 c l hl
      simp only [run, losses]
      omega
  intro c l hl
  have := key ops w (fun _ => 0) h0 hu (fun c l h => by rw [g.noLedger] at h; cases h) c l hl
  simpa using this

/-! ### Examples and findings -/

theorem exWorld_start : Start exWorld := by
  refine ⟨exWorld_inv, ?_, rfl, rfl, rfl⟩
  have h1 : (settle exWorld).bank.frozen = exWorld.bank.frozen := by funext a; rfl
  have h2 : (settle exWorld).bank.pinned = exWorld.bank.pinned := by funext a; rfl
  have h3 : (settle exWorld).council.otherLock = exWorld.council.otherLock := by funext a; rfl
  have h4 : (settle exWorld).ledger.otherLocks = exWorld.ledger.otherLocks := by funext a; rfl
  rfl

/-- Account 1 reports a tip with a deposit of 11, bonds 600 and tries to pay 500, then 400. -/
def exStake : List Op :=
  [.tips (.report 1 [7] 5), .ledger (.bond 1 9 600 .staked true), .money (.transfer 1 2 500 true), .money (.transfer 1 2 400 true)]

/-- The first payment is refused, the second one leaves exactly the stake. -/
example : (∀ op ∈ exStake, keepsStakeLocks op = true) ∧
    (run exCfg exWorld exStake).ledger.ledgers.get 9 = some ⟨1, 600, 600, []⟩ ∧
    (run exCfg exWorld exStake).bank.total 1 = 600 ∧ losses exCfg exWorld exStake 1 = 0 := by
  refine ⟨?_, by decide +kernel, by decide +kernel, by decide +kernel⟩
  intro op h
  simp only [exStake, List.mem_cons, List.not_mem_nil, or_false] at h
  rcases h with rfl | rfl | rfl | rfl <;> rfl

/-- C108, finding: the deposit counts towards the stake. Once the tip is slashed, 589 are left for a stake of 600. -/
theorem C108_deposit_counts :
    let w := run exCfg exWorld (exStake ++ [.tips (.slash true 61)])
    w.ledger.ledgers.get 9 = some ⟨1, 600, 600, []⟩ ∧ w.bank.total 1 = 589 ∧
    losses exCfg exWorld (exStake ++ [.tips (.slash true 61)]) 1 = 11 := by
  decide +kernel

/-- C108, finding: after the root has removed the lock the stake can be paid away and still counts; the same holds
for the stake of a vote when the root moves the money of a voter. -/
theorem C108_root_unlocks :
    (let w := run exCfg exWorld (exStake ++ [.unlockStake true 1, .money (.transfer 1 2 500 true)])
     w.ledger.ledgers.get 9 = some ⟨1, 600, 600, []⟩ ∧ w.bank.total 1 = 100) ∧
    (let w := run exCfg exWorld [.council (.submit 2 0 true), .council (.vote 1 [2] 300), .money (.transfer 1 3 900 true), .unlockMove true 1 3 900]
     (w.council.voting.get 1).map Council.Voter.stake = some 300 ∧ w.bank.free 1 < 300 ∧ voteLock w 1 = 0) := by
  decide +kernel

end Verif.World
