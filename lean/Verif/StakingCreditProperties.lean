import Verif.StakingCredit
import Verif.BankExact
import Verif.DelegationProperties
import Verif.CreditProperties

/-
C48 Staking for credit charges exactly the level price, and C69 USDT staking raises the account to the
highest level it pays for.
-/

namespace Verif.StakingCredit

open Verif.Credit (Level)

/-! ### Specification -/

/-- The level of a score: one per hundred points, at most eight. -/
def levelOf (score : Nat) : Nat := min (score / 100) 8

/-- The credit score of an account. -/
def scoreOf (s : State) (a : AccId) : Option Nat := Credit.creditScore s.credit.core a

/-- The prices of the levels that are offered to an account for DPR: those of its own campaign, or of the
default campaign if it has no credit (`get_credit_balance`). -/
def dprPrices (s : State) (a : AccId) : List Balance :=
  Credit.creditBalance s.credit a (some s.credit.defaultCampaign)

/-- The prices of the levels offered for USDT. -/
def usdtPrices (s : State) (a : AccId) : List Balance :=
  Credit.creditBalance s.credit a (some s.credit.defaultUsdtCampaign)

/-- The account delegates to one of the validators. -/
def DelegatesToOne (s : State) (a : AccId) (order : List AccId) : Prop :=
  ∃ d v, s.dele.delegators.get a = some d ∧ d.delegating = true ∧ d.validators = [v] ∧ v ∈ order

/-! ### Lemmas -/

theorem toU8_ofScore (n : Nat) : (Level.ofScore n).toU8 = levelOf n := by
  unfold Level.ofScore levelOf
  repeat' split
  all_goals simp only [Level.toU8]; omega

theorem toU8_ofU8 {n : Nat} (h : n ≤ 8) : (Level.ofU8 n).toU8 = n := by
  have : n = 0 ∨ n = 1 ∨ n = 2 ∨ n = 3 ∨ n = 4 ∨ n = 5 ∨ n = 6 ∨ n = 7 ∨ n = 8 := by omega
  rcases this with h | h | h | h | h | h | h | h | h <;> subst h <;> rfl

theorem levelOf_le (n : Nat) : levelOf n ≤ 8 := by unfold levelOf; omega

theorem gap_eq {dst cur : Nat} (h : dst ≤ 8) (h' : cur ≤ 8) :
    Level.gap (Level.ofU8 dst) (Level.ofU8 cur) = 100 * (dst - cur) := by
  unfold Level.gap; rw [toU8_ofU8 h, toU8_ofU8 h']

/-- The credit data written by `add_or_update_credit`. -/
def newData (c : Credit.State) (who : AccId) (gap : Nat) (campaign : Option Nat) : Credit.Data :=
  match c.core.userCredit.get who with
  | some d => d.update (Credit.satAdd64 d.credit gap)
  | none => Credit.Data.new (campaign.getD c.defaultCampaign) gap

theorem updateHistory_credit {c c' : Credit.Core} {a : AccId} {era : Nat}
    (h : Credit.updateHistory c a era = .ok c') : c'.userCredit = c.userCredit := by
  unfold Credit.updateHistory at h
  split at h
  · cases h
  · split at h <;> cases h <;> rfl

theorem addOrUpdate_ok (cfg : Credit.Cfg) (c : Credit.State) (who : AccId) (gap : Nat) (o : Option Nat) :
    ∃ c', Credit.addOrUpdateCredit cfg c who gap o = .ok c' ∧
      c'.core.userCredit = c.core.userCredit.insert who (newData c who gap o) ∧ c'.block = c.block ∧
      c'.stakingBalance = c.stakingBalance := by
  unfold Credit.addOrUpdateCredit
  simp only
  change ∃ c', Except.map _ (Credit.doAddCredit _ _ _ (newData c who gap o)) = _ ∧ _
  unfold Credit.doAddCredit
  simp only
  split
  · split
    · exact ⟨_, rfl, rfl, rfl, rfl⟩
    · unfold Credit.updateHistory
      rw [FMap.get_insert_self]
      simp only
      split <;> exact ⟨_, rfl, rfl, rfl, rfl⟩
  · exact ⟨_, rfl, rfl, rfl, rfl⟩

theorem initHistory_credit (era : Nat) (c : Credit.Core) (a : AccId) :
    (Credit.initDelegatorHistory era c a).userCredit = c.userCredit := by
  unfold Credit.initDelegatorHistory
  split <;> rfl

theorem delegateAny_ok {cfg : Cfg} {s s' : State} {who : AccId} {order : List AccId}
    (h : delegateAny cfg s who order = .ok s') :
    s'.dele.led = s.dele.led ∧ s'.balances = s.balances ∧
    s'.credit.core.userCredit = s.credit.core.userCredit ∧
    s'.credit.stakingBalance = s.credit.stakingBalance ∧ DelegatesToOne s' who order := by
  unfold delegateAny at h
  split at h
  · cases h
  · rename_i d hd
    cases h
    unfold Delegation.delegateAny at hd
    split at hd
    · cases hd
    · rename_i v hv
      have hm : v ∈ order := List.mem_of_getElem? hv
      unfold Delegation.doDelegate at hd
      split at hd
      · cases hd
      · simp only at hd
        cases hd
        refine ⟨?_, rfl, ?_, ?_, ?_⟩
        · simp only; split <;> rfl
        · simp only; split
          · rfl
          · exact initHistory_credit _ _ _
        · simp only; split <;> rfl
        · unfold DelegatesToOne
          simp only
          split
          · exact ⟨_, v, FMap.get_insert_self .., rfl, rfl, hm⟩
          · exact ⟨_, v, FMap.get_insert_self .., rfl, rfl, hm⟩

theorem delegateAny_succeeds {cfg : Cfg} {s : State} {who : AccId} {order : List AccId}
    (ho : order ≠ []) (hp : Credit.passThreshold cfg.credit s.credit who = true) :
    ∃ s', delegateAny cfg s who order = .ok s' := by
  have hl : 0 < order.length := List.length_pos_of_ne_nil ho
  have hi : s.credit.block % order.length < order.length := Nat.mod_lt _ hl
  unfold delegateAny Delegation.delegateAny
  simp only
  rw [List.getElem?_eq_getElem hi, hp]
  simp only [Delegation.doDelegate]
  exact ⟨_, rfl⟩

theorem newData_credit {c : Credit.State} {who : AccId} {gap score : Nat} {o : Option Nat}
    (h : Credit.creditScore c.core who = some score) (hs : score + gap < 2 ^ 64) :
    (newData c who gap o).credit = score + gap := by
  unfold Credit.creditScore at h
  unfold newData
  cases hd : c.core.userCredit.get who with
  | none => rw [hd] at h; cases h
  | some d =>
    rw [hd] at h
    simp only [Option.map_some, Option.some.injEq] at h
    simp only [Credit.Data.update, Credit.satAdd64, Credit.u64Max]
    rw [h]; omega

/-- What a successful call does. -/
theorem stake_ok {cfg : Cfg} {s s' : State} {who : AccId} {dst : Nat} {order : List AccId}
    (h : doStakingDelegate cfg s who dst order = .ok s') :
    ∃ score b, scoreOf s who = some score ∧ dst < (dprPrices s who).length ∧ levelOf score < dst ∧
      s.dele.led.bank.transfer who cfg.pallet
        ((dprPrices s who).getD dst 0 - (dprPrices s who).getD (levelOf score) 0) true = .ok b ∧
      s'.dele.led.bank = b ∧
      s'.balances = s.balances.insert who ((s.balances.get who).getD 0 +
        ((dprPrices s who).getD dst 0 - (dprPrices s who).getD (levelOf score) 0)) ∧
      s'.credit.core.userCredit = s.credit.core.userCredit.insert who
        (newData s.credit who (Level.gap (Level.ofU8 dst) (Level.ofU8 (levelOf score)))
          (some s.credit.defaultCampaign)) ∧
      DelegatesToOne s' who order := by
  unfold doStakingDelegate at h
  simp only at h
  split at h
  · cases h
  · split at h
    · cases h
    · rename_i h0 h1
      split at h
      · cases h
      · rename_i score hs
        rw [toU8_ofScore] at h
        split at h
        · cases h
        · rename_i h2
          unfold pay at h
          split at h
          · cases h
          · rename_i b hb
            simp only [Except.bind, addCredit] at h
            obtain ⟨c', hc, hu, _, _⟩ := addOrUpdate_ok cfg.credit s.credit who
              (Level.gap (Level.ofU8 dst) (Level.ofU8 (levelOf score))) (some s.credit.defaultCampaign)
            rw [hc] at h
            simp only [delegateAbove] at h
            rw [if_pos (by omega)] at h
            obtain ⟨d1, d2, d3, _, d5⟩ := delegateAny_ok h
            refine ⟨score, b, hs, by unfold dprPrices; omega, by omega, hb, ?_, ?_, ?_, d5⟩
            · rw [d1]
            · rw [d2]; rfl
            · rw [d3]; exact hu

/-! ### C48 -/

/-- Staking for credit to a level that exists (at most eight): either nothing changes, or the account pays
exactly the difference of the prices of the two levels to the account of the staking pallet, ends at the
target level and delegates to one validator; no other balance and no other credit changes. A price list that
falls from the old level to the target counts as a difference of zero.

Missing for the full property: price lists with more than nine entries offer levels above eight, for which
the property is false, see `C48_level_nine`. -/
theorem C48_partial (cfg : Cfg) (s : State) (who : AccId) (signed : Bool) (dst : Nat) (order : List AccId)
    (hw : who ≠ cfg.pallet) (h8 : dst ≤ 8) :
    (∃ e, step cfg s (.stake who signed dst order) = (s, .failed e)) ∨
    ∃ s' score score' charge,
      step cfg s (.stake who signed dst order) = (s', .raised who dst) ∧
      scoreOf s who = some score ∧ scoreOf s' who = some score' ∧
      levelOf score < dst ∧ levelOf score' = dst ∧ dst < (dprPrices s who).length ∧
      charge = (dprPrices s who).getD dst 0 - (dprPrices s who).getD (levelOf score) 0 ∧
      free s' who + charge = free s who ∧ free s' cfg.pallet = free s cfg.pallet + charge ∧
      (s'.balances.get who).getD 0 = (s.balances.get who).getD 0 + charge ∧
      (∀ a, a ≠ who → a ≠ cfg.pallet → free s' a = free s a) ∧
      (∀ a, a ≠ who → scoreOf s' a = scoreOf s a ∧ s'.balances.get a = s.balances.get a) ∧
      DelegatesToOne s' who order := by
  unfold step
  simp only
  split
  · exact .inl ⟨_, rfl⟩
  · split
    · exact .inl ⟨_, rfl⟩
    · rename_i s' h
      obtain ⟨score, b, hs, hl, hlt, hb, hb', hbal, hu, hd⟩ := stake_ok h
      have hx := Bank.transfer_exact hb hw
      rw [gap_eq h8 (levelOf_le _)] at hu
      refine .inr ⟨s', score, score + 100 * (dst - levelOf score), _, rfl, hs, ?_, hlt, ?_, hl, rfl, ?_, ?_, ?_,
        ?_, ?_, hd⟩
      · unfold scoreOf Credit.creditScore
        rw [hu, FMap.get_insert_self]
        simp only [Option.map_some]
        rw [newData_credit hs (by unfold levelOf at hlt ⊢; omega)]
      · unfold levelOf at hlt ⊢; omega
      · unfold free; rw [hb']; exact hx.1
      · unfold free; rw [hb']; exact hx.2.1
      · rw [hbal, FMap.get_insert_self]; rfl
      · intro a h1 h2
        unfold free; rw [hb']
        show (b.acct a).free = (s.dele.led.bank.acct a).free
        rw [hx.2.2.2.2.1 a h1 h2]
      · intro a ha
        refine ⟨?_, ?_⟩
        · unfold scoreOf Credit.creditScore
          rw [hu, FMap.get_insert_ne _ _ ha]
        · rw [hbal, FMap.get_insert_ne _ _ ha]

/-- The call succeeds whenever the target level is offered and higher than the present one, the account can
pay without being reaped, and there are validators. -/
theorem C48_accepts (cfg : Cfg) (s : State) (who : AccId) (dst score : Nat) (order : List AccId) (b : Bank)
    (hs : scoreOf s who = some score) (hl : dst < (dprPrices s who).length) (hlt : levelOf score < dst)
    (h8 : dst ≤ 8) (ho : order ≠ []) (hm : cfg.credit.minCredit ≤ 100)
    (hb : s.dele.led.bank.transfer who cfg.pallet
      ((dprPrices s who).getD dst 0 - (dprPrices s who).getD (levelOf score) 0) true = .ok b) :
    (step cfg s (.stake who true dst order)).2 = .raised who dst := by
  have key : ∃ s', doStakingDelegate cfg s who dst order = .ok s' := by
    unfold doStakingDelegate
    simp only
    unfold dprPrices at hl hb
    unfold scoreOf at hs
    rw [if_neg (by omega), if_neg (by omega), hs]
    simp only
    rw [toU8_ofScore, if_neg (by omega)]
    unfold pay
    rw [hb]
    obtain ⟨c', hc, hu, _, _⟩ := addOrUpdate_ok cfg.credit s.credit who
      (Level.gap (Level.ofU8 dst) (Level.ofU8 (levelOf score))) (some s.credit.defaultCampaign)
    simp only [Except.bind, addCredit]
    rw [hc]
    simp only [delegateAbove]
    rw [if_pos (by omega)]
    refine delegateAny_succeeds ho ?_
    unfold Credit.passThreshold
    simp only
    rw [hu, FMap.get_insert_self]
    simp only [Credit.passData, decide_eq_true_eq]
    rw [gap_eq h8 (levelOf_le _), newData_credit hs (by unfold levelOf at hlt ⊢; omega)]
    unfold levelOf at hlt ⊢
    omega
  obtain ⟨s', h⟩ := key
  unfold step
  simp only
  rw [if_neg (by decide), h]

/-! ### C69 -/

theorem climb_spec (p : List Balance) (cur : Nat) (rem : Balance) :
    ∀ fuel dst, p.length ≤ dst + fuel →
      dst ≤ climb p cur rem fuel dst ∧
      (climb p cur rem fuel dst = dst ∨
        (climb p cur rem fuel dst < p.length ∧ p.getD (climb p cur rem fuel dst) 0 - p.getD cur 0 ≤ rem)) ∧
      (climb p cur rem fuel dst + 1 < p.length →
        rem < p.getD (climb p cur rem fuel dst + 1) 0 - p.getD cur 0) := by
  intro fuel
  induction fuel with
  | zero => intro dst h; unfold climb; exact ⟨Nat.le_refl _, .inl rfl, fun h' => by omega⟩
  | succ n ih =>
    intro dst h
    simp only [climb]
    split
    · rename_i h1
      split
      · rename_i h2
        obtain ⟨a, b, c⟩ := ih (dst + 1) (by omega)
        refine ⟨by omega, ?_, c⟩
        rcases b with b | b
        · refine .inr ?_
          rw [b]
          exact ⟨by omega, h2⟩
        · exact .inr b
      · exact ⟨Nat.le_refl _, .inl rfl, fun _ => by omega⟩
    · exact ⟨Nat.le_refl _, .inl rfl, fun h' => by omega⟩

/-- What a successful call does. -/
theorem usdt_ok {cfg : Cfg} {s s' : State} {who : AccId} {usdt dpr : Balance} {dst : Nat} {order : List AccId}
    (h : doUsdt cfg s who usdt dpr order = .ok (s', dst)) :
    ∃ cur rem, entry (usdtPrices s who) (scoreOf s who) usdt = some (cur, rem) ∧
      dst = climb (usdtPrices s who) cur rem (usdtPrices s who).length cur ∧
      s'.dele.led = s.dele.led ∧ s'.balances = s.balances ∧
      s'.credit.core.userCredit = s.credit.core.userCredit.insert who
        (newData s.credit who (Level.gap (Level.ofU8 dst) (Level.ofU8 cur)) (some s.credit.defaultUsdtCampaign)) ∧
      s'.credit.stakingBalance = (Credit.setStakingBalance s.credit who usdt dpr).stakingBalance ∧
      (0 < dst → DelegatesToOne s' who order) := by
  unfold doUsdt at h
  simp only at h
  split at h
  · cases h
  · split at h
    · cases h
    · rename_i cur rem he
      obtain ⟨c', hc, hu, _, hsb⟩ := addOrUpdate_ok cfg.credit s.credit who
        (Level.gap (Level.ofU8 (climb (usdtPrices s who) cur rem (usdtPrices s who).length cur)) (Level.ofU8 cur))
        (some s.credit.defaultUsdtCampaign)
      unfold usdtPrices at hc
      simp only [addCredit] at h
      rw [hc] at h
      simp only [Except.bind, delegateAbove] at h
      refine ⟨cur, rem, he, ?_⟩
      have hset : (Credit.setStakingBalance c' who usdt dpr).stakingBalance =
          (Credit.setStakingBalance s.credit who usdt dpr).stakingBalance := by
        unfold Credit.setStakingBalance; simp only [hsb]
      have hcore : (Credit.setStakingBalance c' who usdt dpr).core = c'.core := rfl
      split at h
      · rename_i hpos
        cases hd : delegateAny cfg { s with credit := Credit.setStakingBalance c' who usdt dpr } who order with
        | error e => rw [hd] at h; cases h
        | ok s2 =>
          rw [hd] at h
          simp only [Except.map, Except.ok.injEq, Prod.mk.injEq] at h
          obtain ⟨h1, h2⟩ := h
          subst h1 h2
          obtain ⟨d1, d2, d3, d4, d5⟩ := delegateAny_ok hd
          exact ⟨rfl, d1, d2, d3.trans hu, d4.trans hset, fun _ => d5⟩
      · rename_i hpos
        simp only [Except.map, Except.ok.injEq, Prod.mk.injEq] at h
        obtain ⟨h1, h2⟩ := h
        subst h1 h2
        exact ⟨rfl, rfl, rfl, hu, hset, fun hp => absurd hp hpos⟩

/-- The amounts recorded as staked for an account (USDT and DPR). -/
def staked (s : State) (a : AccId) : Balance × Balance := (s.credit.stakingBalance.get a).getD (0, 0)

/-- The level an amount of USDT reaches from scratch (`none`) or from the level of the present score: its
price, less the price of the present level, is covered, and no higher level of the list is covered. -/
def Reaches (prices : List Balance) (score : Option Nat) (usdt : Balance) (level : Nat) : Prop :=
  match score with
  | none => prices.getD level 0 ≤ usdt ∧ ∀ l, l < prices.length → prices.getD l 0 ≤ usdt → l ≤ level
  | some n => levelOf n ≤ level ∧ prices.getD level 0 - prices.getD (levelOf n) 0 ≤ usdt ∧
      ∀ l, l < prices.length → prices.getD l 0 - prices.getD (levelOf n) 0 ≤ usdt → l ≤ level

/-- Staking with USDT through an admin: either nothing changes, or the account ends at the highest level the
amount pays for, both amounts are added to the record of the account, and no balance is touched. The price
list is increasing and has no levels above eight. -/
theorem C69_usdt (cfg : Cfg) (s : State) (admin who : AccId) (usdt dpr : Balance) (order : List AccId)
    (hlen : (usdtPrices s who).length ≤ 9)
    (hmono : ∀ i j, i ≤ j → j < (usdtPrices s who).length → (usdtPrices s who).getD i 0 ≤ (usdtPrices s who).getD j 0) :
    (∃ e, step cfg s (.usdt admin who usdt dpr order) = (s, .failed e)) ∨
    ∃ s' dst score',
      step cfg s (.usdt admin who usdt dpr order) = (s', .raised who dst) ∧ s.credit.isAdmin admin = true ∧
      Reaches (usdtPrices s who) (scoreOf s who) usdt dst ∧
      scoreOf s' who = some score' ∧ levelOf score' = dst ∧
      staked s' who = ((staked s who).1 + usdt, (staked s who).2 + dpr) ∧
      (∀ a, free s' a = free s a) ∧
      (∀ a, a ≠ who → scoreOf s' a = scoreOf s a ∧ staked s' a = staked s a) ∧
      (0 < dst → DelegatesToOne s' who order) := by
  unfold step
  simp only
  split
  · exact .inl ⟨_, rfl⟩
  · rename_i hadm
    split
    · exact .inl ⟨_, rfl⟩
    · rename_i s' dst h
      obtain ⟨cur, rem, he, hd, hled, _, hu, hst, hdel⟩ := usdt_ok h
      obtain ⟨c1, c2, c3⟩ := climb_spec (usdtPrices s who) cur rem (usdtPrices s who).length cur (by omega)
      rw [← hd] at c1 c2 c3
      have hcur : cur ≤ 8 := by
        unfold entry at he
        split at he
        · cases he; rw [toU8_ofScore]; exact levelOf_le _
        · split at he
          · cases he
          · cases he; omega
      have hdst : dst ≤ 8 := by rcases c2 with c2 | c2 <;> omega
      have hmax : ∀ l, l < (usdtPrices s who).length →
          (usdtPrices s who).getD l 0 - (usdtPrices s who).getD cur 0 ≤ rem → l ≤ dst := by
        intro l hl hle
        by_contra hgt
        have h1 := c3 (by omega)
        have h2 := hmono (dst + 1) l (by omega) hl
        omega
      have hpay : (usdtPrices s who).getD dst 0 - (usdtPrices s who).getD cur 0 ≤ rem := by
        rcases c2 with c2 | c2
        · rw [c2]; omega
        · exact c2.2
      rw [gap_eq hdst hcur] at hu
      refine .inr ⟨s', dst, (newData s.credit who (100 * (dst - cur)) (some s.credit.defaultUsdtCampaign)).credit, rfl,
        by simpa using hadm, ?_, ?_, ?_, ?_, ?_, ?_, hdel⟩
      · unfold Reaches
        unfold entry at he
        split at he
        · rename_i n hn
          cases he
          rw [toU8_ofScore] at *
          simp only [hn]
          exact ⟨c1, hpay, hmax⟩
        · rename_i hn
          split at he
          · cases he
          · rename_i h0
            cases he
            simp only [hn]
            refine ⟨?_, fun l hl hle => hmax l hl (by omega)⟩
            rcases c2 with c2 | c2
            · rw [c2]; omega
            · omega
      · unfold scoreOf Credit.creditScore
        rw [hu, FMap.get_insert_self]
        rfl
      · unfold newData
        unfold entry at he
        cases hq : s.credit.core.userCredit.get who with
        | none =>
          have hn : scoreOf s who = none := by unfold scoreOf Credit.creditScore; rw [hq]; rfl
          rw [hn] at he
          simp only at he
          split at he
          · cases he
          · cases he
            simp only [Credit.Data.new, levelOf]
            omega
        | some d =>
          have hn : scoreOf s who = some d.credit := by unfold scoreOf Credit.creditScore; rw [hq]; rfl
          rw [hn] at he
          simp only [Option.some.injEq, Prod.mk.injEq] at he
          rw [toU8_ofScore] at he
          obtain ⟨he1, _⟩ := he
          simp only [Credit.Data.update, Credit.satAdd64, Credit.u64Max]
          unfold levelOf at he1 ⊢
          omega
      · unfold staked
        rw [hst]
        unfold Credit.setStakingBalance
        simp only
        rw [FMap.get_insert_self]
        cases hq : s.credit.stakingBalance.get who with
        | none => simp
        | some p => simp
      · intro a; unfold free; rw [hled]
      · intro a ha
        refine ⟨?_, ?_⟩
        · unfold scoreOf Credit.creditScore
          rw [hu, FMap.get_insert_ne _ _ ha]
        · unfold staked
          rw [hst]
          unfold Credit.setStakingBalance
          simp only
          rw [FMap.get_insert_ne _ _ ha]

/-! ### Examples and the failing case -/

def exCfg : Cfg := ⟨Credit.exCfg, Delegation.exCfg, 99⟩

/-- Accounts 1 and 2 have 1000 units each; account 1 has a credit score of 130, account 2 none. -/
def exState (prices : List Balance) : State :=
  { credit := { Credit.genesis Delegation.exBank [] [(1, Credit.Data.new 8 130)] with
      creditBalances := prices, usdtCreditBalances := [50, 75, 125, 200], isAdmin := fun a => decide (a = 4) }
    dele := (Delegation.run Delegation.exCfg (Delegation.genesis Delegation.exBank 10) Delegation.exStart).1
    balances := ∅ }

example : let r := step exCfg (exState [0, 50, 120, 200]) (.stake 1 true 3 [1, 2])
    r.2 = .raised 1 3 ∧ free r.1 1 = 850 ∧ free r.1 99 = 150 ∧ scoreOf r.1 1 = some 330 ∧
    r.1.balances.get 1 = some 150 := by decide +kernel

example : (step exCfg (exState [0, 50, 120, 200]) (.stake 1 true 1 [1, 2])).2 = .failed .targetLow ∧
    (step exCfg (exState [0, 50, 120, 200]) (.stake 1 true 3 [])).2 = .failed (.delegation .noValidators) ∧
    (step exCfg (exState [0, 50, 120, 2000]) (.stake 1 true 3 [1, 2])).2 = .failed .bank := by decide +kernel

/-- A price list that falls: the higher level is free. -/
example : let r := step exCfg (exState [0, 50, 40]) (.stake 1 true 2 [1, 2])
    r.2 = .raised 1 2 ∧ free r.1 1 = 1000 ∧ scoreOf r.1 1 = some 230 := by decide +kernel

/-- A list of ten prices: the account pays for level nine, which does not exist, and its score does not
change. -/
theorem C48_level_nine :
    let s := exState [0, 50, 100, 150, 200, 250, 300, 350, 400, 450]
    let r := step exCfg s (.stake 1 true 9 [1, 2])
    r.2 = .raised 1 9 ∧ free s 1 = 1000 ∧ free r.1 1 = 600 ∧ free r.1 99 = 400 ∧
    scoreOf s 1 = some 130 ∧ scoreOf r.1 1 = some 130 := by decide +kernel

example : let r := step exCfg (exState []) (.usdt 4 2 130 7 [1, 2])
    r.2 = .raised 2 2 ∧ scoreOf r.1 2 = some 200 ∧ staked r.1 2 = (130, 7) ∧
    (usdtPrices (exState []) 2).length = 4 ∧
    (step exCfg (exState []) (.usdt 4 2 49 7 [1, 2])).2 = .failed .notEnough ∧
    (step exCfg r.1 (.usdt 4 2 74 0 [1, 2])).2 = .raised 2 2 ∧
    scoreOf (step exCfg r.1 (.usdt 4 2 75 0 [1, 2])).1 2 = some 300 := by decide +kernel

end Verif.StakingCredit
