import Verif.StakingCreditProperties

/-
Property C101 of staking for credit: when the calls succeed, which prices apply, and what is recorded.
-/

namespace Verif.StakingCredit

open Verif.Credit (Level)

/-! ### Specification -/

/-- The account can pay and stays alive: the free balance suffices, what is left covers the locks
(reserved balance counts for them) and the existential deposit, and the receiver gets an account. -/
def canPay (b : Bank) (src dst : AccId) (v : Balance) : Prop :=
  v = 0 ∨ src = dst ∨ (v ≤ b.free src ∧ b.frozen src ≤ b.free src - v + b.reserved src ∧
    b.ed ≤ b.free src - v ∧ b.ed ≤ b.free dst + v)

/-- The campaign of an account, if it has credit. -/
def campaignOf (s : State) (a : AccId) : Option Nat := (s.credit.core.userCredit.get a).map Credit.Data.campaign

/-- Prices in DPR of a campaign: the genesis list for the first two, no offer for campaigns 3 and 5 and
unknown ones, otherwise the common list. -/
def dprList (s : State) (campaign : Nat) : List Balance :=
  if campaign ∈ [0, 1] then s.credit.genesisCreditBalances
  else if campaign ∈ [2, 4, 6, 7, 8] then s.credit.creditBalances
  else []

/-! ### Prices -/

/-- C101, prices. DPR prices are those of the account's own campaign, of the default campaign without
credit; accounts of the USDT campaign are offered none. USDT prices are offered to accounts without
credit and to those of the USDT campaign. -/
theorem C101_prices (s : State) (a : AccId) (hd : s.credit.defaultCampaign ∈ [0, 1, 2, 3, 4, 6, 7, 8])
    (hu : s.credit.defaultUsdtCampaign = 5) :
    dprPrices s a = dprList s ((campaignOf s a).getD s.credit.defaultCampaign) ∧
    (campaignOf s a = none ∨ campaignOf s a = some 5 → usdtPrices s a = s.credit.usdtCreditBalances) ∧
    (∀ c, campaignOf s a = some c → c ≠ 5 → usdtPrices s a = []) := by
  unfold dprPrices usdtPrices campaignOf Credit.creditBalance Credit.sameCampaignType dprList
  rw [hu]
  cases h : (s.credit.core.userCredit.get a).map Credit.Data.campaign with
  | none =>
    simp only [List.mem_cons, List.not_mem_nil, or_false] at hd
    refine ⟨?_, fun _ => rfl, fun c hc => (by cases hc)⟩
    rcases hd with e | e | e | e | e | e | e | e <;> rw [e] <;> rfl
  | some c =>
    have hr : ∀ x, [0, 1, 2, 3, 4, 6, 7, 8].contains x = true ↔ x ∈ [0, 1, 2, 3, 4, 6, 7, 8] := by
      intro x; simp
    have hdc : [0, 1, 2, 3, 4, 6, 7, 8].contains s.credit.defaultCampaign = true := (hr _).2 hd
    have h5 : [5].contains s.credit.defaultCampaign = false := by
      simp only [List.mem_cons, List.not_mem_nil, or_false] at hd
      rcases hd with e | e | e | e | e | e | e | e <;> rw [e] <;> rfl
    simp only [hdc, h5, Bool.and_true, Bool.and_false, Bool.false_or, Option.getD_some]
    refine ⟨?_, ?_, ?_⟩
    · by_cases hm : c ∈ [0, 1, 2, 3, 4, 6, 7, 8]
      · simp only [List.mem_cons, List.not_mem_nil, or_false] at hm
        rcases hm with e | e | e | e | e | e | e | e <;> subst e <;> rfl
      · have : ([0, 1, 2, 3, 4, 6, 7, 8] : List Nat).contains c = false := by
          cases hx : ([0, 1, 2, 3, 4, 6, 7, 8] : List Nat).contains c with
          | false => rfl
          | true => exact absurd ((hr c).1 hx) hm
        simp only [List.mem_cons, List.not_mem_nil, or_false] at hm ⊢
        have h1 : ¬(c = 0 ∨ c = 1) := by omega
        have h2 : ¬(c = 2 ∨ c = 4 ∨ c = 6 ∨ c = 7 ∨ c = 8) := by omega
        simp only [this, h1, h2, if_false]
        rfl
    · rintro (h | h)
      · cases h
      · cases h; rfl
    · intro c' hc hne
      cases hc
      have : ([5] : List Nat).contains c = false := by simp [hne]
      have h2 : ([0, 1, 2, 3, 4, 6, 7, 8] : List Nat).contains 5 = false := rfl
      simp only [this, h2, Bool.false_and, Bool.and_false, Bool.or_false]
      rfl

/-! ### Acceptance -/

theorem transfer_iff (b : Bank) (src dst : AccId) (v : Balance) :
    (∃ b', b.transfer src dst v true = .ok b') ↔ canPay b src dst v := by
  unfold Bank.transfer canPay
  by_cases h0 : v = 0 ∨ src = dst
  · rw [if_pos h0]
    exact ⟨fun _ => h0.elim Or.inl fun h => Or.inr (Or.inl h), fun _ => ⟨_, rfl⟩⟩
  rw [if_neg h0]
  have hv : v ≠ 0 := fun h => h0 (Or.inl h)
  have hs : src ≠ dst := fun h => h0 (Or.inr h)
  have hno : ∀ {e : BankErr}, (∃ b', (Except.error e : Except BankErr Bank) = .ok b') → False := by
    rintro e ⟨_, h⟩; cases h
  by_cases h1 : b.free src < v
  · rw [if_pos h1]
    exact ⟨fun h => (hno h).elim, fun h => by rcases h with h | h | h; exact absurd h hv; exact absurd h hs; omega⟩
  rw [if_neg h1]
  by_cases h2 : b.free src - v < b.frozen src - b.reserved src
  · rw [if_pos h2]
    exact ⟨fun h => (hno h).elim, fun h => by rcases h with h | h | h; exact absurd h hv; exact absurd h hs; omega⟩
  rw [if_neg h2]
  by_cases h3 : b.free src - v < b.ed
  · rw [if_pos ⟨rfl, h3⟩]
    exact ⟨fun h => (hno h).elim, fun h => by rcases h with h | h | h; exact absurd h hv; exact absurd h hs; omega⟩
  rw [if_neg (fun h => h3 h.2), if_neg (fun h => h3 h.1)]
  by_cases h4 : b.free dst + v < b.ed
  · rw [if_pos h4]
    exact ⟨fun h => (hno h).elim, fun h => by rcases h with h | h | h; exact absurd h hv; exact absurd h hs; omega⟩
  rw [if_neg h4]
  exact ⟨fun _ => Or.inr (Or.inr (by omega)), fun _ => ⟨_, rfl⟩⟩

theorem delegateAny_needs {cfg : Cfg} {s s' : State} {who : AccId} {order : List AccId}
    (h : delegateAny cfg s who order = .ok s') : order ≠ [] := by
  obtain ⟨_, _, _, _, d, v, _, _, _, hm⟩ := delegateAny_ok h
  intro e; rw [e] at hm; cases hm

/-- C101, staking with DPR. The call succeeds exactly if the report is signed, the level is offered to
the account, above the present one, the account has credit, can pay the difference of the prices and
stays alive, and there is a validator to delegate to. (The list offers no level above eight, and the
credit needed for delegating is at most that of level one.) -/
theorem C101_stake (cfg : Cfg) (s : State) (who : AccId) (signed : Bool) (dst : Nat) (order : List AccId)
    (hlen : (dprPrices s who).length ≤ 9) (hm : cfg.credit.minCredit ≤ 100) :
    ((step cfg s (.stake who signed dst order)).2 = .raised who dst ↔
      signed = true ∧ dst < (dprPrices s who).length ∧ order ≠ [] ∧
      ∃ score, scoreOf s who = some score ∧ levelOf score < dst ∧
        canPay s.dele.led.bank who cfg.pallet
          ((dprPrices s who).getD dst 0 - (dprPrices s who).getD (levelOf score) 0)) ∧
    ((step cfg s (.stake who signed dst order)).2 ≠ .raised who dst →
      (step cfg s (.stake who signed dst order)).1 = s) := by
  constructor
  · constructor
    · intro h
      cases signed with
      | false => cases h
      | true =>
        cases hd : doStakingDelegate cfg s who dst order with
        | error e =>
          have : (step cfg s (.stake who true dst order)).2 = .failed e := by
            simp only [step]; rw [if_neg (by decide), hd]
          rw [this] at h; cases h
        | ok s' =>
          obtain ⟨score, b, h1, h2, h3, h4, _, _, _, h8⟩ := stake_ok hd
          obtain ⟨_, v, _, _, _, hv⟩ := h8
          exact ⟨rfl, h2, fun e => (by rw [e] at hv; cases hv), score, h1, h3,
            (transfer_iff _ _ _ _).1 ⟨b, h4⟩⟩
    · rintro ⟨rfl, h1, h2, score, h3, h4, h5⟩
      obtain ⟨b, hb⟩ := (transfer_iff _ _ _ _).2 h5
      exact C48_accepts cfg s who dst score order b h3 h1 h4 (by omega) h2 hm hb
  · simp only [step]
    cases signed with
    | false => exact fun _ => rfl
    | true =>
      rw [if_neg (by decide)]
      cases doStakingDelegate cfg s who dst order with
      | error e => exact fun _ => rfl
      | ok s' => exact fun h => absurd rfl h

/-- C101, staking with USDT. The call succeeds exactly if the caller is a credit admin, USDT levels are
offered to the account, the amount covers the first price for an account without credit, and either
there is a validator to delegate to or the account stays at level zero. -/
theorem C101_usdt (cfg : Cfg) (s : State) (admin who : AccId) (usdt dpr : Balance) (order : List AccId)
    (hlen : (usdtPrices s who).length ≤ 9) (hm : cfg.credit.minCredit ≤ 100)
    (hmono : ∀ i j, i ≤ j → j < (usdtPrices s who).length → (usdtPrices s who).getD i 0 ≤ (usdtPrices s who).getD j 0) :
    (∃ dst, (step cfg s (.usdt admin who usdt dpr order)).2 = .raised who dst) ↔
      s.credit.isAdmin admin = true ∧ usdtPrices s who ≠ [] ∧
      (scoreOf s who = none → (usdtPrices s who).getD 0 0 ≤ usdt) ∧
      (order ≠ [] ∨ Reaches (usdtPrices s who) (scoreOf s who) usdt 0) := by
  constructor
  · rintro ⟨dst, h⟩
    have ha : s.credit.isAdmin admin = true := by
      cases ha : s.credit.isAdmin admin with
      | true => rfl
      | false =>
        have : (step cfg s (.usdt admin who usdt dpr order)).2 = .failed .unauthorized := by
          simp only [step]; rw [if_pos ha]
        rw [this] at h; cases h
    have hp : usdtPrices s who ≠ [] ∧ (scoreOf s who = none → (usdtPrices s who).getD 0 0 ≤ usdt) := by
      cases hd : doUsdt cfg s who usdt dpr order with
      | error e =>
        have : (step cfg s (.usdt admin who usdt dpr order)).2 = .failed e := by
          simp only [step]; rw [if_neg (by rw [ha]; decide), hd]
        rw [this] at h; cases h
      | ok r =>
        obtain ⟨s', d⟩ := r
        obtain ⟨cur, rem, he, _⟩ := usdt_ok hd
        refine ⟨fun hn => ?_, fun hn => ?_⟩
        · unfold doUsdt at hd
          simp only at hd
          rw [if_pos (by unfold usdtPrices at hn; rw [hn]; rfl)] at hd
          cases hd
        · rw [hn] at he
          unfold entry at he
          simp only at he
          split at he
          · cases he
          · omega
    refine ⟨ha, hp.1, hp.2, ?_⟩
    rcases C69_usdt cfg s admin who usdt dpr order hlen hmono with ⟨e, he⟩ | ⟨s', d, _, he, _, hr, _, _, _, _, _, hdel⟩
    · rw [he] at h; cases h
    · by_cases hd : d = 0
      · subst hd; exact Or.inr hr
      · obtain ⟨_, v, _, _, _, hv⟩ := hdel (by omega)
        exact Or.inl fun e => (by rw [e] at hv; cases hv)
  · rintro ⟨ha, hp, hs, ho⟩
    have hp' : Credit.creditBalance s.credit who (some s.credit.defaultUsdtCampaign) ≠ [] := hp
    have hex : ∃ cur rem, entry (usdtPrices s who) (scoreOf s who) usdt = some (cur, rem) ∧ cur ≤ 8 := by
      unfold entry
      cases hq : scoreOf s who with
      | none =>
        simp only
        rw [if_neg (by have := hs hq; omega)]
        exact ⟨_, _, rfl, by omega⟩
      | some n => exact ⟨_, _, rfl, by rw [toU8_ofScore]; exact levelOf_le _⟩
    obtain ⟨cur, rem, he, hcur⟩ := hex
    obtain ⟨c1, c2, c3⟩ := climb_spec (usdtPrices s who) cur rem (usdtPrices s who).length cur (by omega)
    have hdst : climb (usdtPrices s who) cur rem (usdtPrices s who).length cur ≤ 8 := by
      rcases c2 with c2 | c2 <;> omega
    have key : ∃ r, doUsdt cfg s who usdt dpr order = .ok r := by
      unfold doUsdt
      simp only
      rw [if_neg (by intro h; exact hp' (List.length_eq_zero_iff.1 h))]
      have he' : entry (Credit.creditBalance s.credit who (some s.credit.defaultUsdtCampaign))
          (Credit.creditScore s.credit.core who) usdt = some (cur, rem) := he
      rw [he']
      simp only
      obtain ⟨c', hc, hu, _, hsb⟩ := addOrUpdate_ok cfg.credit s.credit who
        (Level.gap (Level.ofU8 (climb (usdtPrices s who) cur rem (usdtPrices s who).length cur)) (Level.ofU8 cur))
        (some s.credit.defaultUsdtCampaign)
      unfold usdtPrices at hc
      simp only [addCredit]
      rw [hc]
      simp only [Except.bind, delegateAbove]
      generalize hcl : climb (usdtPrices s who) cur rem (usdtPrices s who).length cur = dst at *
      have hcl' : climb (Credit.creditBalance s.credit who (some s.credit.defaultUsdtCampaign)) cur rem
        (Credit.creditBalance s.credit who (some s.credit.defaultUsdtCampaign)).length cur = dst := hcl
      rw [hcl']
      by_cases hz : 0 < dst
      · rw [if_pos hz]
        have hne : order ≠ [] := by
          rcases ho with ho | ho
          · exact ho
          · exfalso
            unfold Reaches at ho
            unfold entry at he
            cases hq : scoreOf s who with
            | none =>
              rw [hq] at he ho
              simp only at he ho
              rw [if_neg (by have := hs hq; omega)] at he
              simp only [Option.some.injEq, Prod.mk.injEq] at he
              obtain ⟨rfl, rfl⟩ := he
              rcases c2 with c2 | c2
              · omega
              · have := ho.2 dst c2.1 (by have := hs hq; omega)
                omega
            | some n =>
              rw [hq] at he ho
              simp only [Option.some.injEq, Prod.mk.injEq] at he
              obtain ⟨rfl, rfl⟩ := he
              rw [toU8_ofScore] at *
              rcases c2 with c2 | c2
              · omega
              · have := ho.2.2 dst c2.1 c2.2
                omega
        have hpass : Credit.passThreshold cfg.credit (Credit.setStakingBalance c' who usdt dpr) who = true := by
          unfold Credit.passThreshold Credit.setStakingBalance
          simp only
          rw [hu, FMap.get_insert_self]
          simp only [Credit.passData, decide_eq_true_eq]
          rw [gap_eq hdst hcur]
          unfold newData
          cases hq : s.credit.core.userCredit.get who with
          | none =>
            have hn : scoreOf s who = none := by unfold scoreOf Credit.creditScore; rw [hq]; rfl
            rw [hn] at he
            unfold entry at he
            simp only at he
            rw [if_neg (by have := hs hn; omega)] at he
            simp only [Option.some.injEq, Prod.mk.injEq] at he
            obtain ⟨rfl, _⟩ := he
            simp only [Credit.Data.new]
            omega
          | some d =>
            have hn : scoreOf s who = some d.credit := by unfold scoreOf Credit.creditScore; rw [hq]; rfl
            rw [hn] at he
            unfold entry at he
            simp only [Option.some.injEq, Prod.mk.injEq] at he
            rw [toU8_ofScore] at he
            obtain ⟨he1, _⟩ := he
            simp only [Credit.Data.update, Credit.satAdd64, Credit.u64Max]
            unfold levelOf at he1
            omega
        obtain ⟨s2, h2⟩ := delegateAny_succeeds (cfg := cfg)
          (s := { s with credit := Credit.setStakingBalance c' who usdt dpr }) hne hpass
        rw [h2]
        exact ⟨_, rfl⟩
      · rw [if_neg hz]
        exact ⟨_, rfl⟩
    obtain ⟨⟨s', d⟩, hr⟩ := key
    refine ⟨d, ?_⟩
    simp only [step]
    rw [if_neg (by rw [ha]; decide), hr]

/-- C101, records. The campaign of the account stays, for a new account it is the default USDT campaign;
credit of others, and DPR paid in by anybody, stay. A credit admin, and nobody else, can delete the record
of the DPR an account paid in; that changes nothing else. -/
theorem C101_records (cfg : Cfg) (s : State) (admin who : AccId) (usdt dpr : Balance) (order : List AccId) :
    (∀ dst, (step cfg s (.usdt admin who usdt dpr order)).2 = .raised who dst →
      campaignOf (step cfg s (.usdt admin who usdt dpr order)).1 who =
        some ((campaignOf s who).getD s.credit.defaultUsdtCampaign) ∧
      (∀ a, a ≠ who → (step cfg s (.usdt admin who usdt dpr order)).1.credit.core.userCredit.get a =
        s.credit.core.userCredit.get a) ∧
      (step cfg s (.usdt admin who usdt dpr order)).1.balances = s.balances) ∧
    ((step cfg s (.unset admin who)).2 = .other ↔ s.credit.isAdmin admin = true) ∧
    (step cfg s (.unset admin who)).1.credit = s.credit ∧ (step cfg s (.unset admin who)).1.dele = s.dele ∧
    (s.credit.isAdmin admin = true → ∀ a, (step cfg s (.unset admin who)).1.balances.get a =
      if a = who then none else s.balances.get a) ∧
    (s.credit.isAdmin admin = false → (step cfg s (.unset admin who)).1 = s) := by
  refine ⟨fun dst h => ?_, ?_, ?_, ?_, ?_, ?_⟩
  · simp only [step] at h ⊢
    cases ha : s.credit.isAdmin admin with
    | false => rw [if_pos ha] at h; cases h
    | true =>
      rw [if_neg (by rw [ha]; decide)] at h
      rw [if_neg (by decide)]
      cases hd : doUsdt cfg s who usdt dpr order with
      | error e => rw [hd] at h; cases h
      | ok r =>
        obtain ⟨s', d⟩ := r
        obtain ⟨cur, rem, _, _, _, h2, h3, _⟩ := usdt_ok hd
        simp only
        refine ⟨?_, fun a ha => by rw [h3, FMap.get_insert_ne _ _ ha], h2⟩
        unfold campaignOf
        rw [h3, FMap.get_insert_self]
        unfold newData
        cases s.credit.core.userCredit.get who <;> rfl
  · simp only [step]
    cases ha : s.credit.isAdmin admin <;> simp
  · simp only [step]
    cases ha : s.credit.isAdmin admin <;> rfl
  · simp only [step]
    cases ha : s.credit.isAdmin admin <;> rfl
  · intro ha a
    simp only [step, ha]
    rw [if_neg (by decide)]
    exact FMap.get_erase _ _ _
  · intro ha
    simp only [step, ha]
    rw [if_pos trivial]

/-! ### History of the credit -/

theorem delegateAny_history {cfg : Cfg} {s s' : State} {who : AccId} {order : List AccId} {d : Credit.Data}
    (h : delegateAny cfg s who order = .ok s') (hd : s.dele.delegators.contains who = false)
    (hg : s.credit.core.userCredit.get who = some d) :
    Credit.historyOf s'.credit.core who = [(Credit.currentEra cfg.credit s.credit, d)] := by
  unfold delegateAny at h
  split at h
  · cases h
  · cases h
    simp only [hd, Bool.false_eq_true, if_false]
    unfold Credit.initDelegatorHistory
    rw [hg]
    simp [Credit.initHistory, Credit.historyOf]

/-- C101, history. An account that did not delegate before begins a new history of its credit with the
delegation, in the present era and with the credit after the call; rewards are computed from it. -/
theorem C101_history (cfg : Cfg) (s : State) (who : AccId) (hn : s.dele.delegators.contains who = false) :
    (∀ signed dst order, (step cfg s (.stake who signed dst order)).2 = .raised who dst →
      ∃ d, (step cfg s (.stake who signed dst order)).1.credit.core.userCredit.get who = some d ∧
        Credit.historyOf (step cfg s (.stake who signed dst order)).1.credit.core who =
          [(Credit.currentEra cfg.credit s.credit, d)]) ∧
    (∀ admin usdt dpr dst order, 0 < dst → (step cfg s (.usdt admin who usdt dpr order)).2 = .raised who dst →
      ∃ d, (step cfg s (.usdt admin who usdt dpr order)).1.credit.core.userCredit.get who = some d ∧
        Credit.historyOf (step cfg s (.usdt admin who usdt dpr order)).1.credit.core who =
          [(Credit.currentEra cfg.credit s.credit, d)]) := by
  constructor
  · intro signed dst order h
    simp only [step] at h ⊢
    cases signed with
    | false => cases h
    | true =>
      rw [if_neg (by decide)] at h ⊢
      cases hd : doStakingDelegate cfg s who dst order with
      | error e => rw [hd] at h; cases h
      | ok s' =>
        simp only
        obtain ⟨score, _, hs, _, hl, _, _, _, hu, _⟩ := stake_ok hd
        refine ⟨_, by rw [hu, FMap.get_insert_self], ?_⟩
        unfold doStakingDelegate at hd
        simp only at hd
        split at hd
        · cases hd
        · split at hd
          · cases hd
          · have hs' : Credit.creditScore s.credit.core who = some score := hs
            rw [hs'] at hd
            simp only at hd
            rw [toU8_ofScore] at hd
            split at hd
            · cases hd
            · unfold pay at hd
              split at hd
              · cases hd
              · simp only [Except.bind, addCredit] at hd
                obtain ⟨c', hc, hu', hb', _⟩ := addOrUpdate_ok cfg.credit s.credit who
                  (Level.gap (Level.ofU8 dst) (Level.ofU8 (levelOf score))) (some s.credit.defaultCampaign)
                rw [hc] at hd
                simp only [delegateAbove] at hd
                rw [if_pos (by omega)] at hd
                have := delegateAny_history (d := newData s.credit who
                  (Level.gap (Level.ofU8 dst) (Level.ofU8 (levelOf score))) (some s.credit.defaultCampaign)) hd hn
                  (by simp only; rw [hu', FMap.get_insert_self])
                rw [this]
                simp only [Credit.currentEra, hb']
  · intro admin usdt dpr dst order hpos h
    simp only [step] at h ⊢
    cases ha : s.credit.isAdmin admin with
    | false => rw [if_pos ha] at h; cases h
    | true =>
      rw [if_neg (by rw [ha]; decide)] at h
      rw [if_neg (by decide)]
      cases hd : doUsdt cfg s who usdt dpr order with
      | error e => rw [hd] at h; cases h
      | ok r =>
        obtain ⟨s', d⟩ := r
        rw [hd] at h
        simp only at h
        cases h
        simp only
        obtain ⟨cur, rem, he, hcl, _, _, hu, _⟩ := usdt_ok hd
        refine ⟨_, by rw [hu, FMap.get_insert_self], ?_⟩
        unfold doUsdt at hd
        simp only at hd
        split at hd
        · cases hd
        · have he' : entry (Credit.creditBalance s.credit who (some s.credit.defaultUsdtCampaign))
              (Credit.creditScore s.credit.core who) usdt = some (cur, rem) := he
          have hcl' : climb (Credit.creditBalance s.credit who (some s.credit.defaultUsdtCampaign)) cur rem
            (Credit.creditBalance s.credit who (some s.credit.defaultUsdtCampaign)).length cur = dst := hcl.symm
          rw [he'] at hd
          simp only [hcl'] at hd
          obtain ⟨c', hc, hu', hb', _⟩ := addOrUpdate_ok cfg.credit s.credit who
            (Level.gap (Level.ofU8 dst) (Level.ofU8 cur)) (some s.credit.defaultUsdtCampaign)
          simp only [addCredit] at hd
          rw [hc] at hd
          simp only [Except.bind, delegateAbove] at hd
          rw [if_pos hpos] at hd
          cases hx : delegateAny cfg { s with credit := Credit.setStakingBalance c' who usdt dpr } who order with
          | error e => rw [hx] at hd; cases hd
          | ok s2 =>
            rw [hx] at hd
            simp only [Except.map, Except.ok.injEq, Prod.mk.injEq] at hd
            obtain ⟨h1, _⟩ := hd
            subst h1
            have := delegateAny_history (d := newData s.credit who (Level.gap (Level.ofU8 dst) (Level.ofU8 cur))
              (some s.credit.defaultUsdtCampaign)) hx hn
              (by simp only [Credit.setStakingBalance]; rw [hu', FMap.get_insert_self])
            rw [this]
            simp only [Credit.currentEra, Credit.setStakingBalance, hb']

/-- Without validators an account may get level zero for USDT, but no more; a list of DPR prices is not
offered to an account of the USDT campaign. -/
example :
    (step exCfg (exState []) (.usdt 4 2 60 7 [])).2 = .raised 2 0 ∧
    (step exCfg (exState []) (.usdt 4 2 80 7 [])).2 = .failed (.delegation .noValidators) ∧
    (step exCfg (exState []) (.usdt 3 2 80 7 [1])).2 = .failed .unauthorized ∧
    campaignOf (step exCfg (exState []) (.usdt 4 2 80 7 [1])).1 2 = some 5 ∧
    dprPrices (exState [0, 50, 120, 200]) 1 = [0, 50, 120, 200] ∧
    dprPrices (step exCfg (exState [0, 50, 120, 200]) (.usdt 4 2 80 7 [1])).1 2 = [] ∧
    (step exCfg (exState [0, 50, 120, 200]) (.stake 1 true 3 [1, 2])).1.balances.get 1 = some 150 ∧
    (step exCfg (step exCfg (exState [0, 50, 120, 200]) (.stake 1 true 3 [1, 2])).1 (.unset 4 1)).1.balances.get 1 = none := by
  decide +kernel

end Verif.StakingCredit
