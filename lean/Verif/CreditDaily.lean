import Verif.CreditLaw

/-
Property C81: the reward of one day.
-/

namespace Verif.Credit

/-! ### Specification -/

/-- `r` is one day's part of a yearly rate of `rate` percent on `stake`, up to 0.51 base units of
rounding and one part in five million (36500 = 365 days × 100 percent). -/
def DayShare (rate stake : Nat) (r : Balance) : Prop :=
  36500 * r ≤ rate * stake + 18368 ∧ rate * stake * 4999999 ≤ 5000000 * (36500 * r + 18368)

/-- `r` is the day's reward at a yearly rate under setting `c`: the day's part of the rate on the
stake of the level, less what is set aside for referees. -/
def NetDay (c : Setting) (rate : Nat) (r : Balance) : Prop :=
  ∃ g, DayShare rate c.stakingBalance g ∧ r = g - c.rewardPerReferee * c.maxReferees

/-- The setting of a campaign and level; all zero if there is none. -/
def settingOf (s : State) (campaign : Nat) (l : Level) : Setting :=
  (s.settings.get (campaign, l)).getD default

/-! ### Proof -/

theorem dayShare_of (rate stake : Nat) :
    DayShare rate stake (perbillMul 1 270 (perbillMul 270 365 (percentMul rate stake))) := by
  unfold DayShare
  have h1 := divNearestDown_bounds (stake * rate) 100 (by decide)
  change 2 * (stake * rate) ≤ 2 * (100 * percentMul rate stake) + 100 ∧
    2 * (100 * percentMul rate stake) < 2 * (stake * rate) + 100 at h1
  generalize percentMul rate stake = t1 at *
  have h2 := divNearestDown_bounds (t1 * 739726027) (10 ^ 9) (by decide)
  have e2 : divNearestDown (t1 * 739726027) (10 ^ 9) = perbillMul 270 365 t1 := by
    unfold perbillMul; rfl
  rw [e2] at h2
  generalize perbillMul 270 365 t1 = t2 at *
  have h3 := divNearestDown_bounds (t2 * 3703703) (10 ^ 9) (by decide)
  have e3 : divNearestDown (t2 * 3703703) (10 ^ 9) = perbillMul 1 270 t2 := by
    unfold perbillMul; rfl
  rw [e3] at h3
  generalize perbillMul 1 270 t2 = t3 at *
  rw [Nat.mul_comm stake rate] at h1
  generalize rate * stake = x at *
  simp only [Nat.reducePow] at h2 h3
  omega

/-- The table of daily rewards always agrees with the settings. -/
def Tabled (s : State) : Prop := ∀ k, s.dailyReward.get k = (s.settings.get k).map dailyRewardOf

theorem Tabled.updateSetting {s : State} (h : Tabled s) (c : Setting) : Tabled (updateSetting s c) := by
  intro k
  simp only [Credit.updateSetting, FMap.get_insert]
  split
  · rfl
  · exact h k

theorem Tabled.foldl {s : State} (h : Tabled s) (l : List Setting) : Tabled (l.foldl Credit.updateSetting s) := by
  induction l generalizing s with
  | nil => exact h
  | cons c l ih => exact ih (h.updateSetting c)

theorem Tabled.of_eq {s s' : State} (h : Tabled s) (h1 : s'.dailyReward = s.dailyReward)
    (h2 : s'.settings = s.settings) : Tabled s' := by
  intro k
  rw [h1, h2]
  exact h k

theorem body_tabled {cfg : Cfg} {s s' : State} {op : Op} {o : Out}
    (h : body cfg s op = .ok (s', o)) (hi : Tabled s) : Tabled s' := by
  cases op <;> simp only [body] at h
  case «initialize» =>
    cases h
    rcases onInitialize_cases cfg s with h1 | ⟨k, h1⟩ <;> rw [h1]
    · exact hi
    · exact hi.foldl _
  case finalize =>
    cases h
    unfold setPrice
    split
    · exact hi
    · exact hi
  case runtimeUpgrade =>
    cases h
    unfold onRuntimeUpgrade
    split
    · exact ((hi.foldl _).foldl _).of_eq rfl rfl
    · exact hi
  case updateCreditSetting c => cases h; exact hi.updateSetting c
  case addOrUpdateCreditData =>
    split at h
    · obtain ⟨_, h1, h2⟩ := map_ok h
      cases h2; exact hi.of_eq rfl rfl
    · cases h
  case burnForCredit =>
    obtain ⟨_, h1, h2⟩ := map_ok h
    cases h2
    obtain ⟨d, _, hg, _, _, rfl⟩ := burnForCredit_ok h1
    exact hi.of_eq rfl rfl
  case burnNft b cls ok =>
    obtain ⟨_, h1, h2⟩ := map_ok h
    cases h2
    obtain ⟨n, d, hn, hg, _, _, rfl⟩ := burnNft_ok h1
    exact hi.of_eq rfl rfl
  case traffic b =>
    obtain ⟨⟨x, y⟩, h1, h2⟩ := map_ok h
    cases h2
    have : x.dailyReward = s.dailyReward ∧ x.settings = s.settings := by
      unfold trafficCredit at h1
      split at h1
      · cases h1; exact ⟨rfl, rfl⟩
      · simp only at h1
        split at h1
        · split at h1
          · split at h1 <;> cases h1
            exact ⟨rfl, rfl⟩
          · cases h1; exact ⟨rfl, rfl⟩
        · cases h1; exact ⟨rfl, rfl⟩
    exact hi.of_eq this.1 this.2
  case unstakingSlash b =>
    obtain ⟨_, h1, h2⟩ := map_ok h
    cases h2
    obtain ⟨st, d, hst, hg, rfl⟩ := unstakingSlash_ok h1
    exact hi.of_eq rfl rfl
  case addOrUpdateCredit b gap camp =>
    obtain ⟨_, h1, h2⟩ := map_ok h
    cases h2
    unfold addOrUpdateCredit at h1
    obtain ⟨_, h3, h2⟩ := map_ok h1
    cases h2
    exact hi.of_eq rfl rfl
  case setDprPrice =>
    obtain ⟨_, h1, h2⟩ := map_ok h
    cases h2
    obtain ⟨_, _, _, rfl⟩ := setDprPrice_ok h1
    exact hi.of_eq rfl rfl
  case setMaintain =>
    obtain ⟨_, h1, h2⟩ := map_ok h
    cases h2
    have h3 := (deviceAdmin_ok h1).2
    cases h3
    split
    · exact hi
    · exact hi.of_eq rfl rfl
  case unsetMaintain =>
    obtain ⟨_, h1, h2⟩ := map_ok h
    cases h2
    have h3 := (deviceAdmin_ok h1).2
    cases h3
    exact hi.of_eq rfl rfl
  case unstakingSlashCredit w b =>
    obtain ⟨_, h1, h2⟩ := map_ok h
    cases h2
    have h3 := (admin_ok h1).2
    obtain ⟨st, d, hst, hg, rfl⟩ := unstakingSlash_ok h3
    exact hi.of_eq rfl rfl
  case setSwitchCampaign =>
    obtain ⟨_, h1, h2⟩ := map_ok h
    cases h2
    have h3 := (admin_ok h1).2
    split at h3
    · cases h3; exact hi.of_eq rfl rfl
    · cases h3
  case externalSetCreditData w b d =>
    obtain ⟨_, h1, h2⟩ := map_ok h
    cases h2
    have h3 := (admin_ok h1).2
    split at h3
    · obtain ⟨_, h4, h2⟩ := map_ok h3
      cases h2
      exact hi.of_eq rfl rfl
    · cases h3
  case external => cases h; exact hi.of_eq rfl rfl
  case setBurnPrice => cases h; exact hi.of_eq rfl rfl
  case setStakingBalance => cases h; exact hi.of_eq rfl rfl
  case burnRecord => cases h; exact hi.of_eq rfl rfl
  case initDelegatorHistory b => cases h; exact hi.of_eq rfl rfl
  case forceModifyHistory => obtain ⟨_, h1, h2⟩ := map_ok h; cases h2; exact hi.of_eq rfl rfl
  case slashCredit => obtain ⟨_, h1, h2⟩ := map_ok h; cases h2; exact hi.of_eq rfl rfl
  case getReward => obtain ⟨_, h1, h2⟩ := map_ok h; cases h2; exact hi.of_eq rfl rfl
  case tip => obtain ⟨_, h1, h2⟩ := map_ok h; cases h2; exact hi.of_eq rfl rfl
  case evmUpdateCredit => obtain ⟨_, h1, h2⟩ := map_ok h; cases h2; exact hi.of_eq rfl rfl
  all_goals
    obtain ⟨_, h1, h2⟩ := map_ok h
    cases h2
    have h3 := (admin_ok h1).2
    cases h3; exact hi.of_eq rfl rfl

theorem run_tabled {cfg : Cfg} {s : State} {ops : List Op} (hi : Tabled s) : Tabled (run cfg s ops).1 := by
  induction ops generalizing s with
  | nil => exact hi
  | cons op ops ih =>
    refine ih ?_
    rcases step_cases (cfg := cfg) s op with ⟨s', o, h1, h2⟩ | h
    · rw [h2]; exact body_tabled h1 hi
    · rw [h]; exact hi

theorem genesis_tabled (bank : Bank) (settings : List Setting) (users : List (AccId × Data)) :
    Tabled (genesis bank settings users) := by
  unfold genesis
  have h0 : Tabled (settings.foldl updateSetting { bank := bank }) := by
    apply Tabled.foldl
    intro k
    rfl
  generalize settings.foldl updateSetting { bank := bank } = s0 at h0
  induction users generalizing s0 with
  | nil => exact h0
  | cons u us ih => exact ih _ (h0.of_eq rfl rfl)

theorem netDay (c : Setting) : NetDay c c.baseApy (dailyRewardOf c).1 ∧
    NetDay c (min (c.baseApy + c.bonusApy) 100) (dailyRewardOf c).2 :=
  ⟨⟨_, dayShare_of _ _, rfl⟩, ⟨_, dayShare_of _ _, rfl⟩⟩

theorem dailyReward_eq {s : State} (h : Tabled s) (k : Nat × Level) :
    (s.dailyReward.get k).getD (0, 0) = dailyRewardOf ((s.settings.get k).getD default) := by
  rw [h k]
  cases s.settings.get k with
  | some c => rfl
  | none => decide +kernel

/-- **C81** (a): in every reachable state, the day's reward for a credit record (of any campaign but
the USDT one) is the net day's reward of its level at the base rate; members whose rank in their
initial level gives them a bonus get in addition the difference the bonus rate makes in their
initial level. -/
theorem C81_daily_reward (cfg : Cfg) (bank : Bank) (settings : List Setting)
    (users : List (AccId × Data)) (ops : List Op) (hs : ∀ c ∈ settings, c.baseApy ≤ 100)
    (hv : ∀ op ∈ ops, validPercents op) (a : AccId) (d : Data) (hu : d.campaign ≠ 5) :
    let s := (run cfg (genesis bank settings users) ops).1
    let now := settingOf s d.campaign d.level
    let first := settingOf s d.campaign d.initialLevel
    ∃ base firstBase firstBonus, NetDay now now.baseApy base ∧
      NetDay first first.baseApy firstBase ∧
      NetDay first (min (first.baseApy + first.bonusApy) 100) firstBonus ∧ firstBase ≤ firstBonus ∧
      (d.level = d.initialLevel → base = firstBase) ∧
      dailyOf s a d =
        .ok (base + if d.rank ≤ first.maxRankWithBonus then firstBonus - firstBase else 0) := by
  intro s now first
  have ht : Tabled s := run_tabled (genesis_tabled bank settings users)
  have he : EnvInv s := run_env hv (genesis_env bank settings users hs)
  have hle : (dailyRewardOf first).1 ≤ (dailyRewardOf first).2 := by
    have h1 := ht (d.campaign, d.initialLevel)
    cases hg : s.settings.get (d.campaign, d.initialLevel) with
    | none =>
      have : first = default := by simp only [first, settingOf, hg, Option.getD_none]
      rw [this]; decide +kernel
    | some c =>
      rw [hg] at h1
      have := he.pairs _ _ h1
      have hf : first = c := by simp only [first, settingOf, hg, Option.getD_some]
      rw [hf]; exact this
  refine ⟨(dailyRewardOf now).1, (dailyRewardOf first).1, (dailyRewardOf first).2, (netDay now).1,
    (netDay first).1, (netDay first).2, hle, ?_, ?_⟩
  · intro hl
    simp only [now, first, hl]
  · unfold dailyOf
    rw [if_neg hu]
    unfold normalDaily
    simp only
    have e1 := dailyReward_eq ht (d.campaign, d.level)
    have e2 := dailyReward_eq ht (d.campaign, d.initialLevel)
    rw [e1, e2]
    change (if d.level = d.initialLevel then
      Except.ok (if d.rank ≤ first.maxRankWithBonus then (dailyRewardOf now).2 else (dailyRewardOf now).1)
      else if d.rank ≤ first.maxRankWithBonus then
        if (dailyRewardOf first).2 < (dailyRewardOf first).1 then Except.error Fail.panic
        else Except.ok ((dailyRewardOf now).1 + ((dailyRewardOf first).2 - (dailyRewardOf first).1))
      else Except.ok (dailyRewardOf now).1) = _
    split
    · rename_i hl
      have : now = first := by simp only [now, first, hl]
      rw [this]
      congr 1
      split <;> omega
    · split
      · rw [if_neg (by omega)]
      · rfl

/-- **C81** (b): in the USDT campaign the day's reward is one 365th of the level's yearly rate on the
DPR value of the account's USDT stake (25 USDT if it has none) at the current price; nothing
without a price. -/
theorem C81_usdt_reward (s : State) (a : AccId) (d : Data) (hu : d.campaign = 5) :
    (s.dprPrice = none → dailyOf s a d = .ok 0) ∧
    (∀ price, s.dprPrice = some price → price ≠ 0 →
      let usdt := match s.stakingBalance.get a with
        | some b => b.1
        | none => 25 * 10 ^ 18
      usdt * 10 ^ 18 / price < 2 ^ 128 →
      ∃ r, dailyOf s a d = .ok r ∧
        36500 * r ≤ (settingOf s 5 d.level).baseApy * (usdt * 10 ^ 18 / price) + 50 ∧
        (settingOf s 5 d.level).baseApy * (usdt * 10 ^ 18 / price) < 36500 * (r + 1) + 50) := by
  unfold dailyOf
  rw [if_pos hu]
  unfold usdtDaily
  refine ⟨fun h => by rw [h], ?_⟩
  intro price hp h0 usdt hlt
  have hus : ((s.stakingBalance.get a).getD (25 * dpr, 0)).1 = usdt := by
    simp only [usdt]
    cases s.stakingBalance.get a <;> rfl
  simp only [hp, calcPriceDpr, h0, if_false, hus, hu]
  refine ⟨_, rfl, ?_⟩
  have hm : usdt * dpr / price % 2 ^ 128 = usdt * 10 ^ 18 / price := Nat.mod_eq_of_lt hlt
  rw [hm]
  generalize usdt * 10 ^ 18 / price = v
  have hset : (s.settings.get (5, d.level)).getD default = settingOf s 5 d.level := rfl
  rw [hset]
  generalize (settingOf s 5 d.level).baseApy = apy
  have h1 := divNearestDown_bounds (v * apy) 100 (by decide)
  change 2 * (v * apy) ≤ 2 * (100 * percentMul apy v) + 100 ∧
    2 * (100 * percentMul apy v) < 2 * (v * apy) + 100 at h1
  rw [Nat.mul_comm v apy] at h1
  generalize percentMul apy v = t at *
  generalize apy * v = x at *
  omega

/-- Level 3 of campaign 8: 9 percent of 20000 DPR a year make 4.93 DPR a day; with a bonus of 2
percent for the first 10 members, the fifth member gets 6.03 DPR. -/
example :
    let s := (run exCfg exGenesis [.updateCreditSetting
      { campaign := 8, level := .three, stakingBalance := 20000 * dpr, baseApy := 9, bonusApy := 2, maxRankWithBonus := 10 }]).1
    (∀ c ∈ campaign8Settings ++ campaign7Settings 10, c.baseApy ≤ 100) ∧
    (dailyOf s 1 { Data.new 8 350 with rank := 20 }).toOption = some 4931505909680365800 ∧
    (dailyOf s 1 { Data.new 8 350 with rank := 5 }).toOption = some 6027396111831558200 ∧
    DayShare 9 (20000 * dpr) 4931505909680365800 := by
  unfold DayShare
  decide +kernel

/-- A USDT stake of 100 at a price of 0.02 USDT per DPR and 40 percent a year. -/
example :
    let s : State := { bank := exBank, dprPrice := some (2 * 10 ^ 16),
                       stakingBalance := (∅ : FMap _ _).insert 1 (100 * dpr, 0),
                       settings := (∅ : FMap _ _).insert (5, .one) { campaign := 5, level := .one, baseApy := 40 } }
    (dailyOf s 1 (Data.new 5 150)).toOption = some 5479452054794520547 := by
  decide +kernel

end Verif.Credit
