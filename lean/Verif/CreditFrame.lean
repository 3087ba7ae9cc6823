import Verif.CreditMapProofs

/-
Which operations change which part of the credit state; bounds on settings and prices; operations
that can panic.
-/

namespace Verif.Credit

/-- Storage that few operations touch. -/
def frame (s : State) :=
  (s.dailyReward, s.currentPrices, s.dprPrice, s.lastUpdateTs, s.creditFromNft, s.nftClassCredit)

def special : Op → Bool
  | .initialize | .finalize | .runtimeUpgrade | .updateCreditSetting _ | .setDprPrice _ _
  | .traffic _ | .burnNft _ _ _ | .updateNftSum _ _ _ | .updateNftClass _ _ _ => true
  | _ => false

theorem body_frame {cfg : Cfg} {s s' : State} {op : Op} {o : Out}
    (h : body cfg s op = .ok (s', o)) (hn : special op = false) : frame s' = frame s := by
  cases op <;> simp only [body] at h <;> try (simp [special] at hn; done)
  case external => cases h; rfl
  case setBurnPrice => cases h; rfl
  case setStakingBalance => cases h; rfl
  case burnRecord => cases h; rfl
  case initDelegatorHistory => cases h; rfl
  case forceModifyHistory => obtain ⟨_, _, h2⟩ := map_ok h; cases h2; rfl
  case slashCredit => obtain ⟨_, _, h2⟩ := map_ok h; cases h2; rfl
  case getReward => obtain ⟨_, _, h2⟩ := map_ok h; cases h2; rfl
  case tip => obtain ⟨_, _, h2⟩ := map_ok h; cases h2; rfl
  case evmUpdateCredit => obtain ⟨_, _, h2⟩ := map_ok h; cases h2; rfl
  case addOrUpdateCreditData =>
    split at h
    · obtain ⟨_, _, h2⟩ := map_ok h; cases h2; rfl
    · cases h
  case burnForCredit =>
    obtain ⟨_, h1, h2⟩ := map_ok h
    cases h2
    obtain ⟨_, _, _, _, _, rfl⟩ := burnForCredit_ok h1
    rfl
  case unstakingSlash =>
    obtain ⟨_, h1, h2⟩ := map_ok h
    cases h2
    obtain ⟨_, _, _, _, rfl⟩ := unstakingSlash_ok h1
    rfl
  case addOrUpdateCredit =>
    obtain ⟨_, h1, h2⟩ := map_ok h
    cases h2
    unfold addOrUpdateCredit at h1
    obtain ⟨_, _, h2⟩ := map_ok h1
    cases h2
    rfl
  case setMaintain =>
    obtain ⟨_, h1, h2⟩ := map_ok h
    cases h2
    have h3 := (deviceAdmin_ok h1).2
    cases h3
    split <;> rfl
  case unsetMaintain =>
    obtain ⟨_, h1, h2⟩ := map_ok h
    cases h2
    have h3 := (deviceAdmin_ok h1).2
    cases h3
    rfl
  all_goals
    obtain ⟨_, h1, h2⟩ := map_ok h
    cases h2
    have h3 := (admin_ok h1).2
  case setSwitchCampaign =>
    split at h3
    · cases h3; rfl
    · cases h3
  case unstakingSlashCredit =>
    obtain ⟨_, _, _, _, rfl⟩ := unstakingSlash_ok h3
    rfl
  case externalSetCreditData =>
    split at h3
    · obtain ⟨_, _, h2⟩ := map_ok h3; cases h2; rfl
    · cases h3
  all_goals cases h3; rfl

/-! ### The settings operations -/

theorem updateSetting_fields (s : State) (c : Setting) :
    (updateSetting s c).currentPrices = s.currentPrices ∧
    (updateSetting s c).dprPrice = s.dprPrice ∧
    (updateSetting s c).lastUpdateTs = s.lastUpdateTs ∧
    (updateSetting s c).creditFromNft = s.creditFromNft ∧
    (updateSetting s c).nftClassCredit = s.nftClassCredit := ⟨rfl, rfl, rfl, rfl, rfl⟩

theorem foldl_updateSetting_fields (l : List Setting) (s : State) :
    (l.foldl updateSetting s).currentPrices = s.currentPrices ∧
    (l.foldl updateSetting s).dprPrice = s.dprPrice ∧
    (l.foldl updateSetting s).lastUpdateTs = s.lastUpdateTs ∧
    (l.foldl updateSetting s).creditFromNft = s.creditFromNft ∧
    (l.foldl updateSetting s).nftClassCredit = s.nftClassCredit := by
  induction l generalizing s with
  | nil => exact ⟨rfl, rfl, rfl, rfl, rfl⟩
  | cons c l ih => simp only [List.foldl_cons]; exact ih _

theorem dailyRewardOf_le (c : Setting) (hb : c.baseApy ≤ 100) :
    (dailyRewardOf c).1 ≤ (dailyRewardOf c).2 := by
  unfold dailyRewardOf
  simp only
  apply Nat.sub_le_sub_right
  unfold perbillMul
  apply divNearestDown_mono
  apply Nat.mul_le_mul_right
  apply divNearestDown_mono
  apply Nat.mul_le_mul_right
  unfold percentMul
  apply divNearestDown_mono
  apply Nat.mul_le_mul_left
  unfold percentSatAdd
  omega

/-- Base rewards never exceed rewards with bonus. -/
def RewardPairs (s : State) : Prop := ∀ k p, s.dailyReward.get k = some p → p.1 ≤ p.2

theorem updateSetting_pairs {s : State} (h : RewardPairs s) {c : Setting} (hc : c.baseApy ≤ 100) :
    RewardPairs (updateSetting s c) := by
  intro k p hp
  simp only [updateSetting, FMap.get_insert] at hp
  split at hp
  · cases hp; exact dailyRewardOf_le c hc
  · exact h k p hp

theorem foldl_updateSetting_pairs {l : List Setting} (hl : ∀ c ∈ l, c.baseApy ≤ 100) {s : State}
    (h : RewardPairs s) : RewardPairs (l.foldl updateSetting s) := by
  induction l generalizing s with
  | nil => exact h
  | cons c l ih =>
    simp only [List.foldl_cons]
    exact ih (fun x hx => hl x (by simp [hx])) (updateSetting_pairs h (hl c (by simp)))

theorem campaign8_apy : ∀ c ∈ campaign8Settings, c.baseApy ≤ 100 := by decide

theorem campaign7_apy (n : Nat) : ∀ c ∈ campaign7Settings n, c.baseApy ≤ 100 := by
  intro c hc
  unfold campaign7Settings at hc
  rw [List.mem_map] at hc
  obtain ⟨x, hx, rfl⟩ := hc
  have := campaign8_apy x hx
  split
  · simp only [percentSatAdd]; omega
  · exact this

theorem subGenesis_apy (n : Nat) : ∀ c ∈ subGenesisApy n, c.baseApy ≤ 100 := by
  intro c hc
  unfold subGenesisApy at hc
  rw [List.mem_map] at hc
  obtain ⟨x, hx, rfl⟩ := hc
  have := campaign7_apy 10 x hx
  split
  · simp only; omega
  · exact this

theorem onInitialize_cases (cfg : Cfg) (s : State) :
    onInitialize cfg s = s ∨ ∃ k, onInitialize cfg s = (subGenesisApy k).foldl updateSetting s := by
  unfold onInitialize
  split
  · split
    · exact Or.inl rfl
    · simp only
      split
      · split
        · exact Or.inr ⟨_, rfl⟩
        · exact Or.inl rfl
      · exact Or.inl rfl
  · exact Or.inl rfl

/-- Prices waiting to be averaged and the current price are never zero. -/
def PricesPos (s : State) : Prop := (∀ p ∈ s.currentPrices, p ≠ 0) ∧ s.dprPrice ≠ some 0

theorem sum_ge_length {l : List Nat} (h : ∀ p ∈ l, p ≠ 0) : l.length ≤ l.sum := by
  induction l with
  | nil => simp
  | cons x xs ih =>
    have h1 := h x (by simp)
    have h2 := ih (fun p hp => h p (by simp [hp]))
    simp only [List.length_cons, List.sum_cons]
    omega

theorem setPrice_pos {s : State} (h : PricesPos s) : PricesPos (setPrice s) := by
  unfold setPrice
  cases hc : s.currentPrices with
  | nil => exact h
  | cons x xs =>
    refine ⟨by simp, ?_⟩
    simp only
    intro h0
    simp only [Option.some.injEq] at h0
    have := sum_ge_length h.1
    rw [hc] at this
    have hpos : 0 < (x :: xs).length := by simp
    have h1 := Nat.div_pos this hpos
    omega

structure EnvInv (s : State) : Prop where
  pairs : RewardPairs s
  prices : PricesPos s

theorem EnvInv.of_frame {s s' : State} (h : EnvInv s) (hf : frame s' = frame s) : EnvInv s' := by
  simp only [frame, Prod.mk.injEq] at hf
  obtain ⟨h1, h2, h3, -⟩ := hf
  refine ⟨?_, ?_⟩
  · unfold RewardPairs; rw [h1]; exact h.pairs
  · unfold PricesPos; rw [h2, h3]; exact h.prices

theorem EnvInv.foldl {s : State} (h : EnvInv s) {l : List Setting}
    (hl : ∀ c ∈ l, c.baseApy ≤ 100) : EnvInv (l.foldl updateSetting s) := by
  refine ⟨foldl_updateSetting_pairs hl h.pairs, ?_⟩
  unfold PricesPos
  rw [(foldl_updateSetting_fields l s).1, (foldl_updateSetting_fields l s).2.1]
  exact h.prices

theorem trafficCredit_frame {cfg : Cfg} {s s' : State} {a : AccId} {b : Bool}
    (h : trafficCredit cfg s a = .ok (s', b)) :
    s'.dailyReward = s.dailyReward ∧ s'.currentPrices = s.currentPrices ∧
    s'.dprPrice = s.dprPrice ∧ s'.creditFromNft = s.creditFromNft ∧
    s'.nftClassCredit = s.nftClassCredit := by
  unfold trafficCredit at h
  cases hob : s.onboard a with
  | none => rw [hob] at h; cases h; simp
  | some ob =>
    rw [hob] at h
    simp only at h
    split at h
    · cases hg : s.core.userCredit.get a with
      | none =>
        rw [updateCredit_none hg] at h
        simp only [Bool.false_eq_true, if_false] at h
        cases h
        simp
      | some d =>
        rw [updateCredit_some hg] at h
        simp only [if_true, updateHistory_insert] at h
        cases h
        simp
    · cases h; simp

theorem body_env {cfg : Cfg} {s s' : State} {op : Op} {o : Out}
    (h : body cfg s op = .ok (s', o)) (hv : validPercents op) (hi : EnvInv s) : EnvInv s' := by
  cases hsp : special op with
  | false => exact hi.of_frame (body_frame h hsp)
  | true =>
    cases op <;> simp only [special, Bool.false_eq_true] at hsp <;> simp only [body] at h
    case «initialize» =>
      cases h
      rcases onInitialize_cases cfg s with h1 | ⟨k, h1⟩ <;> rw [h1]
      · exact hi
      · exact hi.foldl (subGenesis_apy k)
    case finalize =>
      cases h
      refine ⟨?_, setPrice_pos hi.prices⟩
      unfold setPrice
      split <;> exact hi.pairs
    case runtimeUpgrade =>
      cases h
      unfold onRuntimeUpgrade
      split
      · have h1 := (hi.foldl campaign8_apy).foldl (campaign7_apy (10 - (currentEra cfg
            (campaign8Settings.foldl updateSetting s) -
            (campaign8Settings.foldl updateSetting s).genesisChangeEra) / 180 % 256))
        exact ⟨h1.pairs, h1.prices⟩
      · exact hi
    case updateCreditSetting c =>
      cases h
      exact ⟨updateSetting_pairs hi.pairs hv, hi.prices⟩
    case setDprPrice =>
      obtain ⟨_, h1, h2⟩ := map_ok h
      cases h2
      obtain ⟨hp, _, _, rfl⟩ := setDprPrice_ok h1
      refine ⟨hi.pairs, ?_, hi.prices.2⟩
      intro p hm
      simp only [List.mem_append, List.mem_singleton] at hm
      rcases hm with hm | rfl
      · exact hi.prices.1 p hm
      · exact hp
    case traffic =>
      obtain ⟨⟨x, y⟩, h1, h2⟩ := map_ok h
      cases h2
      obtain ⟨f1, f2, f3, -⟩ := trafficCredit_frame h1
      refine ⟨?_, ?_⟩
      · unfold RewardPairs; simp only [f1]; exact hi.pairs
      · unfold PricesPos; simp only [f2, f3]; exact hi.prices
    case burnNft =>
      obtain ⟨_, h1, h2⟩ := map_ok h
      cases h2
      obtain ⟨_, _, _, _, _, _, rfl⟩ := burnNft_ok h1
      exact ⟨hi.pairs, hi.prices⟩
    all_goals
      obtain ⟨_, h1, h2⟩ := map_ok h
      cases h2
      have h3 := (admin_ok h1).2
      cases h3
      exact ⟨hi.pairs, hi.prices⟩

theorem step_env {cfg : Cfg} {s : State} {op : Op} (hv : validPercents op) (hi : EnvInv s) :
    EnvInv (step cfg s op).1 := by
  rcases step_cases (cfg := cfg) s op with ⟨s', o, h1, h2⟩ | h
  · rw [h2]; exact body_env h1 hv hi
  · rw [h]; exact hi

theorem run_env {cfg : Cfg} {s : State} {ops : List Op} (hv : ∀ op ∈ ops, validPercents op)
    (hi : EnvInv s) : EnvInv (run cfg s ops).1 := by
  induction ops generalizing s with
  | nil => exact hi
  | cons op ops ih =>
    simp only [run]
    exact ih (fun o ho => hv o (by simp [ho])) (step_env (hv op (by simp)) hi)

theorem genesis_env (bank : Bank) (settings : List Setting) (users : List (AccId × Data))
    (hs : ∀ c ∈ settings, c.baseApy ≤ 100) : EnvInv (genesis bank settings users) := by
  unfold genesis
  have h0 : EnvInv (settings.foldl updateSetting { bank := bank }) := by
    apply EnvInv.foldl _ hs
    exact ⟨fun k p h => (nomatch h), by simp [PricesPos]⟩
  generalize settings.foldl updateSetting { bank := bank } = s0 at h0
  induction users generalizing s0 with
  | nil => exact h0
  | cons u us ih => exact ih _ ⟨h0.pairs, h0.prices⟩

/-! ### Panics -/

theorem normalDaily_ok {s : State} (h : EnvInv s) (d : Data) : ∃ v, normalDaily s d = .ok v := by
  unfold normalDaily
  simp only
  split
  · exact ⟨_, rfl⟩
  · split
    · have : ¬ ((s.dailyReward.get (d.campaign, d.initialLevel)).getD (0, 0)).2
          < ((s.dailyReward.get (d.campaign, d.initialLevel)).getD (0, 0)).1 := by
        cases hg : s.dailyReward.get (d.campaign, d.initialLevel) with
        | none => simp
        | some p => have := h.pairs _ p hg; simp only [Option.getD_some]; omega
      rw [if_neg this]
      exact ⟨_, rfl⟩
    · exact ⟨_, rfl⟩

theorem dailyOf_ok {s : State} (h : EnvInv s) (a : AccId) (d : Data) :
    ∃ v, dailyOf s a d = .ok v := by
  unfold dailyOf
  split
  · unfold usdtDaily
    simp only
    cases hp : s.dprPrice with
    | none => exact ⟨_, rfl⟩
    | some p =>
      have hp0 : p ≠ 0 := by rintro rfl; exact h.prices.2 hp
      simp only [calcPriceDpr, hp0, if_false]
      exact ⟨_, rfl⟩
  · exact normalDaily_ok h d

theorem sumRewards_total {s : State} (h : EnvInv s) (a : AccId) (l : List (Data × Nat)) :
    ∃ r, sumRewards s a l = .ok r := by
  induction l with
  | nil => exact ⟨0, rfl⟩
  | cons p l ih =>
    obtain ⟨d, n⟩ := p
    obtain ⟨v, hv⟩ := dailyOf_ok h a d
    obtain ⟨r, hr⟩ := ih
    exact ⟨v * n + r, by simp only [sumRewards, hv, hr]⟩

theorem rewardOf_total {cfg : Cfg} {s : State} (h : EnvInv s) (a : AccId) {l : List (Nat × Data)}
    (hs : l.Pairwise (fun x y => x.1 < y.1)) (hne : l ≠ []) (x y : Nat) :
    ∃ r, rewardOf cfg s a l x y = .ok r := by
  unfold rewardOf
  rw [creditMap_eq cfg hs hne]
  simp only
  split
  · exact ⟨_, rfl⟩
  · obtain ⟨r, hr⟩ := sumRewards_total h a ((eras x y).foldl (addEra cfg l) ∅).entries
    rw [hr]
    exact ⟨_, rfl⟩

theorem switchCampaign_total (c : Core) (a : AccId) (d : Data) (t : Option Nat) (era : Nat) :
    ∃ c', switchCampaign c a d t era = .ok c' := by
  unfold switchCampaign
  cases t with
  | none => exact ⟨_, rfl⟩
  | some n => simp only [updateHistory_insert]; exact ⟨_, rfl⟩

theorem slashOffline_total {cfg : Cfg} {cur : Nat} {c : Core} {a : AccId} {d : Data}
    (hg : c.userCredit.get a = some d) (n : Nat) (m : Bool) :
    ∃ c', slashOffline cfg cur c a n m = .ok c' := by
  unfold slashOffline
  split
  · split
    · exact ⟨_, rfl⟩
    · rw [slashCredit_some hg]; exact ⟨_, rfl⟩
  · exact ⟨_, rfl⟩

theorem getReward_total {cfg : Cfg} {s : State} (he : EnvInv s) {lv : Prop}
    (hi : CoreInv lv (currentEra cfg s) s.core) (a : AccId) (x y : Nat) :
    ∃ p, getReward cfg s a x y = .ok p := by
  unfold getReward
  simp only
  split
  · exact ⟨_, rfl⟩
  cases hg : s.core.userCredit.get a with
  | none => exact ⟨_, rfl⟩
  | some d =>
    simp only
    split
    · exact ⟨_, rfl⟩
    have h1 : CoreInv lv (currentEra cfg s) (if (historyOf s.core a).isEmpty = true then
        initHistory s.core a d (currentEra cfg s) else s.core) ∧
        (if (historyOf s.core a).isEmpty = true then
        initHistory s.core a d (currentEra cfg s) else s.core).userCredit.get a = some d := by
      split
      · exact ⟨initHistory_inv hi hg, hg⟩
      · exact ⟨hi, hg⟩
    generalize (if (historyOf s.core a).isEmpty = true then
        initHistory s.core a d (currentEra cfg s) else s.core) = c1 at h1
    obtain ⟨h1, hg1⟩ := h1
    obtain ⟨c2, hso⟩ := slashOffline_total (cfg := cfg) (cur := currentEra cfg s) hg1
      (s.erasOffline a) (decide (a ∈ s.maintain))
    simp only [hso]
    have h2 := slashOffline_inv h1 hso
    cases hh : historyOf c2 a with
    | nil => exact ⟨_, rfl⟩
    | cons first rest =>
      simp only
      have hstored : c2.history.get a = some (first :: rest) := by
        have := historyOf_nonempty (c := c2) (a := a) (by rw [hh]; rfl)
        rw [hh] at this; exact this
      have hsort := (h2.chron a _ hstored).1
      obtain ⟨r, hr⟩ := rewardOf_total (cfg := cfg) he a hsort (by simp) x
        (min y (first.1 + d.rewardEras - 1))
      rw [hr]
      split
      · obtain ⟨c3, h3⟩ := switchCampaign_total c2 a d (switchTarget s a d.campaign)
          (currentEra cfg s)
        rw [h3]
        exact ⟨_, rfl⟩
      · split <;> exact ⟨_, rfl⟩

theorem map_ne_panic {α β : Type} {x : Except Fail α} {f : α → β} (h : x ≠ .error .panic) :
    x.map f ≠ .error .panic := by
  cases x with
  | ok a => intro h; cases h
  | error e => intro h'; apply h; cases h'; rfl

theorem admin_ne_panic {s : State} {who : AccId} {k : Except Fail State} (h : k ≠ .error .panic) :
    admin s who k ≠ .error .panic := by
  unfold admin
  split
  · exact h
  · intro h; cases h

theorem deviceAdmin_ne_panic {s : State} {who : AccId} {k : Except Fail State}
    (h : k ≠ .error .panic) : deviceAdmin s who k ≠ .error .panic := by
  unfold deviceAdmin
  split
  · exact h
  · intro h; cases h

theorem unstakingSlash_ne_panic (cfg : Cfg) (s : State) (a : AccId) :
    unstakingSlash cfg s a ≠ .error .panic := by
  unfold unstakingSlash
  split
  · intro h; cases h
  · split
    · intro h; cases h
    · simp only [updateHistory_insert]; intro h; cases h

theorem nftCredit_ne_panic (era : Nat) (c : Core) (a : AccId) (n : Nat) :
    nftCredit era c a n ≠ .error .panic := by
  unfold nftCredit
  cases hg : c.userCredit.get a with
  | none => rw [updateCredit_none hg]; intro h; cases h
  | some d =>
    rw [updateCredit_some hg]
    simp only [if_true, updateHistory_insert]
    intro h; cases h

theorem forceModify_ne_panic (c : Core) (a : AccId) (era : Nat) :
    forceModifyHistory c a era ≠ .error .panic := by
  unfold forceModifyHistory
  split
  · intro h; cases h
  · split
    · intro h; cases h
    · split <;> (intro h; cases h)

theorem body_panic {cfg : Cfg} {s : State} {op : Op} {lv : Prop} (he : EnvInv s)
    (hi : CoreInv lv (currentEra cfg s) s.core) :
    body cfg s op = .error .panic ↔ slashesNothing cfg s op := by
  have nf : ∀ {α : Type} {x : α}, (Except.ok x : Except Fail α) ≠ .error .panic :=
    fun h => by cases h
  have ne : ∀ {α : Type} {e : Err}, (Except.error (.err e) : Except Fail α) ≠ .error .panic :=
    fun h => by cases h
  cases op <;> simp only [body, slashesNothing, iff_false]
  case external => exact nf
  case «initialize» => exact nf
  case finalize => exact nf
  case runtimeUpgrade => exact nf
  case updateCreditSetting => exact nf
  case setBurnPrice => exact nf
  case setStakingBalance => exact nf
  case burnRecord => exact nf
  case initDelegatorHistory => exact nf
  case forceModifyHistory => exact map_ne_panic (forceModify_ne_panic _ _ _)
  case addOrUpdateCreditData =>
    split
    · rw [doAddCredit_ok hi]; exact nf
    · exact ne
  case burnForCredit =>
    apply map_ne_panic
    unfold burnForCredit
    split
    · exact ne
    · rename_i d hg
      simp only
      split
      · exact ne
      · split
        · exact ne
        · rw [updateCredit_some hg]
          simp only [updateHistory_insert]
          exact nf
  case burnNft =>
    apply map_ne_panic
    unfold burnNft
    split
    · exact ne
    · simp only
      split
      · exact ne
      · split
        · exact ne
        · exact map_ne_panic (nftCredit_ne_panic _ _ _ _)
  case updateNftClass => exact map_ne_panic (admin_ne_panic nf)
  case updateNftSum => exact map_ne_panic (admin_ne_panic nf)
  case setSwitchCampaign =>
    apply map_ne_panic
    apply admin_ne_panic
    split
    · exact nf
    · exact ne
  case setNotSwitch => exact map_ne_panic (admin_ne_panic nf)
  case setCreditBalances => exact map_ne_panic (admin_ne_panic nf)
  case setUsdtCreditBalances => exact map_ne_panic (admin_ne_panic nf)
  case setDefaultCampaign => exact map_ne_panic (admin_ne_panic nf)
  case setUserStakingCredit => exact map_ne_panic (admin_ne_panic nf)
  case unstakingSlashCredit => exact map_ne_panic (admin_ne_panic (unstakingSlash_ne_panic _ _ _))
  case externalSetCreditData =>
    apply map_ne_panic
    apply admin_ne_panic
    split
    · rw [doAddCredit_ok hi]; exact nf
    · exact ne
  case setPriceDiffRate => exact map_ne_panic (admin_ne_panic nf)
  case setDprPrice =>
    apply map_ne_panic
    unfold setDprPrice
    split
    · exact ne
    · split
      · exact ne
      · split
        · exact nf
        · exact ne
  case unsetStakingBalance => exact map_ne_panic (admin_ne_panic nf)
  case setMaintain => exact map_ne_panic (deviceAdmin_ne_panic nf)
  case unsetMaintain => exact map_ne_panic (deviceAdmin_ne_panic nf)
  case slashCredit a score =>
    cases hg : s.core.userCredit.get a with
    | none =>
      rw [slashCredit_none hg]
      split
      · rename_i h; simp only [h, Except.map]; simp
      · rename_i h; simp only [Except.map]; simp [h]
    | some d =>
      rw [slashCredit_some hg]
      simp [Except.map]
  case getReward a x y =>
    obtain ⟨p, hp⟩ := getReward_total he hi a x y
    rw [hp]; exact nf
  case traffic a =>
    apply map_ne_panic
    unfold trafficCredit
    split
    · exact nf
    · simp only
      split
      · cases hg : s.core.userCredit.get a with
        | none =>
          rw [updateCredit_none hg]
          exact nf
        | some d =>
          rw [updateCredit_some hg]
          simp only [if_true, updateHistory_insert]
          exact nf
      · exact nf
  case tip a n =>
    apply map_ne_panic
    unfold tipCredit
    split
    · exact nf
    · cases hg : s.core.userCredit.get a with
      | none => rw [updateCredit_none hg]; exact nf
      | some d =>
        rw [updateCredit_some hg]
        simp only [if_true, updateHistory_insert]
        exact nf
  case addOrUpdateCredit =>
    apply map_ne_panic
    unfold addOrUpdateCredit
    simp only [doAddCredit_ok hi]
    exact nf
  case unstakingSlash => exact map_ne_panic (unstakingSlash_ne_panic _ _ _)
  case evmUpdateCredit caller user score add =>
    unfold evmUpdateCredit
    cases hop : s.isEvmOperator caller with
    | false => simp [Except.map]
    | true =>
      simp only [Bool.not_true, Bool.false_eq_true, if_false, true_and]
      cases hev : s.evmToAccount user with
      | none => simp [Except.map]
      | some a =>
        simp only
        cases add with
        | true =>
          simp only [if_true]
          cases hg : s.core.userCredit.get a with
          | none => simp [Except.map]
          | some d => simp only; rw [doAddCredit_ok hi]; simp [Except.map]
        | false =>
          simp only [Bool.false_eq_true, if_false, true_and]
          cases hg : s.core.userCredit.get a with
          | none =>
            rw [slashCredit_none hg]
            by_cases hm : score = u64Max
            · simp [hm, Except.map]
            · simp [hm, Except.map, hg]
          | some d =>
            rw [slashCredit_some hg]
            simp [Except.map, hg]

end Verif.Credit
