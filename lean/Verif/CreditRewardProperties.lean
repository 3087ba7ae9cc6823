import Verif.CreditProperties

/-
Properties C14, C15, C17, C18, C59 of the reward computation of the credit pallet.
-/

namespace Verif.Credit

theorem run_mem {cfg : Cfg} {s : State} {ops : List Op} {e : State × Op × Out}
    (h : e ∈ (run cfg s ops).2) : e.2.2 = (step cfg e.1 e.2.1).2 := by
  induction ops generalizing s with
  | nil => simp [run] at h
  | cons op ops ih =>
    simp only [run, List.mem_cons] at h
    rcases h with rfl | h
    · rfl
    · exact ih h

theorem mem_rewardedQueries {a : AccId} {tr : List (State × Op × Out)} {q : State × Nat × Nat}
    (h : q ∈ rewardedQueries a tr) :
    ∃ r, (q.1, Op.getReward a q.2.1 q.2.2, Out.reward (some r)) ∈ tr := by
  unfold rewardedQueries at h
  simp only [List.mem_filterMap] at h
  obtain ⟨⟨s, op, o⟩, he, hq⟩ := h
  split at hq
  · rename_i s' b x y r heq
    cases heq
    split at hq
    · rename_i hb
      subst hb
      cases hq
      exact ⟨r, he⟩
    · cases hq
  · cases hq

theorem step_reward {cfg : Cfg} {s : State} {a : AccId} {x y : Nat} {r : Option Balance}
    (h : (step cfg s (.getReward a x y)).2 = .reward r) :
    ∃ c', getReward cfg s a x y = .ok (c', r) := by
  unfold step at h
  cases hb : body cfg s (.getReward a x y) with
  | error e => rw [hb] at h; cases e <;> cases h
  | ok v =>
    rw [hb] at h
    simp only [body] at hb
    obtain ⟨⟨c', r'⟩, h1, h2⟩ := map_ok hb
    subst h2
    simp only [Out.reward.injEq] at h
    subst h
    exact ⟨c', h1⟩

theorem paidEras_bounds {cfg : Cfg} {s : State} {a : AccId} {x y e : Nat}
    (h : e ∈ paidEras cfg s a x y) :
    x ≤ e ∧ e ≤ y ∧ ∃ d, s.core.userCredit.get a = some d ∧
      e ≤ periodStart (historyOf s.core a) (currentEra cfg s) + d.rewardEras - 1 := by
  unfold paidEras at h
  split at h
  · cases h
  · rename_i d hd
    rw [List.mem_filter, mem_eras] at h
    exact ⟨h.1.1, by omega, d, hd, by omega⟩

theorem paidEras_increasing (cfg : Cfg) (s : State) (a : AccId) (x y : Nat) :
    Increasing (paidEras cfg s a x y) := by
  unfold paidEras
  split
  · simp [Increasing]
  · exact (eras_pairwise _ _).filter _

/-! ### C14 -/

/-- **C14** (a): a reward that is paid is the sum, over the eras asked for that are finished, not
after the end of the reward period and recorded with sufficient credit, of the daily reward of the
credit recorded for that era: each such era once and no other. -/
theorem C14_reward_per_era (cfg : Cfg) (bank : Bank) (settings : List Setting)
    (users : List (AccId × Data)) (ops : List Op)
    (ht : ∀ e ∈ (run cfg (genesis bank settings users) ops).2, timely cfg e.1 e.2.1)
    (s : State) (a : AccId) (x y : Nat) (r : Balance)
    (hq : (s, Op.getReward a x y, Out.reward (some r)) ∈ (run cfg (genesis bank settings users) ops).2) :
    y < currentEra cfg s ∧ Increasing (paidEras cfg s a x y) ∧
    (∀ e ∈ paidEras cfg s a x y, x ≤ e ∧ e ≤ y ∧ ∃ d, s.core.userCredit.get a = some d ∧
      e < periodStart (historyOf s.core a) (currentEra cfg s) + d.rewardEras) ∧
    ∃ daily : Nat → Balance,
      (∀ e ∈ paidEras cfg s a x y, ∃ d, recordedAt (historyOf s.core a) e = some d ∧
        cfg.minCredit ≤ d.credit ∧ dailyOf s a d = .ok (daily e)) ∧
      r = ((paidEras cfg s a x y).map daily).sum := by
  have hi := (run_inv (lv := False) (genesis_inv cfg bank settings users False.elim) ht).2 _ hq
  have hout := run_mem hq
  obtain ⟨c', hg⟩ := step_reward hout.symm
  obtain ⟨h1, h2, f, h3, h4⟩ := getReward_some (Or.inr hi) hg
  refine ⟨h2, paidEras_increasing _ _ _ _ _, ?_, f, ?_, h4⟩
  · intro e he
    obtain ⟨h5, h6, d, h7, h8⟩ := paidEras_bounds he
    refine ⟨h5, h6, d, h7, ?_⟩
    have hne : d.rewardEras ≠ 0 := by
      intro h0
      unfold getReward at hg
      simp only [h7, h0, if_true] at hg
      split at hg <;> cases hg
    omega
  · intro e he
    obtain ⟨d, h5, h6⟩ := h3 e he
    refine ⟨d, h5, ?_, h6⟩
    unfold paidEras at he
    split at he
    · cases he
    · rw [List.mem_filter] at he
      have := he.2
      simp only [earns, h5, decide_eq_true_eq] at this
      exact this

/-- **C14** (b): over any history in which each rewarded query of an account starts after the last
era of the previous ones, the eras paid for, in the order of payment, are strictly increasing, so
no era is paid twice. -/
theorem C14_no_era_twice (cfg : Cfg) (s : State) (ops : List Op) (a : AccId)
    (hchain : (rewardedQueries a (run cfg s ops).2).Pairwise (fun p q => p.2.2 < q.2.1)) :
    Increasing
      ((rewardedQueries a (run cfg s ops).2).flatMap fun q => paidEras cfg q.1 a q.2.1 q.2.2) := by
  generalize rewardedQueries a (run cfg s ops).2 = l at hchain
  induction l with
  | nil => simp [Increasing]
  | cons q qs ih =>
    simp only [List.pairwise_cons] at hchain
    simp only [List.flatMap_cons, Increasing, List.pairwise_append]
    refine ⟨paidEras_increasing _ _ _ _ _, ih hchain.2, ?_⟩
    intro e he e' he'
    rw [List.mem_flatMap] at he'
    obtain ⟨q', hq', he'⟩ := he'
    have h1 := paidEras_bounds he
    have h2 := paidEras_bounds he'
    have h3 := hchain.1 q' hq'
    omega

/-- Account 1 (250 points from era 0) is queried for eras 0-1 in era 2, for 2-2 in era 3 and for 3-4
in era 5; its credit is cut below the minimum in era 4. -/
def exRewards : List Op :=
  [.initDelegatorHistory 1, exTime 25 0 0, .getReward 1 0 1, exTime 10 0 0, .getReward 1 2 2,
   exTime 10 0 0, .slashCredit 1 (some 200), exTime 10 0 0, .getReward 1 3 4, .getReward 1 5 5]

example : ((rewardedQueries 1 (run exCfg exGenesis exRewards).2).map fun q =>
      (q.2, paidEras exCfg q.1 1 q.2.1 q.2.2)) =
    [((0, 1), [0, 1]), ((2, 2), [2]), ((3, 4), [3])] := by decide +kernel

example : (run exCfg exGenesis exRewards).2.map (·.2.2) =
    [.done, .done, .reward (some 4383560808604769600), .done, .reward (some 2191780404302384800),
     .done, .done, .done, .reward (some 2191780404302384800), .reward none] := by decide +kernel

/-! ### C15 -/

/-- **C15**: the split of an era range by credit data used for the reward: for a chronological
history each era of the range is counted under exactly the data recorded for it, and under nothing
else; eras before the first record or below the delegation minimum are not counted. -/
theorem C15_credit_map_counts (cfg : Cfg) (h : List (Nat × Data))
    (hs : Increasing (h.map Prod.fst)) (hne : h ≠ []) (start stop : Nat) :
    ∃ m, creditMap cfg h start stop = .ok m ∧
      (∀ d, (m.get d).getD 0 =
        ((eras start stop).filter fun e =>
          decide (recordedAt h e = some d ∧ cfg.minCredit ≤ d.credit)).length) ∧
      m.sum (fun _ n => n) = ((eras start stop).filter (earns cfg h)).length := by
  have hs' : h.Pairwise (fun x y => x.1 < y.1) := by
    unfold Increasing at hs
    rw [List.pairwise_map] at hs
    exact hs
  refine ⟨_, creditMap_eq cfg hs' hne start stop, ?_, ?_⟩
  · intro d
    rw [get_foldl_addEra]
    simp
  · have h1 := sum_foldl_addEra cfg h (eras start stop) ∅ (fun _ => 1)
    simp only [Nat.one_mul] at h1
    rw [h1]
    have h2 : ∀ l : List Nat, (l.map (eraValue cfg h fun _ => 1)).sum
        = (l.filter (earns cfg h)).length := by
      intro l
      induction l with
      | nil => rfl
      | cons e es ih =>
        simp only [List.map_cons, List.sum_cons, ih, List.filter_cons]
        have : eraValue cfg h (fun _ => 1) e = if earns cfg h e = true then 1 else 0 := by
          unfold eraValue earns
          cases recordedAt h e with
          | none => rfl
          | some d => simp
        rw [this]
        split <;> simp <;> omega
    rw [h2]
    simp

/-- History with records in eras 3, 5 (too low) and 8, range 1..9. -/
example : let h := [(3, Data.new 8 250), (5, Data.new 8 99), (8, Data.new 8 300)]
    Increasing (h.map Prod.fst) ∧ (eras 1 9).filter (earns exCfg h) = [3, 4, 8, 9] ∧
    (creditMap exCfg h 1 9).toOption.map (fun m => m.entries.map fun e => (e.1.credit, e.2))
      = some [(300, 2), (250, 2)] := by
  refine ⟨by simp [Increasing], by decide +kernel, by decide +kernel⟩

/-! ### C17 -/

/-- The penalty of C17 applies: the query reaches the offline check, the device has been offline for
a positive multiple of three eras and is not registered for maintenance. -/
def penalised (cfg : Cfg) (s : State) (a : AccId) (x y : Nat) : Prop :=
  x ≤ y ∧ y < currentEra cfg s ∧ 0 < s.erasOffline a ∧ s.erasOffline a % 3 = 0 ∧ a ∉ s.maintain ∧
    cfg.attenuationStep ≠ 2 ^ 64 - 1

/-- Storage changes of a reward query that gets past its checks: start of the history if there is
none, offline penalty, and possibly the campaign switch. -/
theorem getReward_shape {cfg : Cfg} {s : State} {a : AccId} {x y : Nat} {d : Data} {c' : Core}
    {r : Option Balance} (hd : s.core.userCredit.get a = some d) (hr : d.rewardEras ≠ 0)
    (h1 : x ≤ y) (h2 : y < currentEra cfg s) (h : getReward cfg s a x y = .ok (c', r)) :
    ∃ c2, slashOffline cfg (currentEra cfg s)
        (if (historyOf s.core a).isEmpty then initHistory s.core a d (currentEra cfg s) else s.core)
        a (s.erasOffline a) (decide (a ∈ s.maintain)) = .ok c2 ∧
      ((c' = c2 ∧ (historyOf c2 a = [] ∨ (x ≠ periodStart (historyOf c2 a) (currentEra cfg s) +
          d.rewardEras - 1 ∧ 6 < d.campaign))) ∨
        ((x = periodStart (historyOf c2 a) (currentEra cfg s) + d.rewardEras - 1 ∨ d.campaign ≤ 6) ∧
          historyOf c2 a ≠ [] ∧
          switchCampaign c2 a d (switchTarget s a d.campaign) (currentEra cfg s) = .ok c')) := by
  unfold getReward at h
  simp only at h
  rw [if_neg (by omega), hd] at h
  simp only [hr, if_false] at h
  split at h
  · cases h
  · rename_i c2 hso
    refine ⟨c2, hso, ?_⟩
    cases hh : historyOf c2 a with
    | nil => rw [hh] at h; cases h; exact Or.inl ⟨rfl, Or.inl rfl⟩
    | cons first rest =>
      rw [hh] at h
      simp only at h
      split at h
      · rename_i hc
        split at h
        · cases h
        · rename_i c3 hsw
          obtain ⟨v, _, hv⟩ := map_ok h
          cases hv
          exact Or.inr ⟨hc, by simp, hsw⟩
      · rename_i hc
        have hc' : x ≠ first.1 + d.rewardEras - 1 ∧ 6 < d.campaign := by omega
        split at h
        · cases h; exact Or.inl ⟨rfl, Or.inr hc'⟩
        · obtain ⟨v, _, hv⟩ := map_ok h
          cases hv; exact Or.inl ⟨rfl, Or.inr hc'⟩

theorem firstHistory (cfg : Cfg) (s : State) (a : AccId) (d : Data) :
    let c1 := if (historyOf s.core a).isEmpty then initHistory s.core a d (currentEra cfg s) else s.core
    c1.userCredit = s.core.userCredit ∧ historyOf c1 a ≠ [] ∧
    periodStart (historyOf c1 a) (currentEra cfg s) = periodStart (historyOf s.core a) (currentEra cfg s) := by
  intro c1
  by_cases hem : (historyOf s.core a).isEmpty = true
  · have hnil : historyOf s.core a = [] := by simpa using hem
    have : historyOf c1 a = [(currentEra cfg s, d)] := by
      simp only [c1, hem, if_true]
      simp [initHistory, historyOf]
    refine ⟨by simp [c1, hem, initHistory], by rw [this]; simp, ?_⟩
    rw [this, hnil]; rfl
  · have : c1 = s.core := by simp [c1, hem]
    rw [this]
    exact ⟨rfl, by simpa using hem, rfl⟩

/-- **C17** (partial): if no campaign switch takes place in the query (the account is exempted, or its
campaign has no successor, or the query is neither for the last era of the period nor for an account
of campaigns 0-6), the credit after the query is the credit before minus the penalty.

Missing for the full claim: queries that switch the campaign; for these the claim is false, see
`C17_switch_undoes_penalty`. -/
theorem C17_penalty_kept_partial (cfg : Cfg) (s s' : State) (a : AccId) (x y : Nat) (d : Data)
    (r : Option Balance) (hd : s.core.userCredit.get a = some d) (hr : d.rewardEras ≠ 0)
    (hp : penalised cfg s a x y)
    (hsw : s.notSwitch.contains a = true ∨ s.campaignSwitch.get d.campaign = none ∨
      (6 < d.campaign ∧ x ≠ periodStart (historyOf s.core a) (currentEra cfg s) + d.rewardEras - 1))
    (h : step cfg s (.getReward a x y) = (s', .reward r)) :
    creditScore s'.core a = some (d.credit - cfg.attenuationStep) := by
  have hb := step_ok h (by simp) (by simp)
  simp only [body] at hb
  obtain ⟨⟨c', r⟩, h1, h2⟩ := map_ok hb
  cases h2
  obtain ⟨p1, p2, p3, p4, p5, p6⟩ := hp
  obtain ⟨c2, hso, hcase⟩ := getReward_shape hd hr p1 p2 h1
  obtain ⟨f1, f2, f3⟩ := firstHistory cfg s a d
  generalize (if (historyOf s.core a).isEmpty = true then
    initHistory s.core a d (currentEra cfg s) else s.core) = c1 at *
  have hper : historyOf c2 a ≠ [] → periodStart (historyOf c2 a) (currentEra cfg s)
      = periodStart (historyOf s.core a) (currentEra cfg s) := by
    intro hne
    rw [(slashOffline_history hso hne).2, f3]
  unfold slashOffline at hso
  simp only [p3, p4, p5, and_self, if_true, decide_false, Bool.false_eq_true, if_false] at hso
  rw [slashCredit_some (by rw [f1]; exact hd)] at hso
  simp only [Option.getD_none, u64Max, p6, if_false, Except.ok.injEq] at hso
  have hc2 : creditScore c2 a = some (d.credit - cfg.attenuationStep) := by
    rw [← hso]; simp [creditScore, writeCore, Data.update]
  rcases hcase with ⟨rfl, -⟩ | ⟨hx, hne, hs⟩
  · exact hc2
  · have hnone : switchTarget s a d.campaign = none := by
      unfold switchTarget
      rcases hsw with h3 | h3 | ⟨h3, h4⟩
      · rw [if_pos h3]
      · rw [h3]; simp
      · exfalso
        rw [hper hne] at hx
        omega
    rw [hnone] at hs
    cases hs
    exact hc2

/-- Account 1 of campaign 8, offline for 6 eras, queried in era 2. -/
example : let s := (run exCfg exGenesis [exTime 25 0 6]).1
    s.core.userCredit.get 1 = some (Data.new 8 250) ∧ (Data.new 8 250).rewardEras ≠ 0 ∧
    penalised exCfg s 1 0 1 ∧ s.campaignSwitch.get 8 = none ∧
    (step exCfg s (.getReward 1 0 1)).2 = .reward none ∧
    creditScore (step exCfg s (.getReward 1 0 1)).1.core 1 = some 249 := by
  unfold penalised
  decide +kernel

/-- C17 fails when the query switches the campaign: the switch writes back the credit data read
before the penalty. Account 1 of campaign 4 with successor 8 is offline for 3 eras and keeps its 250
points. -/
theorem C17_switch_undoes_penalty :
    ∃ (s : State) (d : Data), s.core.userCredit.get 1 = some d ∧ d.rewardEras ≠ 0 ∧
      penalised exCfg s 1 0 1 ∧ d.credit = 250 ∧ exCfg.attenuationStep = 1 ∧
      (∃ r, (step exCfg s (.getReward 1 0 1)).2 = .reward (some r)) ∧
      creditScore (step exCfg s (.getReward 1 0 1)).1.core 1 = some 250 := by
  refine ⟨(run exCfg (genesis exBank campaign8Settings [(1, Data.new 4 250)])
    [exTime 5 0 0, .setSwitchCampaign 1 [4] [8], .initDelegatorHistory 1, exTime 20 0 3]).1,
    Data.new 4 250, ?_⟩
  unfold penalised
  refine ⟨by decide +kernel, by decide +kernel, by decide +kernel, by decide +kernel,
    by decide +kernel, ⟨0, by decide +kernel⟩, by decide +kernel⟩

/-! ### C18 -/

theorem body_not_panicked {cfg : Cfg} {s s' : State} {op : Op} {o : Out}
    (hb : body cfg s op = .ok (s', o)) : o ≠ .panicked := by
  rintro rfl
  cases op <;> simp only [body] at hb
  case addOrUpdateCreditData =>
    split at hb
    · obtain ⟨_, _, h⟩ := map_ok hb; cases h
    · cases hb
  all_goals first
    | cases hb; done
    | (obtain ⟨_, _, h⟩ := map_ok hb; cases h; done)

/-- **C18** (partial): after any history (root does not date history entries into the future and
configures percentages up to 100) an operation panics exactly when it slashes an account without
credit record by something else than the full amount.

Missing for the full claim: these slashes; they do panic, see `C18_slash_without_credit_panics`. -/
theorem C18_panics_only_on_empty_slash_partial (cfg : Cfg) (bank : Bank) (settings : List Setting)
    (hset : ∀ c ∈ settings, c.baseApy ≤ 100) (users : List (AccId × Data)) (ops : List Op)
    (hv : ∀ op ∈ ops, validPercents op)
    (ht : ∀ e ∈ (run cfg (genesis bank settings users) ops).2, timely cfg e.1 e.2.1) (op : Op) :
    let s := (run cfg (genesis bank settings users) ops).1
    (step cfg s op).2 = .panicked ↔ slashesNothing cfg s op := by
  intro s
  have hi := (run_inv (lv := False) (genesis_inv cfg bank settings users False.elim) ht).1
  have he : EnvInv s := run_env hv (genesis_env bank settings users hset)
  rw [← body_panic he hi]
  unfold step
  cases hb : body cfg s op with
  | ok r =>
    simp only [reduceCtorEq, iff_false]
    intro h
    obtain ⟨s', o⟩ := r
    exact body_not_panicked hb h
  | error e => cases e <;> simp

/-- Ordinary slashes succeed; the slash of account 3, which has no credit, satisfies the exception. -/
example : (step exCfg exGenesis (.slashCredit 1 none)).2 = .done ∧
    ¬ slashesNothing exCfg exGenesis (.slashCredit 1 none) ∧
    slashesNothing exCfg exGenesis (.slashCredit 3 (some 5)) := by
  refine ⟨by decide +kernel, ?_, ?_⟩ <;> unfold slashesNothing <;> decide +kernel

/-- C18 fails: slashing an account without credit panics, also when the slash comes from an EVM
contract operator. -/
theorem C18_slash_without_credit_panics :
    (step exCfg exGenesis (.slashCredit 3 none)).2 = .panicked ∧
    ∃ ops, (run exCfg exGenesis ops).2.getLast?.map (·.2.2) = some .panicked ∧
      (run exCfg exGenesis ops).2.getLast?.map (fun e => e.1.core.userCredit.get 3) = some none := by
  refine ⟨by decide +kernel, [exTime 1 1 0, .evmUpdateCredit 7 7 5 false], ?_⟩
  decide +kernel

/-! ### C59 -/

/-- **C59** (partial): a reward query for the last era of the reward period moves the account to the
successor campaign (if one is configured and the account is not exempted).

Missing for the full claim: queries that start before the last era of the period and run beyond it;
after these the account stays in its old campaign, see `C59_skipped_switch`. -/
theorem C59_campaign_switch_partial (cfg : Cfg) (s s' : State) (a : AccId) (x y : Nat) (d : Data)
    (r : Option Balance) (new : Nat) (hd : s.core.userCredit.get a = some d) (hr : d.rewardEras ≠ 0)
    (hy : x ≤ y) (hcur : y < currentEra cfg s) (hstep : cfg.attenuationStep ≠ 2 ^ 64 - 1)
    (hx : x = periodStart (historyOf s.core a) (currentEra cfg s) + d.rewardEras - 1 ∨ d.campaign ≤ 6)
    (hn : s.notSwitch.contains a = false) (hsw : s.campaignSwitch.get d.campaign = some new)
    (h : step cfg s (.getReward a x y) = (s', .reward r)) :
    ∃ d', s'.core.userCredit.get a = some d' ∧ d'.campaign = new ∧ d'.credit = d.credit ∧
      d'.rewardEras = (if d.campaign = new then d.rewardEras + 180 else 3650) := by
  have hb := step_ok h (by simp) (by simp)
  simp only [body] at hb
  obtain ⟨⟨c', r⟩, h1, h2⟩ := map_ok hb
  cases h2
  obtain ⟨c2, hso, hcase⟩ := getReward_shape hd hr hy hcur h1
  obtain ⟨f1, f2, f3⟩ := firstHistory cfg s a d
  generalize (if (historyOf s.core a).isEmpty = true then
    initHistory s.core a d (currentEra cfg s) else s.core) = c1 at *
  have hne2 : historyOf c2 a ≠ [] := by
    unfold slashOffline at hso
    split at hso
    · split at hso
      · cases hso; exact f2
      · rw [slashCredit_some (by rw [f1]; exact hd)] at hso
        simp only [Option.getD_none, u64Max, hstep, if_false, Except.ok.injEq] at hso
        rw [← hso, historyOf_writeCore]
        split
        · exact f2
        · exact pushHistory_ne_nil f2 _ _
    · cases hso; exact f2
  have hper := (slashOffline_history hso hne2).2
  rw [f3] at hper
  rcases hcase with ⟨-, h3 | h3⟩ | ⟨-, -, h3⟩
  · exact absurd h3 hne2
  · rw [hper] at h3; omega
  · unfold switchTarget at h3
    rw [hn, hsw] at h3
    simp only [Bool.false_eq_true, if_false, switchCampaign, updateHistory_insert,
      Except.ok.injEq] at h3
    refine ⟨switchData d new, by rw [← h3]; simp [writeCore], ?_⟩
    unfold switchData
    split
    · rename_i he; simp [he]
    · simp [defaultRewardEras]

/-- Account 1 of campaign 7 with a period of 3 eras (0, 1, 2); successor campaign 8. -/
def exSwitch : State :=
  (run exCfg (genesis exBank (campaign8Settings ++ campaign7Settings 10)
    [(1, { Data.new 7 250 with rewardEras := 3 })])
    [exTime 5 0 0, .setSwitchCampaign 1 [7] [8], .initDelegatorHistory 1, exTime 30 0 0]).1

example : periodStart (historyOf exSwitch.core 1) (currentEra exCfg exSwitch) + 3 - 1 = 2 ∧
    ((step exCfg exSwitch (.getReward 1 2 2)).1.core.userCredit.get 1).map
      (fun d => (d.campaign, d.rewardEras)) = some (8, 3650) := by decide +kernel

/-- The full claim of C59 fails: a query for eras 1-2 pays the last era of the period (2) without the
switch, and all later queries, starting at era 3 or later, pay nothing and do not switch either. -/
theorem C59_skipped_switch :
    let s := (step exCfg exSwitch (.getReward 1 1 2)).1
    (step exCfg exSwitch (.getReward 1 1 2)).2 = .reward (some 9863011819360731600) ∧
    paidEras exCfg exSwitch 1 1 2 = [1, 2] ∧ exSwitch.campaignSwitch.get 7 = some 8 ∧
    s.core.userCredit.get 1 = some { Data.new 7 250 with rewardEras := 3 } ∧
    ∀ x y, 3 ≤ x → ∀ b, let s' := { s with block := b }
      (step exCfg s' (.getReward 1 x y)).2 = .reward none ∧
      (step exCfg s' (.getReward 1 x y)).1.core.userCredit.get 1
        = some { Data.new 7 250 with rewardEras := 3 } := by
  intro s
  have hd : s.core.userCredit.get 1 = some { Data.new 7 250 with rewardEras := 3 } := by decide +kernel
  have hh : historyOf s.core 1 = [(0, { Data.new 7 250 with rewardEras := 3 })] := by decide +kernel
  have ho : s.erasOffline 1 = 0 := by decide +kernel
  refine ⟨by decide +kernel, by decide +kernel, by decide +kernel, hd, ?_⟩
  intro x y hx b s'
  have hg : getReward exCfg s' 1 x y = .ok (s'.core, none) := by
    unfold getReward
    simp only
    split
    · rfl
    · have h1 : s'.core.userCredit.get 1 = some { Data.new 7 250 with rewardEras := 3 } := hd
      have h2 : historyOf s'.core 1 = [(0, { Data.new 7 250 with rewardEras := 3 })] := hh
      have h3 : s'.erasOffline 1 = 0 := ho
      simp only [h1, h2, h3, slashOffline, List.isEmpty_cons, Bool.false_eq_true, if_false,
        Nat.lt_irrefl, false_and, Data.new]
      rw [if_neg (by decide), if_neg (by omega), if_pos (by omega)]
  simp only [step, body, hg, Except.map]
  exact ⟨trivial, hd⟩

end Verif.Credit
