import Verif.CreditRewardProperties

/-
Properties C79, C80: what can happen to a credit record, as one table; unstaking.
-/

namespace Verif.Credit

/-! ### Specification -/

/-- A record with another score; only the level follows it. -/
def rescored (d : Data) (score : Nat) : Data :=
  { d with credit := score, level := .ofScore score }

/-- More points, limited by what 64 bits hold. -/
def gain (d : Data) (n : Nat) : Data := rescored d (min (d.credit + n) (2 ^ 64 - 1))

/-- Fewer points, not below zero. -/
def lose (d : Data) (n : Nat) : Data := rescored d (d.credit - n)

/-- The record of an account whose period in its campaign is over: the next campaign with ten years of
rewards, or half a year more in the same campaign. -/
def moved (d : Data) (new : Nat) : Data :=
  if d.campaign = new then { d with rewardEras := d.rewardEras + 180 }
  else { d with campaign := new, rewardEras := 3650 }

/-- Penalty of `n` points; the largest number means deletion. -/
def punished (r : Option Data) (n : Nat) : Option Data :=
  if n = 2 ^ 64 - 1 then none else r.map (lose · n)

/-- The campaign following that of `d` for account `a`: none if the account is exempted. -/
def successor (s : State) (a : AccId) (d : Data) : Option Nat :=
  if s.notSwitch.contains a then none else s.campaignSwitch.get d.campaign

/-- Effect of a reward query for eras `x..y` on the record of the account queried. -/
def queried (cfg : Cfg) (s : State) (a : AccId) (x y : Nat) (d : Data) : Data :=
  if x ≤ y ∧ y < currentEra cfg s ∧ d.rewardEras ≠ 0 then
    match (if x = periodStart (historyOf s.core a) (currentEra cfg s) + d.rewardEras - 1 ∨ d.campaign ≤ 6
      then successor s a d else none) with
    | some new => moved d new
    | none =>
      if 0 < s.erasOffline a ∧ s.erasOffline a % 3 = 0 ∧ a ∉ s.maintain then
        lose d cfg.attenuationStep
      else d
  else d

/-- The table: the account whose record an operation concerns, and the record afterwards given the
record before. `none` stands for "no record". All other accounts, and all other operations or
outcomes, leave the record as it is. -/
def tableRow (cfg : Cfg) (s : State) : Op → Out → Option (AccId × (Option Data → Option Data))
  | .traffic a, .flag true => some (a, fun r => r.map (gain · 1))
  | .tip a n, .done => some (a, fun r => if s.onboard a = none then r else r.map (gain · n))
  | .burnForCredit a n, .done => some (a, fun r => r.map (gain · n))
  | .burnNft a cls _, .done => some (a, fun r => r.map (gain · ((s.nftClassCredit.get cls).getD 0)))
  | .addOrUpdateCredit a n c, .done => some (a, fun r => some (match r with
      | some d => gain d n
      | none => Data.new (c.getD s.defaultCampaign) n))
  | .evmUpdateCredit _ user n true, .flag true =>
    (s.evmToAccount user).map fun a => (a, fun r => r.map (gain · n))
  | .evmUpdateCredit _ user n false, .flag true =>
    (s.evmToAccount user).map fun a => (a, fun r => punished r n)
  | .slashCredit a n, .done => some (a, fun r => punished r (n.getD cfg.attenuationStep))
  | .unstakingSlash a, .done => some (a, fun r => r.map fun d =>
      Data.new s.defaultCampaign (d.credit - (s.stakingCredit.get a).getD 0))
  | .unstakingSlashCredit _ a, .done => some (a, fun r => r.map fun d =>
      Data.new s.defaultCampaign (d.credit - (s.stakingCredit.get a).getD 0))
  | .addOrUpdateCreditData a d, .done => some (a, fun _ => some d)
  | .externalSetCreditData _ a d, .done => some (a, fun _ => some d)
  | .getReward a x y, .reward _ => some (a, fun r => r.map (queried cfg s a x y))
  | _, _ => none

/-- The record of account `a` after an operation according to the table. -/
def expectedRecord (cfg : Cfg) (s : State) (op : Op) (out : Out) (a : AccId) : Option Data :=
  match tableRow cfg s op out with
  | some (b, f) => if a = b then f (s.core.userCredit.get a) else s.core.userCredit.get a
  | none => s.core.userCredit.get a

/-! ### Proof -/

theorem update_eq (d : Data) (n : Nat) : d.update n = rescored d n := rfl

theorem updateHistory_uc {c c' : Core} {a : AccId} {era : Nat} (h : updateHistory c a era = .ok c') :
    c'.userCredit = c.userCredit := by
  unfold updateHistory at h
  split at h
  · cases h
  · split at h <;> (cases h; rfl)

theorem writeCore_uc (c : Core) (a : AccId) (d : Data) (era : Nat) :
    (writeCore c a d era).userCredit = c.userCredit.insert a d := by
  unfold writeCore
  split <;> rfl

theorem doAddCredit_uc {era : Nat} {c c' : Core} {a : AccId} {d : Data}
    (h : doAddCredit era c a d = .ok c') : c'.userCredit = c.userCredit.insert a d := by
  unfold doAddCredit at h
  simp only at h
  split at h
  · split at h
    · cases h; rfl
    · rw [updateHistory_uc h]
  · cases h; rfl

theorem slashCredit_uc {cfg : Cfg} {era : Nat} {c c' : Core} {a : AccId} {n : Option Nat}
    (h : slashCredit cfg era c a n = .ok c') (b : AccId) :
    c'.userCredit.get b =
      if b = a then punished (c.userCredit.get b) (n.getD cfg.attenuationStep) else c.userCredit.get b := by
  unfold slashCredit at h
  simp only at h
  unfold punished
  change (if n.getD cfg.attenuationStep = 2 ^ 64 - 1 then _ else _) = _ at h
  split at h
  · rename_i hp
    cases h
    rw [FMap.get_erase, hp, if_pos rfl]
  · rename_i hp
    rw [if_neg hp]
    split at h
    · rename_i d hd
      rw [updateHistory_uc h, FMap.get_insert]
      split
      · rename_i hb; subst hb; rw [hd]; rfl
      · rfl
    · rename_i hd
      rw [updateHistory_uc h]
      split
      · rename_i hb; subst hb; rw [hd]; rfl
      · rfl

theorem updateCredit_uc (c : Core) (a : AccId) (n : Nat) (b : AccId) :
    (updateCredit c a n).1.userCredit.get b =
      if b = a then (c.userCredit.get b).map (rescored · n) else c.userCredit.get b := by
  unfold updateCredit
  cases hd : c.userCredit.get a with
  | none =>
    simp only
    split
    · rename_i hb; subst hb; rw [hd]; rfl
    · rfl
  | some d =>
    simp only [FMap.get_insert]
    split
    · rename_i hb; subst hb; rw [hd]; rfl
    · rfl

theorem updateCredit_gain (c : Core) (a : AccId) (n : Nat) (b : AccId) :
    (updateCredit c a (satAdd64 ((creditScore c a).getD 0) n)).1.userCredit.get b =
      if b = a then (c.userCredit.get b).map (gain · n) else c.userCredit.get b := by
  rw [updateCredit_uc]
  split
  · rename_i hb
    subst hb
    cases hd : c.userCredit.get b with
    | none => rfl
    | some d => simp [creditScore, hd, gain, satAdd64, u64Max]
  · rfl

theorem getReward_record {cfg : Cfg} {s : State} {a : AccId} {x y : Nat} {c' : Core}
    {r : Option Balance} (hat : cfg.attenuationStep ≠ 2 ^ 64 - 1)
    (h : getReward cfg s a x y = .ok (c', r)) (b : AccId) :
    c'.userCredit.get b = if b = a then (s.core.userCredit.get b).map (queried cfg s a x y)
      else s.core.userCredit.get b := by
  cases hd : s.core.userCredit.get a with
  | none =>
    have : c' = s.core := by
      unfold getReward at h
      simp only [hd] at h
      split at h <;> (cases h; rfl)
    rw [this]
    split
    · rename_i hb; subst hb; rw [hd]; rfl
    · rfl
  | some d =>
    by_cases hreach : x ≤ y ∧ y < currentEra cfg s ∧ d.rewardEras ≠ 0
    · obtain ⟨h1, h2, h3⟩ := hreach
      obtain ⟨c2, hso, hcase⟩ := getReward_shape hd h3 h1 h2 h
      obtain ⟨f1, f2, f3⟩ := firstHistory cfg s a d
      generalize (if (historyOf s.core a).isEmpty = true then
        initHistory s.core a d (currentEra cfg s) else s.core) = c1 at *
      -- the penalty
      have hc2 : ∀ b, c2.userCredit.get b = if b = a then some
          (if 0 < s.erasOffline a ∧ s.erasOffline a % 3 = 0 ∧ a ∉ s.maintain then
            lose d cfg.attenuationStep else d) else s.core.userCredit.get b := by
        intro b
        unfold slashOffline at hso
        by_cases ho : 0 < s.erasOffline a ∧ s.erasOffline a % 3 = 0
        · rw [if_pos ho] at hso
          by_cases hm : a ∈ s.maintain
          · simp only [hm, decide_true, if_true] at hso
            cases hso
            simp only [hm, not_true, and_false, if_false, f1]
            split
            · rename_i hb; subst hb; exact hd
            · rfl
          · simp only [hm, decide_false, Bool.false_eq_true, if_false] at hso
            rw [slashCredit_uc hso, f1]
            simp only [ho.1, ho.2, hm, not_false_iff, and_self, if_true]
            split
            · rename_i hb; subst hb
              rw [hd]; simp [punished, hat]
            · rfl
        · rw [if_neg ho] at hso
          cases hso
          have ho' : ¬ (0 < s.erasOffline a ∧ s.erasOffline a % 3 = 0 ∧ a ∉ s.maintain) :=
            fun hh => ho ⟨hh.1, hh.2.1⟩
          simp only [ho', if_false, f1]
          split
          · rename_i hb; subst hb; exact hd
          · rfl
      have hne : historyOf c2 a ≠ [] := by
        intro h0
        unfold slashOffline at hso
        split at hso
        · split at hso
          · cases hso; exact f2 h0
          · rw [slashCredit_some (by rw [f1]; exact hd)] at hso
            simp only [Option.getD_none, u64Max, hat, if_false, Except.ok.injEq] at hso
            rw [← hso, historyOf_writeCore] at h0
            revert h0
            split
            · rename_i he; intro _; exact f2 (by simpa using he)
            · unfold pushHistory
              cases hl : (historyOf c1 a).getLast? with
              | none => simp only; intro h0; exact f2 h0
              | some l => simp only; split <;> simp
        · cases hso; exact f2 h0
      have hper := (slashOffline_history hso hne).2
      rw [f3] at hper
      rw [hper] at hcase
      have hq : (s.core.userCredit.get a).map (queried cfg s a x y) = some (queried cfg s a x y d) := by
        rw [hd]; rfl
      by_cases hb : b = a
      · subst hb
        rw [if_pos rfl, hq]
        unfold queried
        rw [if_pos ⟨h1, h2, h3⟩]
        rcases hcase with ⟨rfl, hx⟩ | ⟨hx, -, hs⟩
        · have hx' : ¬ (x = periodStart (historyOf s.core b) (currentEra cfg s) + d.rewardEras - 1 ∨
              d.campaign ≤ 6) := by
            rcases hx with hx | hx
            · exact absurd hx hne
            · omega
          rw [hc2, if_pos rfl, if_neg hx']
        · rw [if_pos hx]
          unfold switchCampaign at hs
          change (match successor s b d with | none => _ | some new => _) = _ at hs
          cases hsu : successor s b d with
          | none =>
            rw [hsu] at hs
            cases hs
            rw [hc2, if_pos rfl]
          | some new =>
            rw [hsu] at hs
            rw [updateHistory_uc hs, FMap.get_insert_self]
            rfl
      · rw [if_neg hb]
        rcases hcase with ⟨rfl, -⟩ | ⟨-, -, hs⟩
        · rw [hc2, if_neg hb]
        · unfold switchCampaign at hs
          split at hs
          · cases hs; rw [hc2, if_neg hb]
          · rw [updateHistory_uc hs, FMap.get_insert_ne _ _ hb, hc2, if_neg hb]
    · have hc : c' = s.core := by
        unfold getReward at h
        simp only [hd] at h
        split at h
        · cases h; rfl
        · split at h
          · cases h; rfl
          · exfalso; omega
      rw [hc]
      split
      · rename_i hb; subst hb; rw [hd]; simp [queried, hreach]
      · rfl

/-- **C79**: the record of every account after every operation is the one of the table: records change
only for the listed reasons, only that of the account concerned, and exactly by the listed amounts. -/
theorem C79_record_table (cfg : Cfg) (hat : cfg.attenuationStep ≠ 2 ^ 64 - 1) (s : State) (op : Op)
    (a : AccId) :
    (step cfg s op).1.core.userCredit.get a = expectedRecord cfg s op (step cfg s op).2 a := by
  have key : ∀ s' o, body cfg s op = .ok (s', o) →
      s'.core.userCredit.get a = expectedRecord cfg s op o a := by
    intro s' o hb
    cases op <;> simp only [body] at hb
    case external => cases hb; rfl
    case «initialize» =>
      cases hb
      show (onInitialize cfg s).core.userCredit.get a = s.core.userCredit.get a
      rw [(onInitialize_core cfg s).1]
    case finalize =>
      cases hb
      show (setPrice s).core.userCredit.get a = s.core.userCredit.get a
      rw [(setPrice_core s).1]
    case runtimeUpgrade =>
      cases hb
      show (onRuntimeUpgrade cfg s).core.userCredit.get a = s.core.userCredit.get a
      rw [(onRuntimeUpgrade_core cfg s).1]
    case updateCreditSetting => cases hb; rfl
    case setBurnPrice => cases hb; rfl
    case setStakingBalance => cases hb; rfl
    case burnRecord => cases hb; rfl
    case initDelegatorHistory b =>
      cases hb
      show (initDelegatorHistory _ _ b).userCredit.get a = s.core.userCredit.get a
      unfold initDelegatorHistory
      split <;> rfl
    case forceModifyHistory =>
      obtain ⟨c, h1, h2⟩ := map_ok hb
      cases h2
      show c.userCredit.get a = s.core.userCredit.get a
      unfold forceModifyHistory at h1
      split at h1
      · cases h1
      · split at h1
        · cases h1
        · split at h1 <;> cases h1
          rfl
    case slashCredit => 
      obtain ⟨_, h1, h2⟩ := map_ok hb
      cases h2
      exact slashCredit_uc h1 a
    case getReward =>
      obtain ⟨⟨x, y⟩, h1, h2⟩ := map_ok hb
      cases h2
      exact getReward_record hat h1 a
    case tip b n =>
      obtain ⟨c, h1, h2⟩ := map_ok hb
      cases h2
      show c.userCredit.get a = if a = b then (if s.onboard b = none then s.core.userCredit.get a else
        (s.core.userCredit.get a).map (gain · n)) else s.core.userCredit.get a
      unfold tipCredit at h1
      split at h1
      · rename_i ho
        cases h1
        rw [if_pos ho, ite_self]
      · rename_i ob ho
        have ho' : s.onboard b ≠ none := by rw [ho]; simp
        simp only [ho', if_false]
        rw [← updateCredit_gain]
        simp only at h1
        split at h1
        · rw [updateHistory_uc h1]
        · cases h1; rfl
    case evmUpdateCredit caller user n add =>
      obtain ⟨⟨x, y⟩, h1, h2⟩ := map_ok hb
      cases h2
      unfold evmUpdateCredit at h1
      split at h1
      · cases h1; cases add <;> rfl
      · cases he : s.evmToAccount user with
        | none => rw [he] at h1; cases h1; cases add <;> rfl
        | some b =>
          rw [he] at h1
          simp only at h1
          cases add with
          | true =>
            simp only [if_true] at h1
            cases hg : s.core.userCredit.get b with
            | none => rw [hg] at h1; cases h1; rfl
            | some d =>
              rw [hg] at h1
              obtain ⟨c, h3, h4⟩ := map_ok h1
              cases h4
              simp only [expectedRecord, tableRow, he, Option.map_some, doAddCredit_uc h3, FMap.get_insert]
              split
              · rename_i hab; subst hab; rw [hg]; rfl
              · rfl
          | false =>
            simp only [Bool.false_eq_true, if_false] at h1
            obtain ⟨c, h3, h4⟩ := map_ok h1
            cases h4
            simp only [expectedRecord, tableRow, he, Option.map_some]
            exact slashCredit_uc h3 a
    case traffic b =>
      obtain ⟨⟨x, y⟩, h1, h2⟩ := map_ok hb
      cases h2
      obtain ⟨_, _, h3, h4⟩ := trafficCredit_ok h1
      cases y with
      | false => simp only [(h3 rfl).1]; rfl
      | true =>
        obtain ⟨d, ob, hg, _, _, h5, _⟩ := h4 rfl
        simp only [h5, writeCore_uc, expectedRecord, tableRow, FMap.get_insert]
        split
        · rename_i hab; subst hab; rw [hg]; rfl
        · rfl
    case addOrUpdateCreditData b d =>
      split at hb
      · obtain ⟨_, h1, h2⟩ := map_ok hb
        cases h2
        simp only [expectedRecord, tableRow, doAddCredit_uc h1, FMap.get_insert]
      · cases hb
    case burnForCredit b n =>
      obtain ⟨_, h1, h2⟩ := map_ok hb
      cases h2
      obtain ⟨d, _, hg, _, _, rfl⟩ := burnForCredit_ok h1
      show (writeCore _ _ _ _).userCredit.get a = _
      simp only [writeCore_uc, expectedRecord, tableRow, FMap.get_insert]
      split
      · rename_i hab; subst hab; rw [hg]; rfl
      · rfl
    case burnNft b cls ok =>
      obtain ⟨_, h1, h2⟩ := map_ok hb
      cases h2
      obtain ⟨n, d, hn, hg, _, _, rfl⟩ := burnNft_ok h1
      simp only [writeCore_uc, expectedRecord, tableRow, FMap.get_insert, hn]
      split
      · rename_i hab; subst hab; rw [hg]; rfl
      · rfl
    case unstakingSlash b =>
      obtain ⟨_, h1, h2⟩ := map_ok hb
      cases h2
      obtain ⟨st, d, hst, hg, rfl⟩ := unstakingSlash_ok h1
      simp only [writeCore_uc, expectedRecord, tableRow, FMap.get_insert, hst]
      split
      · rename_i hab; subst hab; rw [hg]; rfl
      · rfl
    case addOrUpdateCredit b gap camp =>
      obtain ⟨_, h1, h2⟩ := map_ok hb
      cases h2
      unfold addOrUpdateCredit at h1
      obtain ⟨_, h3, h2⟩ := map_ok h1
      cases h2
      simp only [expectedRecord, tableRow, doAddCredit_uc h3, FMap.get_insert]
      split
      · rename_i hab
        subst hab
        cases s.core.userCredit.get a <;> rfl
      · rfl
    case setDprPrice =>
      obtain ⟨_, h1, h2⟩ := map_ok hb
      cases h2
      obtain ⟨_, _, _, rfl⟩ := setDprPrice_ok h1
      rfl
    case setMaintain =>
      obtain ⟨_, h1, h2⟩ := map_ok hb
      cases h2
      have h3 := (deviceAdmin_ok h1).2
      cases h3
      split <;> rfl
    case unsetMaintain =>
      obtain ⟨_, h1, h2⟩ := map_ok hb
      cases h2
      have h3 := (deviceAdmin_ok h1).2
      cases h3
      rfl
    all_goals
      obtain ⟨_, h1, h2⟩ := map_ok hb
      cases h2
      have h3 := (admin_ok h1).2
    case setSwitchCampaign =>
      split at h3
      · cases h3; rfl
      · cases h3
    case unstakingSlashCredit w b =>
      obtain ⟨st, d, hst, hg, rfl⟩ := unstakingSlash_ok h3
      simp only [writeCore_uc, expectedRecord, tableRow, FMap.get_insert, hst]
      split
      · rename_i hab; subst hab; rw [hg]; rfl
      · rfl
    case externalSetCreditData w b d =>
      split at h3
      · obtain ⟨_, h4, h2⟩ := map_ok h3
        cases h2
        simp only [expectedRecord, tableRow, doAddCredit_uc h4, FMap.get_insert]
      · cases h3
    all_goals cases h3; rfl
  unfold step
  cases hb : body cfg s op with
  | ok r => exact key r.1 r.2 hb
  | error e =>
    cases e with
    | panic => cases op <;> try rfl
               all_goals (rename_i x; cases x <;> rfl)
    | err e => cases op <;> try rfl
               all_goals (rename_i x; cases x <;> rfl)


/-- Account 1 (score 250, level 2) gains 60 points for a tip, is punished for being offline three eras
by a reward query, loses 11 points to an EVM operator's call and its whole record to a maximal slash;
account 2 keeps its record throughout. -/
example :
    let s0 := (run exCfg exGenesis [exTime 25 0 3]).1
    let s1 := (step exCfg s0 (.tip 1 60)).1
    let s2 := (step exCfg s1 (.getReward 1 0 1)).1
    let s3 := (step exCfg s2 (.evmUpdateCredit 7 7 11 false)).1
    let s4 := (step exCfg s2 (.slashCredit 1 (some (2 ^ 64 - 1)))).1
    exCfg.attenuationStep ≠ 2 ^ 64 - 1 ∧
    s1.core.userCredit.get 1 = some (rescored (Data.new 8 250) 310) ∧
    s2.core.userCredit.get 1 = some (rescored (Data.new 8 250) 309) ∧
    (step exCfg s2 (.evmUpdateCredit 7 7 11 false)).2 = .panicked ∧ s3.core.userCredit.get 3 = none ∧
    s4.core.userCredit.get 1 = none ∧ s4.core.userCredit.get 2 = some (Data.new 8 50) := by
  decide +kernel

/-! ### C80: unstaking -/

/-- Points an account has obtained by staking and not yet lost by unstaking, read off a history
starting with `start`: staking adds, unstaking clears, the administrator's call sets. -/
def stakedPoints (a : AccId) : Option Nat → List (State × Op × Out) → Option Nat
  | p, [] => p
  | p, (_, op, out) :: rest => stakedPoints a (match op, out with
      | .addOrUpdateCredit b n _, .done => if a = b then some (p.getD 0 + n) else p
      | .unstakingSlash b, .done => if a = b then none else p
      | .unstakingSlashCredit _ b, .done => if a = b then none else p
      | .setUserStakingCredit _ l, .done =>
        l.foldl (fun q e => if a = e.1 then some e.2 else q) p
      | _, _ => p) rest

theorem get_insertAll (l : List (Nat × Nat)) (m : FMap Nat Nat) (a : Nat) :
    (insertAll m l).get a = l.foldl (fun q e => if a = e.1 then some e.2 else q) (m.get a) := by
  induction l generalizing m with
  | nil => rfl
  | cons e l ih =>
    show (insertAll (m.insert e.1 e.2) l).get a = _
    rw [ih, FMap.get_insert]
    rfl

theorem foldl_updateSetting_sc (l : List Setting) (s : State) :
    (l.foldl updateSetting s).stakingCredit = s.stakingCredit := by
  induction l generalizing s with
  | nil => rfl
  | cons c l ih => exact ih _

theorem onInitialize_sc (cfg : Cfg) (s : State) : (onInitialize cfg s).stakingCredit = s.stakingCredit := by
  unfold onInitialize
  split
  · split
    · rfl
    · simp only
      split
      · split
        · exact foldl_updateSetting_sc _ _
        · rfl
      · rfl
  · rfl

theorem onRuntimeUpgrade_sc (cfg : Cfg) (s : State) :
    (onRuntimeUpgrade cfg s).stakingCredit = s.stakingCredit := by
  unfold onRuntimeUpgrade
  split
  · exact (foldl_updateSetting_sc _ _).trans (foldl_updateSetting_sc _ _)
  · rfl

theorem stakingCredit_body {cfg : Cfg} {s s' : State} {op : Op} {o : Out} (a : AccId)
    (hb : body cfg s op = .ok (s', o)) :
    s'.stakingCredit.get a = stakedPoints a (s.stakingCredit.get a) [(s, op, o)] := by
  cases op <;> simp only [body] at hb
  case «initialize» => cases hb; rw [onInitialize_sc]; rfl
  case finalize =>
    cases hb
    unfold setPrice
    split <;> rfl
  case runtimeUpgrade => cases hb; rw [onRuntimeUpgrade_sc]; rfl
  case addOrUpdateCreditData =>
    split at hb
    · obtain ⟨_, h1, h2⟩ := map_ok hb
      cases h2; rfl
    · cases hb
  case burnForCredit =>
    obtain ⟨_, h1, h2⟩ := map_ok hb
    cases h2
    obtain ⟨d, _, hg, _, _, rfl⟩ := burnForCredit_ok h1
    rfl
  case burnNft b cls ok =>
    obtain ⟨_, h1, h2⟩ := map_ok hb
    cases h2
    obtain ⟨n, d, hn, hg, _, _, rfl⟩ := burnNft_ok h1
    rfl
  case traffic b =>
    obtain ⟨⟨x, y⟩, h1, h2⟩ := map_ok hb
    cases h2
    have : x.stakingCredit = s.stakingCredit := by
      unfold trafficCredit at h1
      split at h1
      · cases h1; rfl
      · simp only at h1
        split at h1
        · split at h1
          · split at h1 <;> cases h1
            rfl
          · cases h1; rfl
        · cases h1; rfl
    rw [this]
    cases y <;> rfl
  case unstakingSlash b =>
    obtain ⟨_, h1, h2⟩ := map_ok hb
    cases h2
    obtain ⟨st, d, hst, hg, rfl⟩ := unstakingSlash_ok h1
    simp only [stakedPoints, FMap.get_erase]
  case addOrUpdateCredit b gap camp =>
    obtain ⟨_, h1, h2⟩ := map_ok hb
    cases h2
    unfold addOrUpdateCredit at h1
    obtain ⟨_, h3, h2⟩ := map_ok h1
    cases h2
    simp only [stakedPoints, FMap.get_insert]
    split
    · rename_i hab; subst hab; rfl
    · rfl
  case setDprPrice =>
    obtain ⟨_, h1, h2⟩ := map_ok hb
    cases h2
    obtain ⟨_, _, _, rfl⟩ := setDprPrice_ok h1
    rfl
  case setMaintain =>
    obtain ⟨_, h1, h2⟩ := map_ok hb
    cases h2
    have h3 := (deviceAdmin_ok h1).2
    cases h3
    split <;> rfl
  case unsetMaintain =>
    obtain ⟨_, h1, h2⟩ := map_ok hb
    cases h2
    have h3 := (deviceAdmin_ok h1).2
    cases h3
    rfl
  case unstakingSlashCredit w b =>
    obtain ⟨_, h1, h2⟩ := map_ok hb
    cases h2
    have h3 := (admin_ok h1).2
    obtain ⟨st, d, hst, hg, rfl⟩ := unstakingSlash_ok h3
    simp only [stakedPoints, FMap.get_erase]
  case setSwitchCampaign =>
    obtain ⟨_, h1, h2⟩ := map_ok hb
    cases h2
    have h3 := (admin_ok h1).2
    split at h3
    · cases h3; rfl
    · cases h3
  case externalSetCreditData w b d =>
    obtain ⟨_, h1, h2⟩ := map_ok hb
    cases h2
    have h3 := (admin_ok h1).2
    split at h3
    · obtain ⟨_, h4, h2⟩ := map_ok h3
      cases h2
      rfl
    · cases h3
  case setUserStakingCredit w l =>
    obtain ⟨_, h1, h2⟩ := map_ok hb
    cases h2
    have h3 := (admin_ok h1).2
    cases h3
    exact get_insertAll l _ a
  case external => cases hb; rfl
  case updateCreditSetting => cases hb; rfl
  case setBurnPrice => cases hb; rfl
  case setStakingBalance => cases hb; rfl
  case burnRecord => cases hb; rfl
  case initDelegatorHistory b => cases hb; rfl
  case forceModifyHistory => obtain ⟨_, h1, h2⟩ := map_ok hb; cases h2; rfl
  case slashCredit => obtain ⟨_, h1, h2⟩ := map_ok hb; cases h2; rfl
  case getReward => obtain ⟨_, h1, h2⟩ := map_ok hb; cases h2; rfl
  case tip => obtain ⟨_, h1, h2⟩ := map_ok hb; cases h2; rfl
  case evmUpdateCredit => obtain ⟨_, h1, h2⟩ := map_ok hb; cases h2; rfl
  all_goals
    obtain ⟨_, h1, h2⟩ := map_ok hb
    cases h2
    have h3 := (admin_ok h1).2
    cases h3; rfl

theorem stakingCredit_step (cfg : Cfg) (s : State) (op : Op) (a : AccId) :
    (step cfg s op).1.stakingCredit.get a =
      stakedPoints a (s.stakingCredit.get a) [(s, op, (step cfg s op).2)] := by
  unfold step
  cases hb : body cfg s op with
  | ok r => exact stakingCredit_body a hb
  | error e => cases e <;> (cases op <;> rfl)

/-- **C80** (a): the staking credit on record is what the history says. -/
theorem C80_staking_credit (cfg : Cfg) (s : State) (ops : List Op) (a : AccId) :
    (run cfg s ops).1.stakingCredit.get a =
      stakedPoints a (s.stakingCredit.get a) (run cfg s ops).2 := by
  induction ops generalizing s with
  | nil => rfl
  | cons op ops ih =>
    show (run cfg (step cfg s op).1 ops).1.stakingCredit.get a = _
    rw [ih, stakingCredit_step]
    rfl

/-- **C80** (b): unstaking succeeds exactly if there is staking credit and a credit record; it then
takes exactly the staking credit from the score (down to zero at most). -/
theorem C80_unstaking (cfg : Cfg) (s : State) (a : AccId) :
    ((step cfg s (.unstakingSlash a)).2 = .done ↔
      ∃ n d, s.stakingCredit.get a = some n ∧ s.core.userCredit.get a = some d) ∧
    ∀ n d, s.stakingCredit.get a = some n → s.core.userCredit.get a = some d →
      creditScore (step cfg s (.unstakingSlash a)).1.core a = some (d.credit - n) ∧
      (step cfg s (.unstakingSlash a)).1.stakingCredit.get a = none := by
  have hok : ∀ n d, s.stakingCredit.get a = some n → s.core.userCredit.get a = some d →
      step cfg s (.unstakingSlash a) = ({ s with core := writeCore s.core a (Data.new s.defaultCampaign (d.credit - n)) (currentEra cfg s), stakingCredit := s.stakingCredit.erase a }, .done) := by
    intro n d h1 h2
    simp only [step, body, unstakingSlash, h1, creditScore, h2, Option.map_some, updateHistory_insert]
    rfl
  refine ⟨⟨fun h => ?_, fun ⟨n, d, h1, h2⟩ => by rw [hok n d h1 h2]⟩, fun n d h1 h2 => ?_⟩
  · have hb := step_ok (Prod.ext rfl h : step cfg s (.unstakingSlash a) = (_, .done)) (by simp) (by simp)
    simp only [body] at hb
    obtain ⟨_, h1, -⟩ := map_ok hb
    obtain ⟨n, d, h3, h4, -⟩ := unstakingSlash_ok h1
    exact ⟨n, d, h3, h4⟩
  · rw [hok n d h1 h2]
    refine ⟨?_, FMap.get_erase_self _ _⟩
    simp only [creditScore, writeCore_uc, FMap.get_insert_self]
    rfl

/-- **C80** (c): staking for `n` points and unstaking restores the score, if nothing was staked
before and the score has room. -/
theorem C80_round_trip (cfg : Cfg) (s : State) (a : AccId) (d : Data) (n : Nat) (camp : Option Nat)
    (hd : s.core.userCredit.get a = some d) (hs : s.stakingCredit.get a = none)
    (hroom : d.credit + n < 2 ^ 64) :
    let s1 := (step cfg s (.addOrUpdateCredit a n camp)).1
    creditScore s1.core a = some (d.credit + n) ∧
    creditScore (step cfg s1 (.unstakingSlash a)).1.core a = some d.credit := by
  intro s1
  have hdone : step cfg s (.addOrUpdateCredit a n camp) = (s1, .done) ∧
      s1.core.userCredit.get a = some (gain d n) ∧ s1.stakingCredit.get a = some n := by
    have hadd : ∃ c, doAddCredit (currentEra cfg s) s.core a (d.update (satAdd64 d.credit n)) = .ok c := by
      unfold doAddCredit
      simp only [hd]
      split
      · exact ⟨_, rfl⟩
      · rw [updateHistory_insert]; exact ⟨_, rfl⟩
    obtain ⟨c, hc⟩ := hadd
    have : step cfg s (.addOrUpdateCredit a n camp) = ({ s with core := c, stakingCredit := s.stakingCredit.insert a ((s.stakingCredit.get a).getD 0 + n) }, .done) := by
      simp only [step, body, addOrUpdateCredit, hd, hc]
      rfl
    refine ⟨Prod.ext rfl (by rw [this]), ?_, ?_⟩
    · simp only [s1, this, doAddCredit_uc hc, FMap.get_insert_self]
      rfl
    · simp only [s1, this, FMap.get_insert_self, hs, Option.getD_none, Nat.zero_add]
  have hmin : (gain d n).credit = d.credit + n := by
    show min (d.credit + n) (2 ^ 64 - 1) = _
    omega
  refine ⟨by simp only [creditScore, hdone.2.1, Option.map_some, hmin], ?_⟩
  rw [((C80_unstaking cfg s1 a).2 n _ hdone.2.2 hdone.2.1).1, hmin, Nat.add_sub_cancel]

/-- Account 1 (score 250) stakes for 100 points and then 50; gets a tip of 7; unstaking takes 150. A
second unstaking fails. -/
example :
    let ops := [exTime 25 0 0, .addOrUpdateCredit 1 100 none, .addOrUpdateCredit 1 50 none, .tip 1 7]
    let s := (run exCfg exGenesis ops).1
    stakedPoints 1 none (run exCfg exGenesis ops).2 = some 150 ∧
    exGenesis.core.userCredit.get 1 = some (Data.new 8 250) ∧ exGenesis.stakingCredit.get 1 = none ∧
    creditScore s.core 1 = some 407 ∧
    (step exCfg s (.unstakingSlash 1)).2 = .done ∧
    creditScore (step exCfg s (.unstakingSlash 1)).1.core 1 = some 257 ∧
    (step exCfg (step exCfg s (.unstakingSlash 1)).1 (.unstakingSlash 1)).2 = .failed .stakingCreditNotSet := by
  decide +kernel

end Verif.Credit
