import Verif.CreditParams
import Verif.OperationProperties

/-
Property C150: the counters of burnt DPR, in total and per era, are the sums of the burns. No new definitions of the code.
-/

namespace Verif.Credit

/-- What an event has burnt: the price at that time for every point bought (the price is computed from the low 32 bits, C19), or what the
operation pallet reports (burning for EZC, C29). -/
def burntBy : State × Op × Out → Nat
  | (s, .burnForCredit _ score, .done) => s.burnPrice * (score % 2 ^ 32)
  | (_, .burnRecord v, .done) => v
  | _ => 0

/-- All that has been burnt in a history. -/
def burntIn (t : List (State × Op × Out)) : Nat := (t.map burntBy).sum

/-- All that has been burnt in an era. -/
def burntInEra (cfg : Cfg) (era : Nat) (t : List (State × Op × Out)) : Nat :=
  (t.map fun e => if blockToEra cfg e.1.block = era then burntBy e else 0).sum

/-- Both counters. -/
def counters (s : State) : Balance × FMap Nat Balance := (s.totalBurn, s.dailyBurn)

theorem foldl_updateSetting_counters (l : List Setting) (s : State) : counters (l.foldl updateSetting s) = counters s := by
  induction l generalizing s with
  | nil => rfl
  | cons c l ih => exact ih _

theorem counters_upgrade (cfg : Cfg) (s : State) : counters (onRuntimeUpgrade cfg s) = counters s := by
  unfold onRuntimeUpgrade
  split
  · have h1 := foldl_updateSetting_counters campaign8Settings s
    generalize campaign8Settings.foldl updateSetting s = s1 at h1 ⊢
    dsimp only
    generalize campaign7Settings (10 - (currentEra cfg s1 - s1.genesisChangeEra) / 180 % 256) = l
    have h2 := foldl_updateSetting_counters l s1
    generalize l.foldl updateSetting s1 = s2 at h2 ⊢
    exact h2.trans h1
  · rfl

/-- An operation that succeeds either burns something and books it, or burns nothing and leaves the counters. -/
theorem counters_body (cfg : Cfg) (s s' : State) (op : Op) (o : Out) (h : body cfg s op = .ok (s', o)) :
    counters s' = counters (burnRecord cfg s (burntBy (s, op, o))) ∨ (counters s' = counters s ∧ burntBy (s, op, o) = 0) := by
  cases op <;> simp only [body] at h
  case burnForCredit =>
    left
    obtain ⟨_, h1, h2⟩ := map_ok h
    cases h2
    obtain ⟨d, _, hg, _, _, rfl⟩ := burnForCredit_ok h1
    rfl
  case burnRecord => left; cases h; rfl
  all_goals refine Or.inr ⟨?_, rfl⟩
  case «initialize» =>
    cases h
    rcases onInitialize_cases cfg s with h1 | ⟨k, h1⟩ <;> rw [h1]
    exact foldl_updateSetting_counters _ _
  case finalize =>
    cases h
    unfold setPrice
    split <;> rfl
  case runtimeUpgrade => cases h; exact counters_upgrade cfg s
  case updateCreditSetting => cases h; rfl
  case setBurnPrice => cases h; rfl
  case forceModifyHistory => obtain ⟨_, h1, h2⟩ := map_ok h; cases h2; rfl
  case addOrUpdateCreditData =>
    split at h
    · obtain ⟨_, h1, h2⟩ := map_ok h; cases h2; rfl
    · cases h
  case burnNft b cls ok =>
    obtain ⟨_, h1, h2⟩ := map_ok h
    cases h2
    obtain ⟨n, d, hn, hg, _, _, rfl⟩ := burnNft_ok h1
    rfl
  case traffic b =>
    obtain ⟨⟨x, y⟩, h1, h2⟩ := map_ok h
    cases h2
    unfold trafficCredit at h1
    split at h1
    · cases h1; rfl
    · simp only at h1
      split at h1
      · split at h1
        · split at h1 <;> cases h1
          rfl
        · cases h1; rfl
      · cases h1; rfl
  case unstakingSlash b =>
    obtain ⟨_, h1, h2⟩ := map_ok h
    cases h2
    obtain ⟨st, d, hst, hg, rfl⟩ := unstakingSlash_ok h1
    rfl
  case unstakingSlashCredit w b =>
    obtain ⟨_, h1, h2⟩ := map_ok h
    cases h2
    obtain ⟨st, d, hst, hg, rfl⟩ := unstakingSlash_ok (admin_ok h1).2
    rfl
  case addOrUpdateCredit b gap camp =>
    obtain ⟨_, h1, h2⟩ := map_ok h
    cases h2
    unfold addOrUpdateCredit at h1
    obtain ⟨_, h3, h2⟩ := map_ok h1
    cases h2
    rfl
  case setDprPrice =>
    obtain ⟨_, h1, h2⟩ := map_ok h
    cases h2
    obtain ⟨_, _, _, rfl⟩ := setDprPrice_ok h1
    rfl
  case external => cases h; rfl
  case setStakingBalance => cases h; rfl
  case initDelegatorHistory b => cases h; rfl
  case slashCredit => obtain ⟨_, h1, h2⟩ := map_ok h; cases h2; rfl
  case getReward => obtain ⟨_, h1, h2⟩ := map_ok h; cases h2; rfl
  case tip => obtain ⟨_, h1, h2⟩ := map_ok h; cases h2; rfl
  case evmUpdateCredit => obtain ⟨_, h1, h2⟩ := map_ok h; cases h2; rfl
  case externalSetCreditData =>
    obtain ⟨_, h1, h2⟩ := map_ok h
    cases h2
    have h3 := (admin_ok h1).2
    split at h3
    · obtain ⟨_, h4, h2⟩ := map_ok h3; cases h2; rfl
    · cases h3
  case setSwitchCampaign =>
    obtain ⟨_, h1, h2⟩ := map_ok h
    cases h2
    have h3 := (admin_ok h1).2
    split at h3 <;> cases h3
    rfl
  case setMaintain =>
    obtain ⟨_, h1, h2⟩ := map_ok h
    cases h2
    have h3 := (deviceAdmin_ok h1).2
    cases h3
    split <;> rfl
  case unsetMaintain =>
    obtain ⟨_, h1, h2⟩ := map_ok h
    cases h2
    have h3 := (deviceAdmin_ok h1).2
    cases h3
    rfl
  all_goals
    obtain ⟨_, h1, h2⟩ := map_ok h
    cases h2
    have h3 := (admin_ok h1).2
    cases h3
    rfl

theorem counters_step (cfg : Cfg) (s : State) (op : Op) :
    counters (step cfg s op).1 = counters (burnRecord cfg s (burntBy (s, op, (step cfg s op).2))) ∨
      (counters (step cfg s op).1 = counters s ∧ burntBy (s, op, (step cfg s op).2) = 0) := by
  cases hb : body cfg s op with
  | ok r =>
    have hs : step cfg s op = r := by unfold step; rw [hb]
    rw [hs]
    exact counters_body cfg s r.1 op r.2 hb
  | error e =>
    right
    unfold step
    rw [hb]
    cases e with
    | panic => exact ⟨rfl, by cases op <;> rfl⟩
    | err e => exact ⟨rfl, by cases op <;> rfl⟩

/-- The sum of the counters of all eras. -/
def allDays (m : FMap Nat Balance) : Nat := m.sum fun _ v => v

theorem books_step (cfg : Cfg) (s : State) (op : Op) (era : Nat) :
    let r := step cfg s op
    let e := (s, op, r.2)
    r.1.totalBurn = s.totalBurn + burntBy e ∧
      (r.1.dailyBurn.get era).getD 0 = (s.dailyBurn.get era).getD 0 + (if blockToEra cfg s.block = era then burntBy e else 0) ∧
      allDays r.1.dailyBurn = allDays s.dailyBurn + burntBy e := by
  intro r e
  rcases counters_step cfg s op with h | ⟨h, h0⟩
  · have h1 : r.1.totalBurn = (burnRecord cfg s (burntBy e)).totalBurn := congrArg Prod.fst h
    have h2 : r.1.dailyBurn = (burnRecord cfg s (burntBy e)).dailyBurn := congrArg Prod.snd h
    rw [h1, h2]
    refine ⟨rfl, ?_, ?_⟩
    · simp only [burnRecord, currentEra]
      by_cases he : blockToEra cfg s.block = era
      · subst he
        rw [if_pos rfl, FMap.get_insert_self]
        rfl
      · rw [if_neg he, FMap.get_insert_ne _ _ (fun x => he x.symm)]
        rfl
    · simp only [burnRecord, allDays]
      have h3 := FMap.sum_insert s.dailyBurn (currentEra cfg s) ((s.dailyBurn.get (currentEra cfg s)).getD 0 + burntBy e) (fun _ v => v)
      cases hg : s.dailyBurn.get (currentEra cfg s) with
      | none =>
        rw [FMap.at?_none hg, hg] at h3
        simp only [Option.getD_none] at h3 ⊢
        omega
      | some v =>
        rw [FMap.at?_some hg, hg] at h3
        simp only [Option.getD_some] at h3 ⊢
        omega
  · have h1 : r.1.totalBurn = s.totalBurn := congrArg Prod.fst h
    have h2 : r.1.dailyBurn = s.dailyBurn := congrArg Prod.snd h
    have h3 : burntBy e = 0 := h0
    rw [h1, h2, h3]
    simp

theorem books_run (cfg : Cfg) (era : Nat) (ops : List Op) : ∀ s : State,
    let r := run cfg s ops
    r.1.totalBurn = s.totalBurn + burntIn r.2 ∧
      (r.1.dailyBurn.get era).getD 0 = (s.dailyBurn.get era).getD 0 + burntInEra cfg era r.2 ∧
      allDays r.1.dailyBurn = allDays s.dailyBurn + burntIn r.2 := by
  induction ops with
  | nil => intro s; exact ⟨rfl, rfl, rfl⟩
  | cons op ops ih =>
    intro s
    obtain ⟨a1, a2, a3⟩ := books_step cfg s op era
    obtain ⟨b1, b2, b3⟩ := ih (step cfg s op).1
    simp only [run, burntIn, burntInEra, List.map_cons, List.sum_cons] at b1 b2 b3 ⊢
    refine ⟨by omega, ?_, by omega⟩
    rw [b2, a2, Nat.add_assoc]

theorem counters_genesis (bank : Bank) (settings : List Setting) (users : List (AccId × Data)) :
    counters (genesis bank settings users) = (0, ∅) := by
  unfold genesis
  have key : ∀ (l : List (AccId × Data)) (s : State), counters (l.foldl (fun s u =>
      { s with core := { s.core with userCredit := s.core.userCredit.insert u.1 u.2 } }) s) = counters s := by
    intro l
    induction l with
    | nil => intro s; rfl
    | cons u l ih => intro s; exact ih _
  rw [key, foldl_updateSetting_counters]
  rfl

/-- At any time after genesis the total counter shows all that was burnt, the counter of an era all that was burnt in that era, and the
counters of the eras add up to the total. -/
theorem C150_counters (cfg : Cfg) (bank : Bank) (settings : List Setting) (users : List (AccId × Data)) (ops : List Op) (era : Nat) :
    let r := run cfg (genesis bank settings users) ops
    r.1.totalBurn = burntIn r.2 ∧ (r.1.dailyBurn.get era).getD 0 = burntInEra cfg era r.2 ∧
      r.1.dailyBurn.sum (fun _ v => v) = r.1.totalBurn := by
  intro r
  have hg := counters_genesis bank settings users
  have g1 : (genesis bank settings users).totalBurn = 0 := congrArg Prod.fst hg
  have g2 : (genesis bank settings users).dailyBurn = ∅ := congrArg Prod.snd hg
  obtain ⟨h1, h2, h3⟩ := books_run cfg era ops (genesis bank settings users)
  rw [g1, Nat.zero_add] at h1
  rw [g2] at h2 h3
  refine ⟨h1, ?_, ?_⟩
  · have : ((∅ : FMap Nat Balance).get era).getD 0 = 0 := rfl
    rw [this, Nat.zero_add] at h2
    exact h2
  · have : allDays (∅ : FMap Nat Balance) = 0 := rfl
    rw [this, Nat.zero_add] at h3
    exact h3.trans h1.symm

/-- On a history: 7 points are bought in era 1, the operation pallet reports 30 in era 1 and 12 in era 2, an attempt to buy too much
counts for nothing. -/
example :
    let ops : List Op := [.initDelegatorHistory 1, exTime 10 0 0, .slashCredit 1 (some 150), .burnForCredit 1 7, .burnForCredit 2 51,
      .burnRecord 30, exTime 10 0 0, .burnRecord 12]
    let r := run exCfg exGenesis ops
    (r.1.totalBurn, r.1.dailyBurn.get 1, r.1.dailyBurn.get 2, r.1.dailyBurn.get 0) = (350 * dpr + 42, some (350 * dpr + 30), some 12, none) ∧
      (burntIn r.2, burntInEra exCfg 1 r.2, burntInEra exCfg 2 r.2) = (350 * dpr + 42, 350 * dpr + 30, 12) := by
  decide +kernel

end Verif.Credit

/-! ### What the operation pallet reports -/

namespace Verif.Operation

/-- The amount of an accepted burn for EZC. -/
def ezcBy : State × Op × Out → Option Nat
  | (_, .burnForEzc _ v, .done) => some v
  | _ => none

theorem burnt_frame (cfg : Cfg) (s : State) (op : Op) (h1 : ∀ x v, op ≠ .burnForEzc x v) : (step cfg s op).1.burnt = s.burnt := by
  rcases step_cases cfg s op with ⟨r, hb, hs⟩ | ⟨e, hb, hs⟩
  swap
  · rw [hs]
  rw [hs]
  cases op with
  | bridgeOut w x v c =>
    simp only [body] at hb
    obtain ⟨s', hr, hs'⟩ := map_ok hb
    rw [← hs']
    unfold bridgeOut at hr
    split at hr
    · cases hr
    split at hr
    · cases hr
    · obtain ⟨b, _, rfl⟩ := map_ok hr; rfl
  | bridgeIn w x v c =>
    simp only [body] at hb
    obtain ⟨s', hr, hs'⟩ := map_ok hb
    rw [← hs']
    unfold bridgeIn at hr
    split at hr
    · cases hr
    split at hr
    · cases hr
    · obtain ⟨b, _, rfl⟩ := map_ok hr; rfl
  | setFund who f =>
    simp only [body] at hb
    obtain ⟨s', hr, hs'⟩ := map_ok hb
    rw [← hs']
    unfold setFund at hr
    split at hr
    · cases hr
    · cases hr; rfl
  | forceRemoveLock r w f =>
    simp only [body] at hb
    obtain ⟨s', hr, hs'⟩ := map_ok hb
    rw [← hs']
    unfold forceRemoveLock at hr
    split at hr
    · cases hr
    · cases hr; rfl
  | forceReserve x w v =>
    simp only [body] at hb
    obtain ⟨s', hr, hs'⟩ := map_ok hb
    rw [← hs']
    unfold forceReserve at hr
    split at hr
    · cases hr
    · obtain ⟨b, _, rfl⟩ := map_ok hr; rfl
  | setLimits r x d =>
    simp only [body] at hb
    obtain ⟨s', hr, hs'⟩ := map_ok hb
    rw [← hs']
    unfold setLimits at hr
    split at hr
    · cases hr
    · cases hr; rfl
  | unstakingRelease x a d m t =>
    simp only [body] at hb
    obtain ⟨s', hr, hs'⟩ := map_ok hb
    rw [← hs', (unstakingRelease_ok hr).2.2.2.2.2]
  | removeInfos x l =>
    simp only [body] at hb
    obtain ⟨s', hr, hs'⟩ := map_ok hb
    rw [← hs', removeInfos_ok hr]
  | burnForEzc x v => exact absurd rfl (h1 x v)
  | applyBridge w v c => simp only [body] at hb; cases hb; rfl
  | unlockAssets r x d v f =>
    simp only [body] at hb
    obtain ⟨s', hr, hs'⟩ := map_ok hb
    rw [← hs']
    unfold unlockAssets at hr
    split at hr
    · cases hr
    · obtain ⟨b, _, rfl⟩ := map_ok hr; rfl
  | finalize =>
    simp only [body] at hb
    cases hb
    show (finalize cfg s).1.burnt = s.burnt
    unfold finalize
    split
    · rfl
    · unfold releaseStaking
      split <;> rfl
  | external dt b p k => simp only [body] at hb; cases hb; rfl

theorem ezc_step (cfg : Cfg) (s : State) (op : Op) :
    (step cfg s op).1.burnt.reverse = s.burnt.reverse ++ (ezcBy (s, op, (step cfg s op).2)).toList := by
  by_cases h : ∃ x v, op = .burnForEzc x v
  · obtain ⟨x, v, rfl⟩ := h
    rcases step_cases cfg s (.burnForEzc x v) with ⟨r, hb, hs⟩ | ⟨e, hb, hs⟩
    · simp only [body] at hb
      obtain ⟨s', hr, hs'⟩ := map_ok hb
      rw [hs, ← hs']
      unfold burnForEzc at hr
      split at hr
      · cases hr
      · obtain ⟨b, _, rfl⟩ := map_ok hr
        simp [ezcBy]
    · rw [hs]
      simp [ezcBy]
  · have h' : ∀ x v, op ≠ .burnForEzc x v := fun x v e => h ⟨x, v, e⟩
    rw [burnt_frame cfg s op h']
    have : ezcBy (s, op, (step cfg s op).2) = none := by
      cases op with
      | burnForEzc x v => exact absurd rfl (h' x v)
      | _ => rfl
    rw [this]
    simp

/-- What the operation pallet reports as burnt to the credit pallet is, in order, the amount of every accepted burn for EZC, once. -/
theorem C150_reported (cfg : Cfg) (bank : Bank) (daily single : Balance) (ops : List Op) :
    let r := run cfg (genesis bank daily single) ops
    r.1.burnt.reverse = r.2.filterMap ezcBy := by
  have key : ∀ (ops : List Op) (s : State), (run cfg s ops).1.burnt.reverse = s.burnt.reverse ++ (run cfg s ops).2.filterMap ezcBy := by
    intro ops
    induction ops with
    | nil => intro s; simp [run]
    | cons op ops ih =>
      intro s
      simp only [run]
      rw [ih, ezc_step, List.append_assoc]
      congr 1
      cases h : ezcBy (s, op, (step cfg s op).2) with
      | none => rw [List.filterMap_cons_none h]; rfl
      | some v => rw [List.filterMap_cons_some h]; rfl
  have h := key ops (genesis bank daily single)
  have e : (genesis bank daily single).burnt = [] := rfl
  rw [e] at h
  simpa using h

/-- On a history: burns of 200 and 150; one below the minimum and one above the balance fail. -/
example : let r := run exCfg (genesis exBank 100 80) [.burnForEzc 1 200, .burnForEzc 1 0, .burnForEzc 2 150, .burnForEzc 2 5000]
    r.1.burnt = [150, 200] ∧ r.2.filterMap ezcBy = [200, 150] := by
  decide +kernel

end Verif.Operation
