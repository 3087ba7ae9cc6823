import Verif.CreditDaily
import Mathlib.Data.List.Nodup

/-
Property C82: parameters of the credit pallet are in the hands of the privileged accounts.
-/

namespace Verif.Credit

/-! ### Specification -/

/-- The account calling, for the calls reserved to credit administrators. -/
def adminCall : Op → Option AccId
  | .updateNftClass w _ _ | .updateNftSum w _ _ | .setSwitchCampaign w _ _ | .setNotSwitch w _
  | .setCreditBalances w _ | .setUsdtCreditBalances w _ | .setDefaultCampaign w _
  | .setUserStakingCredit w _ | .unstakingSlashCredit w _ | .externalSetCreditData w _ _
  | .setPriceDiffRate w _ | .unsetStakingBalance w _ => some w
  | _ => none

/-- The account calling, for the calls reserved to device administrators. -/
def deviceCall : Op → Option AccId
  | .setMaintain w _ | .unsetMaintain w _ => some w
  | _ => none

/-- Calls of root, and the runtime upgrade. -/
def rootCall : Op → Bool
  | .updateCreditSetting _ | .forceModifyHistory _ _ | .addOrUpdateCreditData _ _ | .setBurnPrice _
  | .runtimeUpgrade => true
  | _ => false

/-- The parameters: credit of NFT classes, campaign successors and exemptions, level prices in DPR,
USDT and of genesis, default campaigns, price tolerance, devices under maintenance, price of burning,
and the storage migration flag. -/
def params (s : State) :=
  ((s.nftClassCredit, s.campaignSwitch, s.notSwitch, s.creditBalances, s.usdtCreditBalances,
    s.genesisCreditBalances), (s.defaultCampaign, s.defaultUsdtCampaign, s.priceDiffRate, s.maintain,
    s.burnPrice, s.atV4, s.genesisChangeEra))

/-- Is device `a` under maintenance according to a history: the last successful call for it decides. -/
def underMaintenance (a : AccId) : Prop → List (State × Op × Out) → Prop
  | p, [] => p
  | p, (_, op, out) :: rest => underMaintenance a (match op, out with
      | .setMaintain _ b, .done => a = b ∨ p
      | .unsetMaintain _ b, .done => a ≠ b ∧ p
      | _, _ => p) rest

/-! ### Proof -/

/-- **C82** (a): without the privilege a privileged call fails and changes nothing. -/
theorem C82_guards (cfg : Cfg) (s : State) (op : Op) (who : AccId) :
    (adminCall op = some who → s.isAdmin who = false → step cfg s op = (s, .failed .notAdmin)) ∧
    (deviceCall op = some who → s.isDeviceAdmin who = false →
      step cfg s op = (s, .failed .notDeviceAdmin)) ∧
    (∀ p, op = .setDprPrice who p → s.isOracle who = false →
      (step cfg s op).1 = s ∧ (step cfg s op).2 ≠ .done) ∧
    (∀ user n add, op = .evmUpdateCredit who user n add → s.isEvmOperator who = false →
      step cfg s op = (s, .flag false)) := by
  refine ⟨?_, ?_, ?_, ?_⟩
  · intro h hw
    cases op <;> simp only [adminCall, Option.some.injEq, reduceCtorEq] at h <;> subst h <;>
      simp only [step, body, admin, hw, Bool.false_eq_true, if_false] <;> rfl
  · intro h hw
    cases op <;> simp only [deviceCall, Option.some.injEq, reduceCtorEq] at h <;> subst h <;>
      simp only [step, body, deviceAdmin, hw, Bool.false_eq_true, if_false] <;> rfl
  · rintro p rfl hw
    simp only [step, body, setDprPrice, hw, Bool.not_false, if_true]
    by_cases hp : p = 0
    · simp only [hp, if_true]
      exact ⟨rfl, by simp [Except.map]⟩
    · simp only [hp, if_false]
      exact ⟨rfl, by simp [Except.map]⟩
  · rintro user n add rfl hw
    simp only [step, body, evmUpdateCredit, hw, Bool.not_false, if_true]
    rfl

theorem foldl_updateSetting_params (l : List Setting) (s : State) :
    params (l.foldl updateSetting s) = params s := by
  induction l generalizing s with
  | nil => rfl
  | cons c l ih => exact ih _

/-- **C82** (b): no other call changes a parameter. -/
theorem C82_only_privileged (cfg : Cfg) (s : State) (op : Op) (ha : adminCall op = none)
    (hd : deviceCall op = none) (hr : rootCall op = false) :
    params (step cfg s op).1 = params s := by
  rcases step_cases (cfg := cfg) s op with ⟨s', o, h, h2⟩ | h
  rotate_left
  · rw [h]
  rw [h2]
  clear h2
  show params s' = params s
  cases op <;> simp only [adminCall, deviceCall, rootCall, reduceCtorEq] at ha hd hr <;>
    simp only [body] at h
  case «initialize» =>
    cases h
    rcases onInitialize_cases cfg s with h1 | ⟨k, h1⟩ <;> rw [h1]
    exact foldl_updateSetting_params _ _
  case finalize =>
    cases h
    unfold setPrice
    split <;> rfl
  case burnForCredit =>
    obtain ⟨_, h1, h2⟩ := map_ok h
    cases h2
    obtain ⟨d, _, hg, _, _, rfl⟩ := burnForCredit_ok h1
    rfl
  case burnNft b cls ok =>
    obtain ⟨_, h1, h2⟩ := map_ok h
    cases h2
    obtain ⟨n, d, hn, hg, _, _, rfl⟩ := burnNft_ok h1
    rfl
  case traffic b =>
    obtain ⟨⟨x, y⟩, h1, h2⟩ := map_ok h
    cases h2
    unfold trafficCredit at h1
    split at h1
    · cases h1; rfl
    · simp only at h1
      split at h1
      · split at h1
        · split at h1 <;> cases h1
          rfl
        · cases h1; rfl
      · cases h1; rfl
  case unstakingSlash b =>
    obtain ⟨_, h1, h2⟩ := map_ok h
    cases h2
    obtain ⟨st, d, hst, hg, rfl⟩ := unstakingSlash_ok h1
    rfl
  case addOrUpdateCredit b gap camp =>
    obtain ⟨_, h1, h2⟩ := map_ok h
    cases h2
    unfold addOrUpdateCredit at h1
    obtain ⟨_, h3, h2⟩ := map_ok h1
    cases h2
    rfl
  case setDprPrice =>
    obtain ⟨_, h1, h2⟩ := map_ok h
    cases h2
    obtain ⟨_, _, _, rfl⟩ := setDprPrice_ok h1
    rfl
  case external => cases h; rfl
  case setStakingBalance => cases h; rfl
  case burnRecord => cases h; rfl
  case initDelegatorHistory b => cases h; rfl
  case slashCredit => obtain ⟨_, h1, h2⟩ := map_ok h; cases h2; rfl
  case getReward => obtain ⟨_, h1, h2⟩ := map_ok h; cases h2; rfl
  case tip => obtain ⟨_, h1, h2⟩ := map_ok h; cases h2; rfl
  case evmUpdateCredit => obtain ⟨_, h1, h2⟩ := map_ok h; cases h2; rfl

/-- **C82** (c): with the privilege each call sets the parameter it names, for good: the values are
those given, other keys keep theirs. -/
theorem C82_effects (cfg : Cfg) (s : State) (who : AccId) (hw : s.isAdmin who = true) :
    (∀ cls n k, let r := step cfg s (.updateNftClass who cls n)
      r.2 = .done ∧ r.1.nftClassCredit.get k = if k = cls then some n else s.nftClassCredit.get k) ∧
    (∀ olds news, olds.Nodup → olds.length = news.length →
      let r := step cfg s (.setSwitchCampaign who olds news)
      r.2 = .done ∧ (∀ p ∈ olds.zip news, r.1.campaignSwitch.get p.1 = some p.2) ∧
        (∀ k, k ∉ olds → r.1.campaignSwitch.get k = s.campaignSwitch.get k)) ∧
    (∀ l a, let r := step cfg s (.setNotSwitch who l)
      r.2 = .done ∧ (r.1.notSwitch.contains a = true ↔ a ∈ l ∨ s.notSwitch.contains a = true)) ∧
    (∀ l, let r := step cfg s (.setCreditBalances who l)
      r.2 = .done ∧ r.1.creditBalances = l ∧ r.1.usdtCreditBalances = s.usdtCreditBalances) ∧
    (∀ l, let r := step cfg s (.setUsdtCreditBalances who l)
      r.2 = .done ∧ r.1.usdtCreditBalances = l ∧ r.1.creditBalances = s.creditBalances) ∧
    (∀ n, let r := step cfg s (.setDefaultCampaign who n)
      r.2 = .done ∧ r.1.defaultCampaign = n) ∧
    (∀ n, let r := step cfg s (.setPriceDiffRate who n)
      r.2 = .done ∧ r.1.priceDiffRate = some n) ∧
    (∀ a b, let r := step cfg s (.unsetStakingBalance who a)
      r.2 = .done ∧ r.1.stakingBalance.get b = if b = a then none else s.stakingBalance.get b) ∧
    (∀ v, let r := step cfg s (.setBurnPrice v)
      r.2 = .done ∧ r.1.burnPrice = v ∧ r.1.core = s.core ∧ r.1.bank = s.bank) := by
  refine ⟨?_, ?_, ?_, ?_, ?_, ?_, ?_, ?_, fun v => ⟨rfl, rfl, rfl, rfl⟩⟩
  · intro cls n k
    simp only [step, body, admin, hw, if_true, Except.map, FMap.get_insert, and_self, true_and]
  · intro olds news hnd hlen
    simp only [step, body, admin, hw, hlen, if_true, Except.map, true_and]
    have key : ∀ (news olds : List Nat) (m : FMap Nat Nat), olds.Nodup → olds.length = news.length →
        (∀ p ∈ olds.zip news, (insertAll m (olds.zip news)).get p.1 = some p.2) ∧
        (∀ k, k ∉ olds → (insertAll m (olds.zip news)).get k = m.get k) := by
      intro news
      induction news with
      | nil =>
        intro olds m _ hl
        have : olds = [] := List.length_eq_zero_iff.mp hl
        subst this
        exact ⟨fun p hp => (nomatch hp), fun k _ => rfl⟩
      | cons n news ih =>
        intro olds m hnd hl
        cases olds with
        | nil => cases hl
        | cons x olds =>
          rw [List.nodup_cons] at hnd
          have hl' : olds.length = news.length := by simpa using hl
          obtain ⟨h1, h2⟩ := ih olds (m.insert x n) hnd.2 hl'
          refine ⟨?_, ?_⟩
          · intro p hp
            rw [List.zip_cons_cons, List.mem_cons] at hp
            rcases hp with rfl | hp
            · show (insertAll (m.insert x n) (olds.zip news)).get x = some n
              rw [h2 x hnd.1, FMap.get_insert_self]
            · exact h1 p hp
          · intro k hk
            rw [List.mem_cons, not_or] at hk
            show (insertAll (m.insert x n) (olds.zip news)).get k = m.get k
            rw [h2 k hk.2, FMap.get_insert_ne _ _ hk.1]
    exact key news olds _ hnd hlen
  · intro l a
    simp only [step, body, admin, hw, if_true, Except.map, true_and]
    generalize s.notSwitch = m
    induction l generalizing m with
    | nil => simp
    | cons x l ih =>
      rw [List.foldl_cons, ih, List.mem_cons, FMap.contains_iff, FMap.contains_iff, FMap.get_insert]
      by_cases hx : a = x
      · simp [hx]
      · simp [hx]
  · intro l
    simp only [step, body, admin, hw, if_true, Except.map, and_self]
  · intro l
    simp only [step, body, admin, hw, if_true, Except.map, and_self]
  · intro n
    simp only [step, body, admin, hw, if_true, Except.map, and_self]
  · intro n
    simp only [step, body, admin, hw, if_true, Except.map, and_self]
  · intro a b
    simp only [step, body, admin, hw, if_true, Except.map, FMap.get_erase, and_self, true_and]

theorem maintain_step (cfg : Cfg) (s : State) (op : Op) (a : AccId) (hn : s.maintain.Nodup) :
    (step cfg s op).1.maintain.Nodup ∧
    (a ∈ (step cfg s op).1.maintain ↔ underMaintenance a (a ∈ s.maintain) [(s, op, (step cfg s op).2)]) := by
  by_cases hop : (∃ w b, op = .setMaintain w b) ∨ (∃ w b, op = .unsetMaintain w b)
  · rcases hop with ⟨w, b, rfl⟩ | ⟨w, b, rfl⟩
    · simp only [step, body, deviceAdmin]
      cases s.isDeviceAdmin w with
      | false => exact ⟨hn, Iff.rfl⟩
      | true =>
        by_cases hb : b ∈ s.maintain
        · simp only [if_true, Except.map, hb, underMaintenance]
          refine ⟨hn, fun h => Or.inr h, ?_⟩
          rintro (rfl | h)
          · exact hb
          · exact h
        · simp only [if_true, Except.map, hb, if_false, underMaintenance]
          refine ⟨?_, ?_⟩
          · rw [List.nodup_append]
            refine ⟨hn, List.nodup_singleton _, ?_⟩
            intro x hx y hy
            rw [List.mem_singleton] at hy
            rintro rfl
            exact hb (hy ▸ hx)
          · rw [List.mem_append, List.mem_singleton, or_comm]
    · simp only [step, body, deviceAdmin]
      cases s.isDeviceAdmin w with
      | false => exact ⟨hn, Iff.rfl⟩
      | true =>
        simp only [if_true, Except.map, underMaintenance]
        exact ⟨hn.erase b, hn.mem_erase_iff⟩
  · have hfr : (step cfg s op).1.maintain = s.maintain := by
      rcases step_cases (cfg := cfg) s op with ⟨s', o, h, h2⟩ | h
      · by_cases hpa : adminCall op = none ∧ rootCall op = false
        · have hd : deviceCall op = none := by
            cases op <;> first | rfl | exact absurd (Or.inl ⟨_, _, rfl⟩) hop | exact absurd (Or.inr ⟨_, _, rfl⟩) hop
          have := C82_only_privileged cfg s op hpa.1 hd hpa.2
          simp only [params, Prod.mk.injEq] at this
          exact this.2.2.2.2.1
        · rw [h2]
          show s'.maintain = s.maintain
          clear hop h2
          cases op <;> simp only [adminCall, rootCall, reduceCtorEq, and_self, not_true, and_true,
            Bool.true_eq_false, and_false, not_false_iff] at hpa <;> simp only [body] at h
          case runtimeUpgrade =>
            cases h
            unfold onRuntimeUpgrade
            split
            · have h1 := (foldl_updateSetting_params (campaign7Settings (10 - (currentEra cfg
                (campaign8Settings.foldl updateSetting s) -
                (campaign8Settings.foldl updateSetting s).genesisChangeEra) / 180 % 256))
                (campaign8Settings.foldl updateSetting s)).trans (foldl_updateSetting_params _ s)
              simp only [params, Prod.mk.injEq] at h1
              exact h1.2.2.2.2.1
            · rfl
          case updateCreditSetting => cases h; rfl
          case setBurnPrice => cases h; rfl
          case forceModifyHistory => obtain ⟨_, h1, h2⟩ := map_ok h; cases h2; rfl
          case addOrUpdateCreditData =>
            split at h
            · obtain ⟨_, h1, h2⟩ := map_ok h
              cases h2; rfl
            · cases h
          case unstakingSlashCredit w b =>
            obtain ⟨_, h1, h2⟩ := map_ok h
            cases h2
            have h3 := (admin_ok h1).2
            obtain ⟨st, d, hst, hg, rfl⟩ := unstakingSlash_ok h3
            rfl
          case setSwitchCampaign =>
            obtain ⟨_, h1, h2⟩ := map_ok h
            cases h2
            have h3 := (admin_ok h1).2
            split at h3
            · cases h3; rfl
            · cases h3
          case externalSetCreditData w b d =>
            obtain ⟨_, h1, h2⟩ := map_ok h
            cases h2
            have h3 := (admin_ok h1).2
            split at h3
            · obtain ⟨_, h4, h2⟩ := map_ok h3
              cases h2
              rfl
            · cases h3
          all_goals
            obtain ⟨_, h1, h2⟩ := map_ok h
            cases h2
            have h3 := (admin_ok h1).2
            cases h3; rfl
      · rw [h]
    rw [hfr]
    refine ⟨hn, ?_⟩
    cases op <;> first | exact Iff.rfl | exact absurd (Or.inl ⟨_, _, rfl⟩) hop | exact absurd (Or.inr ⟨_, _, rfl⟩) hop

/-- **C82** (d): a device is exempted from offline penalties exactly if the last successful call of a
device administrator about it registered it. -/
theorem C82_maintenance (cfg : Cfg) (s : State) (ops : List Op) (a : AccId) (h0 : s.maintain = []) :
    a ∈ (run cfg s ops).1.maintain ↔ underMaintenance a False (run cfg s ops).2 := by
  have key : ∀ (ops : List Op) (s : State), s.maintain.Nodup →
      (a ∈ (run cfg s ops).1.maintain ↔ underMaintenance a (a ∈ s.maintain) (run cfg s ops).2) := by
    intro ops
    induction ops with
    | nil => intro s _; exact Iff.rfl
    | cons op ops ih =>
      intro s hn
      obtain ⟨h1, h2⟩ := maintain_step cfg s op a hn
      have h3 := ih _ h1
      show a ∈ (run cfg (step cfg s op).1 ops).1.maintain ↔ _
      rw [h3, propext h2]
      rfl
  have := key ops s (by rw [h0]; exact List.nodup_nil)
  rw [this, h0]
  simp only [List.not_mem_nil]

/-- Account 1 is administrator, account 2 is not: 2 cannot change the default campaign, 1 can; device
4 is registered, registered again, and released. -/
example :
    let s := (run exCfg exGenesis [exTime 25 0 3]).1
    adminCall (.setDefaultCampaign 2 7) = some 2 ∧ s.isAdmin 2 = false ∧ s.isAdmin 1 = true ∧
    (step exCfg s (.setDefaultCampaign 2 7)).2 = .failed .notAdmin ∧
    (step exCfg s (.setDefaultCampaign 1 7)).1.defaultCampaign = 7 ∧
    deviceCall (.setMaintain 2 4) = some 2 ∧ s.isDeviceAdmin 2 = false ∧
    s.maintain = [] ∧
    (run exCfg s [.setMaintain 1 4, .setMaintain 1 4, .setMaintain 1 5]).1.maintain = [4, 5] ∧
    (run exCfg s [.setMaintain 1 4, .setMaintain 1 4, .setMaintain 1 5, .unsetMaintain 1 4]).1.maintain = [5] ∧
    (run exCfg s [.setSwitchCampaign 1 [4, 6] [8, 7]]).1.campaignSwitch.get 6 = some 7 := by
  decide +kernel

end Verif.Credit
