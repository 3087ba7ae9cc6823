import Verif.CreditSteps

/-
Properties C09, C13, C16, C19, C20, C21, C57, C58 of the credit pallet.
-/

namespace Verif.Credit

/-! ### Concrete setting used by the examples -/

/-- Era of 10 blocks, delegation minimum 100, NFT cap 50, treasury 9. -/
def exCfg : Cfg := ⟨10, 5, 1, 100, 50, 9⟩

def exBank : Bank :=
  { ed := 10, accts := (FMap.empty.insert 1 ⟨1000 * dpr, 0⟩).insert 9 ⟨100, 0⟩,
    frozen := fun _ => 0, pinned := fun _ => false, issuance := 1000 * dpr + 100 }

theorem exBank_inv : exBank.Inv := by
  refine ⟨by decide, by decide, ?_⟩
  intro a x h
  simp only [exBank, FMap.get_insert, FMap.get_empty'] at h
  split at h
  · cases h; decide
  split at h
  · cases h; decide
  cases h

/-- Account 1 starts with credit 250. Settings of campaigns 7 and 8 as in the runtime. -/
def exGenesis : State :=
  genesis exBank (campaign8Settings ++ campaign7Settings 10) [(1, Data.new 8 250), (2, Data.new 8 50)]

/-- `blocks` blocks later, at time `now`; 1 is credit admin and oracle, EVM address 7 is operator and
bound to account 3, device 1 is onboard since block 0 and has been offline `off` eras. -/
def exTime (blocks now off : Nat) : Op :=
  .external blocks now (fun _ => some 0) (fun _ => off) (fun e => if e = 7 then some 3 else none)
    (· == 1) (· == 1) (· == 1) (· == 7) exBank

/-! ### C13 -/

/-- **C13** (a): the level is `score / 100`, at most 8. -/
theorem C13_level_bands (score : Nat) : (Level.ofScore score).toU8 = min (score / 100) 8 := by
  unfold Level.ofScore
  repeat' split
  all_goals simp only [Level.toU8]; omega

/-- **C13** (b): a higher score never has a lower level. -/
theorem C13_level_monotone (x y : Nat) (h : x ≤ y) :
    (Level.ofScore x).toU8 ≤ (Level.ofScore y).toU8 := by
  rw [C13_level_bands, C13_level_bands]
  have := Nat.div_le_div_right (c := 100) h
  omega

/-- **C13** (c): level → number → level is the identity; numbers up to 8 survive the round trip and
all larger numbers are read as level zero. -/
theorem C13_level_numbers :
    (∀ l : Level, Level.ofU8 l.toU8 = l) ∧ (∀ n, n ≤ 8 → (Level.ofU8 n).toU8 = n) ∧
    (∀ n, 8 < n → Level.ofU8 n = .zero) := by
  refine ⟨fun l => by cases l <;> rfl, ?_, ?_⟩
  · intro n hn
    match n, hn with
    | 0, _ | 1, _ | 2, _ | 3, _ | 4, _ | 5, _ | 6, _ | 7, _ | 8, _ => rfl
  · intro n hn
    unfold Level.ofU8
    split <;> first | omega | rfl

example : (Level.ofScore 799).toU8 = 7 ∧ (Level.ofScore 800).toU8 = 8 ∧ Level.ofU8 9 = .zero := by
  decide

/-! ### C16 -/

/-- **C16** (a): after every history of operations (in which root does not date a history entry into
the future) the recorded history of every account is strictly increasing in era, not dated after the
current era, and ends with the current credit data. -/
theorem C16_history_chronological (cfg : Cfg) (bank : Bank) (settings : List Setting)
    (users : List (AccId × Data)) (ops : List Op)
    (ht : ∀ e ∈ (run cfg (genesis bank settings users) ops).2, timely cfg e.1 e.2.1)
    (s : State) (hs : s = (run cfg (genesis bank settings users) ops).1) (a : AccId) :
    Increasing ((historyOf s.core a).map Prod.fst) ∧
    ∀ e, (historyOf s.core a).getLast? = some e →
      e.1 ≤ currentEra cfg s ∧ s.core.userCredit.get a = some e.2 := by
  subst hs
  have hi := (run_inv (lv := False) (genesis_inv cfg bank settings users False.elim) ht).1
  generalize (run cfg (genesis bank settings users) ops).1 = s at *
  cases hg : s.core.history.get a with
  | none =>
    have : historyOf s.core a = [] := by simp [historyOf, hg]
    rw [this]
    exact ⟨by simp [Increasing], by simp⟩
  | some h =>
    have hh : historyOf s.core a = h := by simp [historyOf, hg]
    obtain ⟨h1, e, h2, h3, h4⟩ := hi.chron a h hg
    rw [hh]
    refine ⟨?_, ?_⟩
    · unfold Increasing
      rw [List.pairwise_map]; exact h1
    · intro e' he'
      rw [h2] at he'
      cases he'
      exact ⟨h3, h4⟩

/-- **C16** (b): a history once started is never lost, unless the credit of the account is removed
altogether. -/
theorem C16_history_kept (cfg : Cfg) (bank : Bank) (settings : List Setting)
    (users : List (AccId × Data)) (ops : List Op)
    (ht : ∀ e ∈ (run cfg (genesis bank settings users) ops).2, timely cfg e.1 e.2.1)
    (s : State) (hs : s = (run cfg (genesis bank settings users) ops).1) (a : AccId) (op : Op)
    (hn : historyOf s.core a ≠ []) :
    historyOf (step cfg s op).1.core a ≠ [] ∨ (step cfg s op).1.core.userCredit.get a = none := by
  subst hs
  exact step_kept (run_inv (lv := False) (genesis_inv cfg bank settings users False.elim) ht).1 a hn

/-- A history with three entries in eras 0, 2 and 3. -/
def exHistory : List Op :=
  [.initDelegatorHistory 1, exTime 25 100 0, .slashCredit 1 none, .tip 1 5, exTime 10 200 0,
   .slashCredit 1 (some 60), .forceModifyHistory 1 1]

example : ((historyOf (run exCfg exGenesis exHistory).1.core 1).map fun e => (e.1, e.2.credit))
    = [(1, 250), (2, 254), (3, 194)] := by decide +kernel

example : ∀ e ∈ (run exCfg exGenesis exHistory).2, timely exCfg e.1 e.2.1 := by
  simp only [exHistory, run, List.mem_cons, List.not_mem_nil, or_false, forall_eq_or_imp, forall_eq,
    timely, true_and, exTime, step, body, slashCredit]
  decide +kernel

/-- Without the condition on root the claim fails: an entry dated era 99 in era 2 is followed by an
entry of era 3. -/
theorem C16_future_entry_breaks_order :
    ∃ ops, ¬ Increasing ((historyOf (run exCfg exGenesis ops).1.core 1).map Prod.fst) := by
  refine ⟨[.initDelegatorHistory 1, .forceModifyHistory 1 99, exTime 30 100 0, .tip 1 5], ?_⟩
  have h : (historyOf (run exCfg exGenesis [.initDelegatorHistory 1, .forceModifyHistory 1 99,
      exTime 30 100 0, .tip 1 5]).1.core 1).map Prod.fst = [99, 3] := by decide +kernel
  rw [h]
  simp [Increasing]

/-! ### C58 -/

/-- **C58**: if the genesis records are consistent, the stored level always is the level of the stored
score, in the current records and in the history. -/
theorem C58_level_matches_score (cfg : Cfg) (bank : Bank) (settings : List Setting)
    (users : List (AccId × Data)) (hu : ∀ u ∈ users, u.2.level = .ofScore u.2.credit)
    (ops : List Op) (ht : ∀ e ∈ (run cfg (genesis bank settings users) ops).2, timely cfg e.1 e.2.1)
    (s : State) (hs : s = (run cfg (genesis bank settings users) ops).1) (a : AccId) :
    (∀ d, s.core.userCredit.get a = some d → d.level.toU8 = min (d.credit / 100) 8) ∧
    (∀ e ∈ historyOf s.core a, e.2.level.toU8 = min (e.2.credit / 100) 8) := by
  subst hs
  have hi := (run_inv (lv := True) (genesis_inv cfg bank settings users (fun _ => hu)) ht).1
  refine ⟨?_, ?_⟩
  · intro d hd
    rw [hi.level trivial a d hd, C13_level_bands]
  · intro e he
    have : (run cfg (genesis bank settings users) ops).1.core.history.get a
        = some (historyOf (run cfg (genesis bank settings users) ops).1.core a) := by
      apply historyOf_nonempty
      cases hh : historyOf (run cfg (genesis bank settings users) ops).1.core a with
      | nil => rw [hh] at he; cases he
      | cons x xs => rfl
    rw [hi.hlevel trivial a _ this e he, C13_level_bands]

example : (run exCfg exGenesis exHistory).1.core.userCredit.get 1 = some
    { Data.new 8 250 with credit := 194, level := .one } := by decide +kernel

/-! ### C09 -/

theorem interval_le {x t i : Nat} (h : 1 ≤ (x - t) / i) : t + i ≤ x := by
  by_cases hi : i = 0
  · subst hi; simp at h
  · have : i ≤ x - t := by
      apply Nat.le_of_not_lt
      intro hlt
      rw [Nat.div_eq_of_lt hlt] at h
      omega
    omega

theorem run_increase (cfg : Cfg) (a : AccId) (ops : List Op) (s : State) :
    (increaseTimes a (run cfg s ops).2).Pairwise
        (fun x y => x + cfg.blocksPerEra * cfg.secsPerBlock ≤ y) ∧
      ∀ t, s.lastUpdateTs.get a = some t → ∀ x ∈ increaseTimes a (run cfg s ops).2,
        t + cfg.blocksPerEra * cfg.secsPerBlock ≤ x := by
  induction ops generalizing s with
  | nil => simp [run, increaseTimes]
  | cons op ops ih =>
    have hother : (∀ b, op ≠ .traffic b) →
        (step cfg s op).1.lastUpdateTs = s.lastUpdateTs := by
      intro hn
      rcases step_cases (cfg := cfg) s op with ⟨s', o, h1, h2⟩ | h
      · rw [h2]
        cases hsp : special op with
        | false =>
          have := body_frame h1 hsp
          simp only [frame, Prod.mk.injEq] at this
          exact this.2.2.2.1
        | true =>
          cases op <;> simp only [special, Bool.false_eq_true] at hsp <;> simp only [body] at h1
          case «initialize» =>
            cases h1
            rcases onInitialize_cases cfg s with h3 | ⟨k, h3⟩ <;> rw [h3]
            exact (foldl_updateSetting_fields _ _).2.2.1
          case finalize => cases h1; unfold setPrice; split <;> rfl
          case runtimeUpgrade =>
            cases h1
            unfold onRuntimeUpgrade
            split
            · simp only
              rw [(foldl_updateSetting_fields _ _).2.2.1, (foldl_updateSetting_fields _ _).2.2.1]
            · rfl
          case updateCreditSetting => cases h1; rfl
          case traffic b => exact absurd rfl (hn b)
          case setDprPrice =>
            obtain ⟨_, h3, h4⟩ := map_ok h1
            cases h4
            obtain ⟨_, _, _, rfl⟩ := setDprPrice_ok h3
            rfl
          case burnNft =>
            obtain ⟨_, h3, h4⟩ := map_ok h1
            cases h4
            obtain ⟨_, _, _, _, _, _, rfl⟩ := burnNft_ok h3
            rfl
          all_goals
            obtain ⟨_, h3, h4⟩ := map_ok h1
            cases h4
            have h5 := (admin_ok h3).2
            cases h5
            rfl
      · rw [h]
    obtain ⟨ih1, ih2⟩ := ih (step cfg s op).1
    simp only [run, increaseTimes, List.filterMap_cons] at ih1 ih2 ⊢
    by_cases htr : ∃ b, op = .traffic b
    · obtain ⟨b, rfl⟩ := htr
      rcases step_cases (cfg := cfg) s (.traffic b) with ⟨s', o, h1, h2⟩ | h
      · rw [h2] at ih1 ih2 ⊢
        simp only [body] at h1
        obtain ⟨⟨s1, fl⟩, h3, h4⟩ := map_ok h1
        cases h4
        obtain ⟨-, -, h5, h6⟩ := trafficCredit_ok h3
        cases fl with
        | false =>
          simp only [(h5 rfl).2] at ih2 ⊢
          exact ⟨ih1, ih2⟩
        | true =>
          obtain ⟨d, ob, hd, hob, hiv, -, h7⟩ := h6 rfl
          simp only
          by_cases hb : b = a
          · subst hb
            simp only [if_true, List.pairwise_cons, List.mem_cons, forall_eq_or_imp]
            have h8 := ih2 s.now (by rw [h7]; simp)
            refine ⟨⟨h8, ih1⟩, ?_⟩
            intro t ht
            have h9 : t + cfg.blocksPerEra * cfg.secsPerBlock ≤ s.now := by
              unfold updateInterval at hiv
              rw [ht] at hiv
              exact interval_le hiv
            exact ⟨h9, fun x hx => by have := h8 x hx; omega⟩
          · simp only [hb, if_false]
            refine ⟨ih1, ?_⟩
            intro t ht
            apply ih2 t
            rw [h7, FMap.get_insert_ne _ _ (fun h => hb h.symm)]
            exact ht
      · rw [h] at ih1 ih2
        have : ∀ fl, (step cfg s (.traffic b)).2 = .flag fl → fl = false := by
          intro fl hfl
          unfold step at hfl h
          cases hbd : body cfg s (.traffic b) with
          | error e => rw [hbd] at hfl; cases e <;> cases hfl
          | ok r =>
            rw [hbd] at hfl h
            simp only [body] at hbd
            obtain ⟨⟨s1, fl'⟩, h3, h4⟩ := map_ok hbd
            subst h4
            simp only at hfl h
            cases hfl
            subst h
            cases fl with
            | false => rfl
            | true =>
              obtain ⟨-, -, -, h6⟩ := trafficCredit_ok h3
              obtain ⟨d, ob, hd, -, hiv, -, h7⟩ := h6 rfl
              have hts : s1.lastUpdateTs.get b = some s1.now := by
                rw [h7]; simp
              unfold updateInterval at hiv
              rw [hts] at hiv
              simp at hiv
        cases hout : (step cfg s (.traffic b)).2 with
        | flag fl =>
          have := this fl hout
          subst this
          simp only [h]
          exact ⟨ih1, ih2⟩
        | _ => simp only [h]; exact ⟨ih1, ih2⟩
    · have hne : ∀ b, op ≠ .traffic b := fun b hb => htr ⟨b, hb⟩
      rw [hother hne] at ih2
      cases op <;> first | exact ⟨ih1, ih2⟩ | exact absurd rfl (hne _)

/-- **C09** (a): in every history, the moments at which traffic reports raise the credit of one
account are at least one full interval (one era in seconds) apart. -/
theorem C09_increases_apart (cfg : Cfg) (s : State) (ops : List Op) (a : AccId) :
    (increaseTimes a (run cfg s ops).2).Pairwise
      (fun x y => x + cfg.blocksPerEra * cfg.secsPerBlock ≤ y) :=
  (run_increase cfg a ops s).1

/-- **C09** (b): a traffic report raises the credit of the account by exactly one point (up to the
maximal 64-bit score) or leaves every credit record unchanged. -/
theorem C09_report_effect (cfg : Cfg) (s s' : State) (a : AccId) (b : Bool)
    (h : step cfg s (.traffic a) = (s', .flag b)) :
    if b then
      ∃ n, creditScore s.core a = some n ∧ creditScore s'.core a = some (min (n + 1) (2 ^ 64 - 1)) ∧
        ∀ a', a' ≠ a → s'.core.userCredit.get a' = s.core.userCredit.get a'
    else s'.core = s.core := by
  unfold step at h
  cases hb : body cfg s (.traffic a) with
  | error e => rw [hb] at h; cases e <;> cases h
  | ok r =>
    rw [hb] at h
    simp only at h
    subst h
    simp only [body] at hb
    obtain ⟨⟨s1, fl⟩, h1, h2⟩ := map_ok hb
    cases h2
    obtain ⟨-, -, h3, h4⟩ := trafficCredit_ok h1
    cases fl with
    | false => simp only [Bool.false_eq_true, if_false]; exact (h3 rfl).1
    | true =>
      obtain ⟨d, ob, hd, -, -, h5, -⟩ := h4 rfl
      simp only [if_true]
      refine ⟨d.credit, by simp [creditScore, hd], ?_, ?_⟩
      · rw [h5]; simp [creditScore, writeCore, Data.update, satAdd64, u64Max]
      · intro a' ha'
        rw [h5]
        simp only [writeCore, FMap.get_insert_ne _ _ ha']

/-- Two increases 50 seconds apart; a report 49 seconds after the first is ignored. -/
example : increaseTimes 1 (run exCfg exGenesis [exTime 20 1000 0, .traffic 1, exTime 9 1049 0,
    .traffic 1, exTime 1 1050 0, .traffic 1, .traffic 2]).2 = [1000, 1050] := by decide +kernel

/-! ### C19 -/

theorem foldl_max_le (l : List Nat) (m : Nat) (x : Nat) (hx : x ≤ l.foldl max m) :
    x ≤ m ∨ ∃ y ∈ l, x ≤ y := by
  induction l generalizing m with
  | nil => exact Or.inl hx
  | cons z zs ih =>
    rcases ih (max m z) hx with h | ⟨y, hy, h⟩
    · by_cases hz : x ≤ z
      · exact Or.inr ⟨z, by simp, hz⟩
      · left; omega
    · exact Or.inr ⟨y, by simp [hy], h⟩

theorem step_ok {cfg : Cfg} {s s' : State} {op : Op} {o : Out} (h : step cfg s op = (s', o))
    (ho : ∀ e, o ≠ .failed e) (hp : o ≠ .panicked) : body cfg s op = .ok (s', o) := by
  unfold step at h
  cases hb : body cfg s op with
  | ok r => rw [hb] at h; simp only at h; rw [h]
  | error e =>
    rw [hb] at h
    cases e with
    | panic => simp only [Prod.mk.injEq] at h; exact absurd h.2.symm hp
    | err e => simp only [Prod.mk.injEq] at h; exact absurd h.2.symm (ho e)

/-- **C19**: a successful burn of fewer than 2^32 points raises the credit by exactly the requested
score (up to the maximal 64-bit score), takes exactly price × score from the free balance of the
caller and hands it to the treasury, leaves all other records alone, and does not lift the credit
above both the delegation minimum and every credit recorded in the account's history. -/
theorem C19_burn_for_credit (cfg : Cfg) (s s' : State) (a : AccId) (score : Nat)
    (hb : s.bank.Inv) (hscore : score < 2 ^ 32) (ha : a ≠ cfg.burnedTo)
    (htr : s.bank.accts.contains cfg.burnedTo = true)
    (h : step cfg s (.burnForCredit a score) = (s', .done)) :
    ∃ n, creditScore s.core a = some n ∧
      creditScore s'.core a = some (min (n + score) (2 ^ 64 - 1)) ∧
      s'.bank.free a + s.burnPrice * score = s.bank.free a ∧
      s'.bank.free cfg.burnedTo = s.bank.free cfg.burnedTo + s.burnPrice * score ∧
      s'.bank.sumAll = s.bank.sumAll ∧
      s'.totalBurn = s.totalBurn + s.burnPrice * score ∧
      (∀ a', a' ≠ a → s'.core.userCredit.get a' = s.core.userCredit.get a') ∧
      (min (n + score) (2 ^ 64 - 1) ≤ cfg.minCredit ∨
        ∃ e ∈ historyOf s.core a, min (n + score) (2 ^ 64 - 1) ≤ e.2.credit) := by
  have hbody := step_ok h (by simp) (by simp)
  simp only [body] at hbody
  obtain ⟨s1, h1, h2⟩ := map_ok hbody
  cases h2
  obtain ⟨d, b, hd, hle, hw, rfl⟩ := burnForCredit_ok h1
  rw [Nat.mod_eq_of_lt hscore] at hw
  obtain ⟨w1, w2, w3, w4, w5, w6, w7, w8⟩ := Bank.withdraw_keep hb hw
  have hbinv : b.Inv := Bank.withdraw_inv hb hw
  have hcr := Bank.depositCreating_credit (a := cfg.burnedTo) (v := s.burnPrice * score) hbinv
    (Or.inl (by rw [w6]; exact htr))
  refine ⟨d.credit, by simp [creditScore, hd], ?_, ?_, ?_, ?_, ?_, ?_, ?_⟩
  · simp [creditScore, burnRecord, writeCore, Data.update, satAdd64, u64Max]
  · simp only [burnRecord, Nat.mod_eq_of_lt hscore]
    have := (Bank.depositCreating_ne (b := b) (s.burnPrice * score) ha).1
    simp only [Bank.free] at *
    rw [this]
    omega
  · simp only [burnRecord, Nat.mod_eq_of_lt hscore]
    rw [hcr.2.1]
    have := w5 cfg.burnedTo (Ne.symm ha)
    simp only [Bank.free, this]
  · simp only [burnRecord, Nat.mod_eq_of_lt hscore]
    rw [hcr.1]; omega
  · simp only [burnRecord, Nat.mod_eq_of_lt hscore]
  · intro a' ha'
    simp only [burnRecord, writeCore, FMap.get_insert_ne _ _ ha']
  · simp only [satAdd64, u64Max] at hle
    unfold burnCeiling at hle
    split at hle
    · exact Or.inl hle
    · split at hle
      · unfold maxHistoric at hle
        rcases foldl_max_le _ _ _ hle with h3 | ⟨y, hy, h3⟩
        · left; omega
        · right
          simp only [List.mem_map] at hy
          obtain ⟨e, he, rfl⟩ := hy
          exact ⟨e, he, h3⟩
      · exact Or.inl hle

/-- Account 2 (credit 50, minimum 100) cannot buy 51 points; account 1, slashed from 250 to 100, can
buy 7 points for 350 DPR. -/
example : (step exCfg exGenesis (.burnForCredit 2 51)).2 = .failed .creditAddTooMuch := by decide +kernel

example :
    let s := (run exCfg exGenesis [.initDelegatorHistory 1, exTime 10 0 0, .slashCredit 1 (some 150)]).1
    (step exCfg s (.burnForCredit 1 7)).2 = .done ∧
    creditScore (step exCfg s (.burnForCredit 1 7)).1.core 1 = some 107 ∧
    (step exCfg s (.burnForCredit 1 7)).1.bank.free 1 = 650 * dpr := by decide +kernel

/-- The bound on the score is needed: the price is computed from the low 32 bits of the score, so
2^32 points cost nothing (once the account has had that much credit before). -/
theorem C19_price_wraps :
    ∃ ops, (run exCfg exGenesis ops).2.getLast?.map (·.2.2) = some .done ∧
      creditScore (run exCfg exGenesis ops).1.core 1 = some (2 ^ 32) ∧
      (run exCfg exGenesis ops).1.totalBurn = 0 := by
  refine ⟨[.addOrUpdateCreditData 1 (Data.new 8 (2 ^ 32)), .initDelegatorHistory 1, exTime 10 0 0,
    .slashCredit 1 (some (2 ^ 32)), .burnForCredit 1 (2 ^ 32)], ?_⟩
  decide +kernel

/-! ### C20 -/

theorem run_nft (cfg : Cfg) (hcap : cfg.maxBurnCredit ≤ 2 ^ 63) (a : AccId) (ops : List Op)
    (hcls : ∀ who cls c, Op.updateNftClass who cls c ∈ ops → c < 2 ^ 63)
    (hsum : ∀ who c, Op.updateNftSum who a c ∉ ops) (s : State)
    (hs : ∀ cls c, s.nftClassCredit.get cls = some c → c < 2 ^ 63)
    (hle : (s.creditFromNft.get a).getD 0 ≤ cfg.maxBurnCredit) :
    (s.creditFromNft.get a).getD 0 + (nftGains a (run cfg s ops).2).sum ≤ cfg.maxBurnCredit := by
  induction ops generalizing s with
  | nil => simpa [run, nftGains] using hle
  | cons op ops ih =>
    have ih := ih (fun w k c hm => hcls w k c (by simp [hm])) (fun w c hm => hsum w c (by simp [hm]))
    -- what one step does to the two maps
    have key : (∀ cls c, (step cfg s op).1.nftClassCredit.get cls = some c → c < 2 ^ 63) ∧
        ∃ g, nftGains a [(s, op, (step cfg s op).2)] = g ∧
          ((step cfg s op).1.creditFromNft.get a).getD 0 = (s.creditFromNft.get a).getD 0 + g.sum ∧
          ((step cfg s op).1.creditFromNft.get a).getD 0 ≤ cfg.maxBurnCredit := by
      unfold step
      cases hb : body cfg s op with
      | error e =>
        cases e <;> (refine ⟨hs, [], ?_, by simp, hle⟩; cases op <;> rfl)
      | ok r =>
        obtain ⟨s', o⟩ := r
        simp only
        cases hsp : special op with
        | false =>
          have := body_frame hb hsp
          simp only [frame, Prod.mk.injEq] at this
          rw [this.2.2.2.2.1, this.2.2.2.2.2]
          refine ⟨hs, [], ?_, by simp, hle⟩
          cases op <;> simp [special] at hsp <;> rfl
        | true =>
          cases op <;> simp only [special, Bool.false_eq_true] at hsp <;> simp only [body] at hb
          case «initialize» =>
            cases hb
            have hf : (onInitialize cfg s).creditFromNft = s.creditFromNft ∧
                (onInitialize cfg s).nftClassCredit = s.nftClassCredit := by
              rcases onInitialize_cases cfg s with h3 | ⟨k, h3⟩ <;> rw [h3]
              · exact ⟨rfl, rfl⟩
              · simp only [foldl_updateSetting_fields, and_self]
            rw [hf.1, hf.2]
            exact ⟨hs, [], rfl, by simp, hle⟩
          case finalize =>
            cases hb
            have hf : (setPrice s).creditFromNft = s.creditFromNft ∧
                (setPrice s).nftClassCredit = s.nftClassCredit := by
              unfold setPrice; split <;> exact ⟨rfl, rfl⟩
            rw [hf.1, hf.2]
            exact ⟨hs, [], rfl, by simp, hle⟩
          case runtimeUpgrade =>
            cases hb
            have hf : (onRuntimeUpgrade cfg s).creditFromNft = s.creditFromNft ∧
                (onRuntimeUpgrade cfg s).nftClassCredit = s.nftClassCredit := by
              unfold onRuntimeUpgrade
              split
              · simp only [foldl_updateSetting_fields, and_self]
              · exact ⟨rfl, rfl⟩
            rw [hf.1, hf.2]
            exact ⟨hs, [], rfl, by simp, hle⟩
          case updateCreditSetting => cases hb; exact ⟨hs, [], rfl, by simp [updateSetting], hle⟩
          case traffic b =>
            obtain ⟨⟨s1, fl⟩, h3, h4⟩ := map_ok hb
            cases h4
            obtain ⟨-, -, -, f4, f5⟩ := trafficCredit_frame h3
            simp only [f4, f5]
            exact ⟨hs, [], rfl, by simp, hle⟩
          case setDprPrice =>
            obtain ⟨_, h3, h4⟩ := map_ok hb
            cases h4
            obtain ⟨_, _, _, rfl⟩ := setDprPrice_ok h3
            exact ⟨hs, [], rfl, by simp, hle⟩
          case burnNft b cls ok =>
            obtain ⟨_, h3, h4⟩ := map_ok hb
            cases h4
            obtain ⟨credit, d, hc, hd, hmod, hok, rfl⟩ := burnNft_ok h3
            refine ⟨hs, _, rfl, ?_, ?_⟩
            · by_cases hba : b = a
              · subst hba
                have h63 := hs cls credit hc
                have : ((s.creditFromNft.get b).getD 0 + credit) % 2 ^ 64
                    = (s.creditFromNft.get b).getD 0 + credit := by
                  apply Nat.mod_eq_of_lt
                  omega
                simp [nftGains, hc, this]
              · simp [nftGains, hba, FMap.get_insert_ne _ _ (fun h : a = b => hba h.symm)]
            · by_cases hba : b = a
              · subst hba; simpa using hmod
              · simpa [FMap.get_insert_ne _ _ (fun h : a = b => hba h.symm)] using hle
          case updateNftSum who b c =>
            obtain ⟨_, h3, h4⟩ := map_ok hb
            cases h4
            have h5 := (admin_ok h3).2
            cases h5
            have hba : a ≠ b := by rintro rfl; exact hsum who c (by simp)
            refine ⟨hs, [], rfl, ?_, ?_⟩ <;> simp only [FMap.get_insert_ne _ _ hba]
            · simp
            · exact hle
          case updateNftClass who cls c =>
            obtain ⟨_, h3, h4⟩ := map_ok hb
            cases h4
            have h5 := (admin_ok h3).2
            cases h5
            refine ⟨?_, [], rfl, by simp, hle⟩
            intro k x hx
            simp only [FMap.get_insert] at hx
            split at hx
            · cases hx; exact hcls who cls c (by simp)
            · exact hs k x hx
    obtain ⟨k1, g, k2, k3, k4⟩ := key
    have ih := ih (step cfg s op).1 k1 k4
    have hsplit : nftGains a (run cfg s (op :: ops)).2
        = g ++ nftGains a (run cfg (step cfg s op).1 ops).2 := by
      rw [← k2]
      simp only [run, nftGains]
      rw [← List.filterMap_append]
      rfl
    rw [hsplit, List.sum_append]
    omega

theorem genesis_nft (bank : Bank) (settings : List Setting) (users : List (AccId × Data)) :
    (genesis bank settings users).creditFromNft = ∅ ∧
    (genesis bank settings users).nftClassCredit = ∅ := by
  unfold genesis
  have h0 := foldl_updateSetting_fields settings { bank := bank }
  generalize settings.foldl updateSetting { bank := bank } = s0 at h0
  have hc : s0.creditFromNft = ∅ ∧ s0.nftClassCredit = ∅ := ⟨h0.2.2.2.1, h0.2.2.2.2⟩
  clear h0
  induction users generalizing s0 with
  | nil => exact hc
  | cons u us ih => exact ih _ hc

/-- **C20** (a): over a whole history in which class credits are configured below 2^63 and the admin
does not rewrite the account's counter, the credit obtained by one account from burning NFTs is at
most the cap. -/
theorem C20_nft_cap (cfg : Cfg) (hcap : cfg.maxBurnCredit ≤ 2 ^ 63) (bank : Bank)
    (settings : List Setting) (users : List (AccId × Data)) (a : AccId) (ops : List Op)
    (hcls : ∀ who cls c, Op.updateNftClass who cls c ∈ ops → c < 2 ^ 63)
    (hsum : ∀ who c, Op.updateNftSum who a c ∉ ops) :
    (nftGains a (run cfg (genesis bank settings users) ops).2).sum ≤ cfg.maxBurnCredit := by
  obtain ⟨h1, h2⟩ := genesis_nft bank settings users
  have := run_nft cfg hcap a ops hcls hsum (genesis bank settings users)
    (by rw [h2]; intro k c h; cases h) (by rw [h1]; simp)
  omega

/-- **C20** (b): a successful burn adds exactly the credit configured for the class (up to the maximal
64-bit score) to the burner and nobody else, and requires that the NFT was burnt. -/
theorem C20_burn_adds_class_credit (cfg : Cfg) (s s' : State) (a : AccId) (cls : Nat) (ok : Bool)
    (h : step cfg s (.burnNft a cls ok) = (s', .done)) :
    ok = true ∧ ∃ n c, creditScore s.core a = some n ∧ s.nftClassCredit.get cls = some c ∧
      creditScore s'.core a = some (min (n + c) (2 ^ 64 - 1)) ∧
      ∀ a', a' ≠ a → s'.core.userCredit.get a' = s.core.userCredit.get a' := by
  have hbody := step_ok h (by simp) (by simp)
  simp only [body] at hbody
  obtain ⟨s1, h1, h2⟩ := map_ok hbody
  cases h2
  obtain ⟨c, d, hc, hd, _, hok, rfl⟩ := burnNft_ok h1
  refine ⟨hok, d.credit, c, by simp [creditScore, hd], hc, ?_, ?_⟩
  · simp [creditScore, writeCore, Data.update, satAdd64, u64Max]
  · intro a' ha'
    simp only [writeCore, FMap.get_insert_ne _ _ ha']

/-- Three burns of class 5 (20 points) with cap 50: the third is refused. -/
def exNft : List Op :=
  [exTime 1 1 0, .updateNftClass 1 5 20, .burnNft 1 5 true, .burnNft 1 5 true, .burnNft 1 5 true]

example : nftGains 1 (run exCfg exGenesis exNft).2 = [20, 20] ∧
    (run exCfg exGenesis exNft).2.map (·.2.2) = [.done, .done, .done, .done,
      .failed .outOfMaxBurnCreditPerAddress] := by decide +kernel

/-- With absurd class credits the 64-bit sum wraps around and the cap is lost. -/
theorem C20_counter_wraps :
    ∃ ops, (∀ who c, Op.updateNftSum who 1 c ∉ ops) ∧
      exCfg.maxBurnCredit < (nftGains 1 (run exCfg exGenesis ops).2).sum := by
  refine ⟨[exTime 1 1 0, .updateNftClass 1 5 20, .updateNftClass 1 6 (2 ^ 64 - 1), .burnNft 1 5 true,
    .burnNft 1 6 true], by simp [exTime], ?_⟩
  decide +kernel

/-! ### C21 -/

theorem run_prices (cfg : Cfg) (ops : List Op) (hf : Op.finalize ∉ ops) (s : State) :
    (run cfg s ops).1.currentPrices = s.currentPrices ++ acceptedPrices (run cfg s ops).2 ∧
    (run cfg s ops).1.dprPrice = s.dprPrice := by
  induction ops generalizing s with
  | nil => simp [run, acceptedPrices]
  | cons op ops ih =>
    have hne : op ≠ .finalize := by rintro rfl; simp at hf
    have ih := ih (fun h => hf (by simp [h])) (step cfg s op).1
    have key : (step cfg s op).1.currentPrices
          = s.currentPrices ++ acceptedPrices [(s, op, (step cfg s op).2)] ∧
        (step cfg s op).1.dprPrice = s.dprPrice := by
      unfold step
      cases hb : body cfg s op with
      | error e => cases e <;> cases op <;> simp [acceptedPrices]
      | ok r =>
        obtain ⟨s', o⟩ := r
        simp only
        cases hsp : special op with
        | false =>
          have := body_frame hb hsp
          simp only [frame, Prod.mk.injEq] at this
          rw [this.2.1, this.2.2.1]
          cases op <;> simp [special] at hsp <;> simp [acceptedPrices]
        | true =>
          cases op <;> simp only [special, Bool.false_eq_true] at hsp <;> simp only [body] at hb
          case «initialize» =>
            cases hb
            rcases onInitialize_cases cfg s with h3 | ⟨k, h3⟩ <;> rw [h3] <;>
              simp [foldl_updateSetting_fields, acceptedPrices]
          case finalize => exact absurd rfl hne
          case runtimeUpgrade =>
            cases hb
            unfold onRuntimeUpgrade
            split <;> simp [foldl_updateSetting_fields, acceptedPrices]
          case updateCreditSetting => cases hb; simp [updateSetting, acceptedPrices]
          case traffic b =>
            obtain ⟨⟨s1, fl⟩, h3, h4⟩ := map_ok hb
            cases h4
            obtain ⟨-, f2, f3, -⟩ := trafficCredit_frame h3
            simp [f2, f3, acceptedPrices]
          case setDprPrice who p =>
            obtain ⟨_, h3, h4⟩ := map_ok hb
            cases h4
            obtain ⟨_, _, _, rfl⟩ := setDprPrice_ok h3
            simp [acceptedPrices]
          case burnNft b cls ok =>
            obtain ⟨_, h3, h4⟩ := map_ok hb
            cases h4
            obtain ⟨_, _, _, _, _, _, rfl⟩ := burnNft_ok h3
            simp [acceptedPrices]
          all_goals
            obtain ⟨_, h3, h4⟩ := map_ok hb
            cases h4
            have h5 := (admin_ok h3).2
            cases h5
            simp [acceptedPrices]
    have hsplit : acceptedPrices (run cfg s (op :: ops)).2
        = acceptedPrices [(s, op, (step cfg s op).2)]
          ++ acceptedPrices (run cfg (step cfg s op).1 ops).2 := by
      simp only [run, acceptedPrices]
      rw [← List.filterMap_append]
      rfl
    refine ⟨?_, ?_⟩
    · rw [hsplit, ← List.append_assoc, ← key.1]
      simp only [run]
      exact ih.1
    · simp only [run]
      rw [ih.2, key.2]

/-- **C21** (a): at the end of a block the price becomes the integer mean of the prices accepted in
the block, or stays as it was if there were none; the list of pending prices is empty again. -/
theorem C21_price_is_mean (cfg : Cfg) (s : State) (h0 : s.currentPrices = []) (ops : List Op)
    (hf : Op.finalize ∉ ops) (s' : State)
    (hs : s' = (step cfg (run cfg s ops).1 .finalize).1) :
    s'.currentPrices = [] ∧
    s'.dprPrice = (match acceptedPrices (run cfg s ops).2 with
      | [] => s.dprPrice
      | p :: ps => some ((p :: ps).sum / (p :: ps).length)) := by
  subst hs
  obtain ⟨h1, h2⟩ := run_prices cfg ops hf s
  rw [h0, List.nil_append] at h1
  simp only [step, body, setPrice]
  rw [h1]
  cases hp : acceptedPrices (run cfg s ops).2 with
  | nil => simp only [h2, and_true]; rw [h1, hp]
  | cons p ps => simp

/-- **C21** (b): a price is accepted only if it is not zero, comes from an oracle worker, and differs
from the current price by at most the configured percentage (rounded to the nearest unit). -/
theorem C21_accepted_prices_checked (cfg : Cfg) (s s' : State) (who : AccId) (p : Balance)
    (h : step cfg s (.setDprPrice who p) = (s', .done)) :
    p ≠ 0 ∧ s.isOracle who = true ∧
    ∀ rate old, s.priceDiffRate = some rate → s.dprPrice = some old →
      100 * (max p old - min p old) ≤ rate * old + 50 := by
  have hbody := step_ok h (by simp) (by simp)
  simp only [body] at hbody
  obtain ⟨s1, h1, h2⟩ := map_ok hbody
  cases h2
  obtain ⟨h3, h4, h5, -⟩ := setDprPrice_ok h1
  refine ⟨h3, h4, ?_⟩
  intro rate old hr ho
  simp only [withinRate, hr, ho, decide_eq_true_eq] at h5
  have h6 := divNearestDown_bounds (old * rate) 100 (by omega)
  unfold percentMul at h5
  have h7 : (if old < p then p - old else old - p) = max p old - min p old := by
    split <;> omega
  rw [h7] at h5
  have h8 : rate * old = old * rate := Nat.mul_comm _ _
  rw [h8]
  generalize old * rate = q at *
  omega

/-- Two accepted prices 10 and 21 and one too far away, then the mean 15. -/
example :
    let s := (run exCfg exGenesis [exTime 1 1 0, .setDprPrice 1 20, .finalize, .setPriceDiffRate 1 50]).1
    let r := run exCfg s [.setDprPrice 1 10, .setDprPrice 1 21, .setDprPrice 1 31, .setDprPrice 2 20]
    s.currentPrices = [] ∧ acceptedPrices r.2 = [10, 21] ∧
    (step exCfg r.1 .finalize).1.dprPrice = some 15 := by decide +kernel

/-- The wish that each worker counts once per block is not met: one worker reporting three times
outvotes another. -/
theorem C21_worker_counts_twice :
    ∃ ops, acceptedPrices (run exCfg exGenesis ops).2 = [30, 30] ∧
      ∀ op ∈ ops, ∀ who p, op = .setDprPrice who p → who = 1 := by
  refine ⟨[exTime 1 1 0, .setDprPrice 1 30, .setDprPrice 1 30], by decide +kernel, ?_⟩
  simp [exTime]

/-! ### C57 -/

/-- APY (percent) of genesis users at each level before the first reduction. -/
def genesisApy : Level → Nat
  | .zero => 0 | .one => 15 | .two => 18 | .three => 19 | .four => 20
  | .five => 22 | .six => 23 | .seven => 24 | .eight => 25

theorem get_foldl_updateSetting (l : List Setting) (s : State) (c : Setting) (hc : c ∈ l)
    (hn : (l.map fun c => (c.campaign, c.level)).Nodup) :
    (l.foldl updateSetting s).settings.get (c.campaign, c.level) = some c ∧
    (l.foldl updateSetting s).dailyReward.get (c.campaign, c.level) = some (dailyRewardOf c) := by
  have hkeep : ∀ (l : List Setting) (s : State) (k : Nat × Level),
      k ∉ l.map (fun c => (c.campaign, c.level)) →
      (l.foldl updateSetting s).settings.get k = s.settings.get k ∧
      (l.foldl updateSetting s).dailyReward.get k = s.dailyReward.get k := by
    intro l
    induction l with
    | nil => intro s k _; exact ⟨rfl, rfl⟩
    | cons x xs ih =>
      intro s k hk
      simp only [List.map_cons, List.mem_cons, not_or] at hk
      obtain ⟨h1, h2⟩ := ih (updateSetting s x) k hk.2
      simp only [List.foldl_cons]
      rw [h1, h2]
      simp only [updateSetting, FMap.get_insert_ne _ _ hk.1, and_self]
  induction l generalizing s with
  | nil => cases hc
  | cons x xs ih =>
    simp only [List.map_cons, List.nodup_cons] at hn
    simp only [List.foldl_cons]
    simp only [List.mem_cons] at hc
    rcases hc with rfl | hc
    · obtain ⟨h1, h2⟩ := hkeep xs (updateSetting s c) _ hn.1
      rw [h1, h2]
      simp [updateSetting]
    · exact ih _ hc hn.2

/-- **C57**: at the first block of the era that lies k half-years (k = 1..5, 180 eras each) after the
reference era, the yearly rate of genesis users (campaign 7) at every level from one to eight becomes
the initial rate minus k percent; level zero keeps rate zero. -/
theorem C57_genesis_rate_schedule (cfg : Cfg) (s : State) (k : Nat) (hk : 1 ≤ k ∧ k ≤ 5)
    (hg : s.genesisChangeEra ≠ 0) (hera : currentEra cfg s = s.genesisChangeEra + 180 * k)
    (hblock : s.block % cfg.blocksPerEra = 0) (l : Level) :
    ((step cfg s .initialize).1.settings.get (7, l)).map Setting.baseApy = some (genesisApy l - k) := by
  have h1 : onInitialize cfg s = (subGenesisApy k).foldl updateSetting s := by
    unfold onInitialize
    simp only [hblock, if_true, hg, if_false, hera, Nat.add_sub_cancel_left,
      Nat.mul_mod_right, Nat.mul_div_cancel_left k (show 0 < 180 by decide)]
    rw [if_pos (by omega)]
  simp only [step, body, h1]
  have hk5 : k = 1 ∨ k = 2 ∨ k = 3 ∨ k = 4 ∨ k = 5 := by omega
  have key : ∀ k ∈ [1, 2, 3, 4, 5], ((subGenesisApy k).map fun c => (c.campaign, c.level)).Nodup ∧
      ∀ l ∈ [Level.zero, .one, .two, .three, .four, .five, .six, .seven, .eight],
        ∃ c ∈ subGenesisApy k, c.campaign = 7 ∧ c.level = l ∧ c.baseApy = genesisApy l - k := by
    decide +kernel
  obtain ⟨hn, hl⟩ := key k (by simp; omega)
  obtain ⟨c, hc, hc1, hc2, hc3⟩ := hl l (by cases l <;> simp)
  have h2 := (get_foldl_updateSetting _ s c hc hn).1
  rw [hc1, hc2] at h2
  rw [h2]
  simp [hc3]

/-- **C57** (b): at every other moment the block hook leaves all settings alone. -/
theorem C57_otherwise_unchanged (cfg : Cfg) (s : State)
    (h : ¬ (s.block % cfg.blocksPerEra = 0 ∧ s.genesisChangeEra ≠ 0 ∧
      ∃ k, 1 ≤ k ∧ k ≤ 5 ∧ currentEra cfg s = s.genesisChangeEra + 180 * k)) :
    (step cfg s .initialize).1 = s := by
  simp only [step, body]
  unfold onInitialize
  split
  · rename_i hb
    split
    · rfl
    · rename_i hg
      simp only
      split
      · rename_i hm
        split
        · rename_i hk
          exfalso
          apply h
          refine ⟨hb, hg, (currentEra cfg s - s.genesisChangeEra) / 180, by omega, hk.2, ?_⟩
          have := Nat.div_add_mod (currentEra cfg s - s.genesisChangeEra) 180
          omega
        · rfl
      · rfl
  · rfl

example : let s := { exGenesis with genesisChangeEra := 3, block := 3630 }
    currentEra exCfg s = s.genesisChangeEra + 180 * 2 ∧ s.block % exCfg.blocksPerEra = 0 ∧
    (exGenesis.settings.get (7, .four)).map Setting.baseApy = some 20 ∧
    ((step exCfg s .initialize).1.settings.get (7, .four)).map Setting.baseApy = some 18 := by
  decide +kernel

end Verif.Credit
