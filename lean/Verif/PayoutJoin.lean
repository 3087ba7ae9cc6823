import Verif.PayoutIncome

/-!
# Becoming a delegator: C112
-/

namespace Verif.Payout

open Verif Delegation

theorem above (ds : List AccId) : ∃ n, ∀ x ∈ ds, x < n := by
  induction ds with
  | nil => exact ⟨0, by simp⟩
  | cons d ds ih =>
    obtain ⟨n, h⟩ := ih
    refine ⟨n + d + 1, fun x hx => ?_⟩
    rcases List.mem_cons.1 hx with rfl | hx
    · omega
    · have := h x hx; omega

/-- A call ends the delegations of some accounts only. -/
theorem spared (op : Delegation.Op) : ∃ b, endsFor b op = false := by
  cases op with
  | undelegate d => exact ⟨d + 1, by simp [endsFor]⟩
  | forceUnstaking k d => exact ⟨d + 1, by simp [endsFor]⟩
  | forceUndelegate r ds =>
    obtain ⟨n, h⟩ := above ds
    refine ⟨n, ?_⟩
    simp only [endsFor, decide_eq_false_iff_not]
    intro hn
    exact Nat.lt_irrefl n (h n hn)
  | _ => exact ⟨0, rfl⟩

/-- Payouts add no delegators. -/
theorem block_keys (cfg : Delegation.Cfg) (s : Delegation.State) (r : AccId → Nat → Nat → Option Balance) (hn : Named s) (a : AccId)
    (h : s.delegators.get a = none) : (Delegation.onBlock cfg s r).1.delegators.get a = none := by
  unfold Delegation.onBlock
  simp only
  split
  · exact h
  · split
    · exact h
    · refine (payDelegators_inv (cfg := cfg) (s := { s with block := s.block + 1 }) (reward := r)
        (P := fun t _ => t.delegators.get a = none ∧ Named t) ?_ ?_ ?_ ⟨h, hn⟩).1
      · intro u t l hg hu
        rw [(graph_eq hg).1]
        exact ⟨hu.1, named_graph hg hu.2⟩
      · intro u e l he hu _
        refine ⟨?_, named_settle _ he hu.2⟩
        have hea : a ≠ e.who := by
          intro hea
          rw [← hea, hu.1] at he
          cases he
        rw [settle_others _ _ _ _ hea]
        exact hu.1
      · intro u l x y hu hy
        exact hu.2 x y hy

/-- What `do_delegate` writes for a new delegator. -/
theorem do_joins {cfg : Delegation.Cfg} {s t : Delegation.State} {b : AccId} {vs : List AccId} {pass : Bool} {a : AccId} {d : Delegator}
    (h : doDelegate cfg s b vs pass = .ok t) (h1 : s.delegators.get a = none) (h2 : t.delegators.get a = some d) :
    pass = true ∧ a = b ∧ d = ⟨a, vs, some (creditEra cfg s), true⟩ := by
  unfold doDelegate at h
  split at h
  · cases h
  rename_i hp
  cases h
  have hab : a = b := by
    by_cases hab : a = b
    · exact hab
    · exfalso
      split at h2 <;> simp only [FMap.get_insert_ne _ _ hab, h1] at h2 <;> cases h2
  subst hab
  simp only [h1, FMap.get_insert_self] at h2
  cases h2
  exact ⟨by simpa using hp, rfl, rfl⟩

/-- Calls of staking for credit end with the delegation. -/
theorem stake_last (sc : StakingCredit.Cfg) (x : StakingCredit.State) (op : StakingCredit.Op) :
    (StakingCredit.step sc x op).1.dele.delegators = x.dele.delegators ∨
    ∃ u order, StakingCredit.delegateAny sc u (staker op) order = .ok (StakingCredit.step sc x op).1 ∧
      u.dele.delegators = x.dele.delegators ∧ u.credit.block = x.credit.block := by
  have hpay : ∀ u t who v, StakingCredit.pay sc u who v = .ok t → t.dele.delegators = u.dele.delegators ∧ t.credit.block = u.credit.block := by
    intro u t who v hp
    unfold StakingCredit.pay at hp
    split at hp
    · cases hp
    · cases hp; exact ⟨rfl, rfl⟩
  have hadd : ∀ u t who g n, StakingCredit.addCredit sc u who g n = .ok t → t.dele.delegators = u.dele.delegators ∧ t.credit.block = u.credit.block := by
    intro u t who g n ha
    unfold StakingCredit.addCredit at ha
    split at ha
    · cases ha
    · rename_i c hc
      cases ha
      unfold Credit.addOrUpdateCredit at hc
      obtain ⟨_, _, h2⟩ := Credit.map_ok hc
      cases h2
      exact ⟨rfl, rfl⟩
  have above : ∀ u t dst order, StakingCredit.delegateAbove sc u (staker op) dst order = .ok t →
      u.dele.delegators = x.dele.delegators → u.credit.block = x.credit.block →
      t.dele.delegators = x.dele.delegators ∨ ∃ u order, StakingCredit.delegateAny sc u (staker op) order = .ok t ∧
        u.dele.delegators = x.dele.delegators ∧ u.credit.block = x.credit.block := by
    intro u t dst order h h1 h2
    unfold StakingCredit.delegateAbove at h
    split at h
    · exact .inr ⟨u, order, h, h1, h2⟩
    · cases h; exact .inl h1
  cases op with
  | stake who signed dst order =>
    simp only [StakingCredit.step]
    split
    · exact .inl rfl
    split
    · exact .inl rfl
    rename_i s' hs
    unfold StakingCredit.doStakingDelegate at hs
    simp only at hs
    split at hs; · cases hs
    split at hs; · cases hs
    split at hs
    · cases hs
    split at hs; · cases hs
    generalize ((Credit.creditBalance x.credit who (some x.credit.defaultCampaign)).getD dst 0 - _) = v at hs
    cases hp : StakingCredit.pay sc x who v with
    | error e => rw [hp] at hs; cases hs
    | ok s1 =>
      rw [hp] at hs
      simp only [Except.bind] at hs
      split at hs
      · cases hs
      rename_i s2 h2
      obtain ⟨p1, p2⟩ := hpay _ _ _ _ hp
      obtain ⟨q1, q2⟩ := hadd _ _ _ _ _ h2
      exact above _ _ _ _ hs (q1.trans p1) (q2.trans p2)
  | usdt admin who u d order =>
    simp only [StakingCredit.step]
    split
    · exact .inl rfl
    split
    · exact .inl rfl
    rename_i s' lvl hs
    unfold StakingCredit.doUsdt at hs
    simp only at hs
    split at hs; · cases hs
    split at hs
    · cases hs
    rename_i cur rem _
    generalize StakingCredit.climb _ _ _ _ _ = dst at hs
    cases h1 : StakingCredit.addCredit sc x who (Credit.Level.gap (Credit.Level.ofU8 dst) (Credit.Level.ofU8 cur)) x.credit.defaultUsdtCampaign with
    | error e => rw [h1] at hs; cases hs
    | ok s1 =>
      rw [h1] at hs
      simp only [Except.bind] at hs
      obtain ⟨t, ht, e⟩ := World.map_ok hs
      cases e
      obtain ⟨q1, q2⟩ := hadd _ _ _ _ _ h1
      exact above _ _ _ _ ht q1 q2
  | unset admin who =>
    simp only [StakingCredit.step]
    split
    · exact .inl rfl
    · exact .inl rfl

theorem pass_data {cfg : Credit.Cfg} {k : Credit.State} {a : AccId} (h : Credit.passThreshold cfg k a = true) :
    ∃ x, k.core.userCredit.get a = some x ∧ cfg.minCredit ≤ x.credit := by
  unfold Credit.passThreshold at h
  split at h
  · rename_i x hx
    exact ⟨x, hx, by simpa [Credit.passData] using h⟩
  · cases h

theorem init_get {c : Credit.Core} {a : AccId} {x : Credit.Data} (era : Nat) (h : c.userCredit.get a = some x) :
    (Credit.initDelegatorHistory era c a).userCredit.get a = some x ∧ (Credit.initDelegatorHistory era c a).history.get a = some [(era, x)] := by
  unfold Credit.initDelegatorHistory
  rw [h]
  exact ⟨h, FMap.get_insert_self _ _ _⟩

theorem joined_call {cfg : Chain.Cfg} (hf : Fits cfg) {c : Chain.State} {ps : List Payment} (hg : Good cfg c ps) (op : Chain.Op) (ho : own op = true)
    {a : AccId} {d : Delegator} (h1 : c.stk.dele.delegators.get a = none) (h2 : (call cfg c op).stk.dele.delegators.get a = some d) :
    ((∃ vs pass, op = .dele (.delegate a vs pass)) ∨ ∃ o, op = .stake o ∧ staker o = a) ∧
    d.since = some (Credit.currentEra cfg.stk.credit c.stk.credit) ∧ d.delegating = true ∧
    ∃ x, (call cfg c op).stk.credit.core.userCredit.get a = some x ∧ cfg.stk.credit.minCredit ≤ x.credit ∧
      (call cfg c op).stk.credit.core.history.get a = some [(Credit.currentEra cfg.stk.credit c.stk.credit, x)] := by
  have hcur : Credit.currentEra cfg.stk.credit c.stk.credit = creditEra cfg.dele c.stk.dele := by
    unfold Credit.currentEra Credit.blockToEra creditEra
    rw [hf.eras, hg.inv.clock]
    rfl
  have same : (Chain.step cfg c (fill cfg c op)).stk.dele.delegators = c.stk.dele.delegators → False := by
    intro e
    have e2 : (call cfg c op).stk.dele.delegators = (Chain.step cfg c (fill cfg c op)).stk.dele.delegators := rfl
    rw [e2, e, h1] at h2
    cases h2
  cases op with
  | world op => exact (same (by simp only [fill, Chain.step]; split <;> rfl)).elim
  | bond op n => exact (same (by simp only [fill, Chain.step]; split <;> rfl)).elim
  | slash op => exact (same (by simp only [fill, Chain.step]; split <;> rfl)).elim
  | adsc op => exact (same rfl).elim
  | credit op => exact (same rfl).elim
  | stake op =>
    have hdel : (call cfg c (.stake op)).stk.dele.delegators = (StakingCredit.step cfg.stake (Chain.stkOn c) op).1.dele.delegators := rfl
    have hcr : (call cfg c (.stake op)).stk.credit.core = (StakingCredit.step cfg.stake (Chain.stkOn c) op).1.credit.core := rfl
    rcases stake_last cfg.stake (Chain.stkOn c) op with h | ⟨u, order, h3, h4, h5⟩
    · exact (same h).elim
    · rw [hdel] at h2
      rw [hcr]
      generalize (StakingCredit.step cfg.stake (Chain.stkOn c) op).1 = r at h2 h3
      unfold StakingCredit.delegateAny at h3
      split at h3
      · cases h3
      rename_i t ht
      cases h3
      unfold Delegation.delegateAny at ht
      split at ht
      · cases ht
      have h1' : u.dele.delegators.get a = none := by rw [h4]; exact h1
      obtain ⟨j1, j2, j3⟩ := do_joins (s := { u.dele with block := u.credit.block }) ht h1' h2
      have hera : Credit.currentEra cfg.stk.credit u.credit = Credit.currentEra cfg.stk.credit c.stk.credit := by
        unfold Credit.currentEra; rw [h5]; rfl
      have hera2 : creditEra cfg.dele { u.dele with block := u.credit.block } = creditEra cfg.dele c.stk.dele := by
        unfold creditEra
        have := h5.trans hg.inv.clock
        simp only
        rw [this]
      obtain ⟨x, x1, x2⟩ := pass_data j1
      rw [← j2] at x1
      have hno : u.dele.delegators.contains (staker op) = false := by
        rw [← j2]
        cases hb : u.dele.delegators.contains a with
        | false => rfl
        | true =>
          obtain ⟨y, hy⟩ := (FMap.contains_iff _ _).1 hb
          rw [h1'] at hy
          cases hy
      obtain ⟨i1, i2⟩ := init_get (Credit.currentEra cfg.stk.credit u.credit) x1
      refine ⟨.inr ⟨op, rfl, j2.symm⟩, ?_, by rw [j3], x, ?_, x2, ?_⟩
      · rw [j3, hcur]; exact congrArg some hera2
      · simp only [hno]; rw [← j2]; exact i1
      · simp only [hno]; rw [← j2, ← hera]; exact i2
  | dele op =>
    by_cases hj : ∃ b vs pass, op = .delegate b vs pass
    · obtain ⟨b, vs, pass, rfl⟩ := hj
      have hst : (Chain.step cfg c (fill cfg c (.dele (.delegate b vs pass)))).stk.dele =
          (Delegation.step cfg.dele (deleOf c) (.delegate b vs (Credit.passThreshold cfg.stk.credit c.stk.credit b))).1 := rfl
      have hcc : (Chain.step cfg c (fill cfg c (.dele (.delegate b vs pass)))).stk.credit = c.stk.credit := rfl
      have hafter : (call cfg c (.dele (.delegate b vs pass))).stk.dele =
          (Delegation.step cfg.dele (deleOf c) (.delegate b vs (Credit.passThreshold cfg.stk.credit c.stk.credit b))).1 := rfl
      have hjoin : Credit.passThreshold cfg.stk.credit c.stk.credit b = true ∧ a = b ∧ d = ⟨a, vs, some (creditEra cfg.dele (deleOf c)), true⟩ := by
        rw [hafter] at h2
        unfold Delegation.step at h2
        split at h2
        · rename_i r hr
          obtain ⟨t, ht, rfl⟩ := Delegation.map_ok hr
          exact do_joins (delegate_do ht) h1 h2
        · rw [show (deleOf c).delegators.get a = none from h1] at h2
          cases h2
      obtain ⟨j1, rfl, j3⟩ := hjoin
      obtain ⟨x, x1, x2⟩ := pass_data j1
      have hb1 : c.stk.dele.delegators.contains a = false := by
        cases hb : c.stk.dele.delegators.contains a with
        | false => rfl
        | true =>
          obtain ⟨y, hy⟩ := (FMap.contains_iff _ _).1 hb
          rw [h1] at hy
          cases hy
      have hb2 : (Chain.step cfg c (fill cfg c (.dele (.delegate a vs pass)))).stk.dele.delegators.contains a = true :=
        (FMap.contains_iff _ _).2 ⟨d, h2⟩
      have hcred : (call cfg c (.dele (.delegate a vs pass))).stk.credit.core =
          Credit.initDelegatorHistory (Credit.currentEra cfg.stk.credit c.stk.credit) c.stk.credit.core a := by
        have hblk : Credit.currentEra cfg.stk.credit (sync (Chain.step cfg c (fill cfg c (.dele (.delegate a vs pass))))).stk.credit =
            Credit.currentEra cfg.stk.credit c.stk.credit := by
          have h3 := (call_frame cfg hg.inv hg.locks (.dele (.delegate a vs pass)) ho a rfl).cursor
          have h4 : (call cfg c (.dele (.delegate a vs pass))).stk.dele.block = c.stk.dele.block := (congrArg Prod.fst h3 :)
          have h5 : (sync (Chain.step cfg c (fill cfg c (.dele (.delegate a vs pass))))).stk.credit.block = c.stk.credit.block :=
            h4.trans hg.inv.clock.symm
          unfold Credit.currentEra
          rw [h5]
        unfold call
        simp only [effect]
        rw [if_pos ⟨hb1, hb2⟩]
        simp only
        rw [hblk]
        rfl
      obtain ⟨i1, i2⟩ := init_get (Credit.currentEra cfg.stk.credit c.stk.credit) x1
      refine ⟨.inl ⟨vs, pass, rfl⟩, ?_, by rw [j3], x, ?_, x2, ?_⟩
      · rw [j3, hcur]; rfl
      · rw [hcred]; exact i1
      · rw [hcred]; exact i2
    · exfalso
      have hfill : fill cfg c (.dele op) = .dele op := by
        cases op <;> first | rfl | exact absurd ⟨_, _, _, rfl⟩ hj
      by_cases hown : Chain.deleOwn op = true
      · obtain ⟨b, hb⟩ := spared op
        have hbl : Delegation.isBlock op = false := by cases op <;> first | rfl | cases ho
        have hnj : [op].countP isJoin = 0 := by
          cases op <;> first | rfl | exact absurd ⟨_, _, _, rfl⟩ hj | cases ho
        obtain ⟨K, k1, k2⟩ := (step_pframe cfg.dele (deleOf c) b op hbl hb).keys
        rw [hnj] at k1
        have hK : K = [] := List.length_eq_zero_iff.1 (Nat.le_zero.1 k1)
        subst hK
        have hst : (call cfg c (.dele op)).stk.dele = (Chain.step cfg c (fill cfg c (.dele op))).stk.dele := rfl
        rw [hst, hfill] at h2
        simp only [Chain.step, hown, if_true] at h2
        rcases k2 a d h2 with h | ⟨y, hy⟩
        · cases h
        · rw [show (deleOf c).delegators.get a = none from h1] at hy
          cases hy
      · refine same ?_
        rw [hfill]
        simp only [Chain.step, hown]
        rfl

/-! ### The property -/

/-- C112: who becomes a delegator does so by its own call of `delegate` or by a call that raises its credit; its credit then
reaches the minimum; its credit history is started anew, with its credit now as the only record, and the running era is the
first one to be paid. -/
theorem C112_join (cfg : Chain.Cfg) (hf : Fits cfg) {c : Chain.State} (h : Start c) (hw : World.settle c.w = c.w)
    (hd : ∃ bank m, c.stk.dele = genesis bank m) (ops : List Op) (hs : ∀ e ∈ (run cfg c ops).2, Sound cfg e.1 e.2.1) (op : Op) (a : AccId) (d : Delegator) :
    let b := (run cfg c ops).1
    let t := (step cfg b op).1
    let era := Credit.currentEra cfg.stk.credit b.stk.credit
    b.stk.dele.delegators.get a = none → t.stk.dele.delegators.get a = some d →
    ((∃ vs pass, op = .chain (.dele (.delegate a vs pass))) ∨ (∃ signed dst order, op = .chain (.stake (.stake a signed dst order))) ∨
      ∃ admin u v order, op = .chain (.stake (.usdt admin a u v order))) ∧
    d.since = some era ∧ d.delegating = true ∧
    ∃ x, t.stk.credit.core.userCredit.get a = some x ∧ cfg.stk.credit.minCredit ≤ x.credit ∧ t.stk.credit.core.history.get a = some [(era, x)] := by
  intro b t era h1 h2
  have hg := good_run hf ops (good_start (cfg := cfg) h hw hd) hs
  cases op with
  | block =>
    exfalso
    obtain ⟨r, e, _⟩ := block_dele hf hg.inv
    have : t.stk.dele.delegators.get a = none := by
      show (step cfg b .block).1.stk.dele.delegators.get a = none
      rw [e]
      exact block_keys cfg.dele (deleOf b) r hg.inv.marks.who a h1
    rw [this] at h2
    cases h2
  | chain op =>
    by_cases ho : own op = true
    · have ht : t = call cfg b op := by show (step cfg b (.chain op)).1 = _; simp only [step, ho, if_true]
      rw [ht] at h2 ⊢
      obtain ⟨h3, h4⟩ := joined_call hf hg op ho h1 h2
      refine ⟨?_, h4⟩
      rcases h3 with ⟨vs, pass, rfl⟩ | ⟨o, rfl, ho2⟩
      · exact .inl ⟨vs, pass, rfl⟩
      · cases o with
        | stake who sg dst order => cases ho2; exact .inr (.inl ⟨_, _, _, rfl⟩)
        | usdt ad who u v order => cases ho2; exact .inr (.inr ⟨_, _, _, _, rfl⟩)
        | unset ad who =>
          exfalso
          have : (call cfg b (.stake (.unset ad who))).stk.dele.delegators.get a = none := by
            have e : (call cfg b (.stake (.unset ad who))).stk.dele.delegators = (StakingCredit.step cfg.stake (Chain.stkOn b) (.unset ad who)).1.dele.delegators := rfl
            rw [e]
            simp only [StakingCredit.step]
            split <;> exact h1
          rw [this] at h2
          cases h2
    · exfalso
      have ht : t = b := by show (step cfg b (.chain op)).1 = _; simp only [step, ho]; rfl
      rw [ht, h1] at h2
      cases h2

example : let b := (run exCfg exStart (exOps.take 7)).1
    b.stk.dele.delegators.get 7 = none ∧ (step exCfg b (.chain (.dele (.delegate 7 [1] false)))).1.stk.dele.delegators.get 7 = some ⟨7, [1], some 0, true⟩ ∧
    (step exCfg b (.chain (.dele (.delegate 3 [1] true)))).1.stk.dele.delegators.get 3 = none ∧
    (step exCfg b (.chain (.dele (.delegate 7 [1] false)))).1.stk.credit.core.history.get 7 = some [(0, Credit.Data.new 8 130)] := by
  decide +kernel

/-! ### The reward period -/

/-- Account 7 is granted rewards for two eras. -/
def exShort : Chain.State :=
  { exStart with stk := { exStart.stk with credit := { Credit.genesis Council.exBank (Credit.campaign8Settings ++ Credit.campaign7Settings 10) [(7, { Credit.Data.new 8 130 with rewardEras := 2 })] with creditBalances := [0, 50, 120, 200], isAdmin := fun a => decide (a = 4), burnPrice := 2 } } }

theorem exShort_start : Start exShort :=
  ⟨⟨Council.exBank, Credit.campaign8Settings ++ Credit.campaign7Settings 10, _, _, _, _, by decide, rfl⟩, rfl, rfl⟩

/-- The account delegates in era 0, undelegates in era 3, and delegates again in era 4 when it has left the delegators. -/
def exAgain : List Op :=
  exOps.take 8 ++ List.replicate 13 .block ++ [.chain (.dele (.undelegate 7))] ++ List.replicate 5 .block ++
  [.chain (.dele (.delegate 7 [1] true))] ++ List.replicate 12 .block

theorem run_ops (cfg : Chain.Cfg) (ops : List Op) (c : Chain.State) : ∀ e ∈ (run cfg c ops).2, e.2.1 ∈ ops := by
  induction ops generalizing c with
  | nil => intro e h; cases h
  | cons op ops ih =>
    intro e h
    rcases List.mem_cons.1 h with rfl | h
    · simp
    · exact List.mem_cons_of_mem _ (ih _ e h)

theorem exAgain_sound : ∀ e ∈ (run exCfg exShort exAgain).2, Sound exCfg e.1 e.2.1 := by
  have hops : ∀ c, ∀ op ∈ exAgain, Sound exCfg c op := by
    intro c op h
    simp only [exAgain, exOps, List.mem_append, List.mem_cons, List.mem_replicate, List.not_mem_nil, or_false] at h
    rcases h with ((((h | h) | h) | h) | h) | h
    · have h := List.mem_of_mem_take h
      simp only [List.mem_append, List.mem_cons, List.mem_replicate, List.not_mem_nil, or_false] at h
      rcases h with ((h | h) | h) | h
      · rcases h with rfl | rfl | rfl | rfl | rfl | rfl | rfl | rfl | rfl <;> trivial
      · rw [h.2]; trivial
      · rw [h]; exact ⟨trivial, trivial⟩
      · rw [h.2]; trivial
    · rw [h.2]; trivial
    · rw [h]; trivial
    · rw [h.2]; trivial
    · rw [h]; trivial
    · rw [h.2]; trivial
  intro e he
  exact hops _ _ (run_ops _ _ _ _ he)

/-- C112, finding: an account whose reward period of two eras is over leaves and delegates again, and is rewarded for two more
eras with the same credit record. -/
theorem C112_restart :
    let t := (run exCfg exShort exAgain)
    (paymentsTo 7 t.2).flatMap (fun q => owed exCfg.stk.credit (creditNext q.1) 7 q.2.first q.2.last) = [0, 1, 4, 5] ∧
    (paymentsTo 7 t.2).map (fun q => q.2.amount.isSome) = [true, true, false, false, true, true, false] ∧
    t.1.stk.credit.core.userCredit.get 7 = some { Credit.Data.new 8 130 with rewardEras := 2 } := by
  decide +kernel

end Verif.Payout
