import Verif.Payout
import Verif.PayoutCredit
import Verif.PayoutLiveness
import Verif.ChainProperties

/-!
# Payouts to delegators end to end: C110

With the credit pallet inside of the model the reward of a delegator is no longer an unknown: it is what the recorded
credit yields for the unpaid eras.
-/

namespace Verif.Payout

open Verif Delegation

/-! ### Specification -/

/-- The payments of a history, with the state of the chain before the block. -/
def payments (tr : List (Chain.State × Op × Out)) : List (Chain.State × Payment) :=
  tr.flatMap fun e => e.2.2.payments.map fun p => (e.1, p)

/-- Those to account `a`. -/
def paymentsTo (a : AccId) (tr : List (Chain.State × Op × Out)) : List (Chain.State × Payment) :=
  (payments tr).filter fun q => decide (q.2.who = a)

/-- At the start nobody delegates, and the storage of the credit pallet is the one of a genesis with sensible settings. -/
structure Start (c : Chain.State) : Prop where
  genesis : ∃ bank settings users prices admin burn, (∀ s ∈ settings, s.baseApy ≤ 100) ∧
    c.stk.credit = { Credit.genesis bank settings users with creditBalances := prices, isAdmin := admin, burnPrice := burn }
  block : c.stk.dele.block = 0
  nobody : c.stk.dele.delegators = ∅

/-- Root does not rewrite credit histories with eras to come, and percentages are percentages. -/
def Sound (cfg : Chain.Cfg) (c : Chain.State) : Op → Prop
  | .chain (.credit op) => Credit.timely cfg.stk.credit c.stk.credit op ∧ Credit.validPercents op
  | _ => True

/-- Both pallets use the same eras, and a penalty for offline devices is not the value that deletes an account. -/
structure Fits (cfg : Chain.Cfg) : Prop where
  eras : cfg.stk.credit.blocksPerEra = cfg.stk.dele.blocksPerEra
  step : cfg.stk.credit.attenuationStep ≠ 2 ^ 64 - 1

/-- `get_reward` with the credit records as they are. -/
def rewardAt (cfg : Credit.Cfg) (k : Credit.State) (a : AccId) (x y : Nat) : Option Balance :=
  match Credit.getReward cfg k a x y with
  | .ok (_, r) => r
  | .error _ => none

/-! ### The loop -/

/-- Every record is stored under its account. -/
def Named (s : Delegation.State) : Prop := ∀ a d, s.delegators.get a = some d → d.who = a

theorem named_graph {s t : Delegation.State} (hg : graph t = graph s) (h : Named s) : Named t := by
  obtain ⟨g1, _⟩ := graph_eq hg
  unfold Named
  rw [g1]
  exact h

theorem named_settle {s : Delegation.State} {d : Delegator} (era : Nat) (hd : s.delegators.get d.who = some d) (h : Named s) :
    Named (settle s d era) := by
  intro a x hx
  unfold settle at hx
  split at hx
  · simp only [hd, Option.getD_some, FMap.get_insert] at hx
    split at hx
    · rename_i e; cases hx; exact e.symm
    · exact h a x hx
  · simp only [FMap.get_erase] at hx
    split at hx
    · cases hx
    · exact h a x hx

theorem named_payDelegator {s : Delegation.State} {d : Delegator} (era : Nat) (pool : Balance) (r : AccId → Nat → Nat → Option Balance)
    (hd : s.delegators.get d.who = some d) (h : Named s) : Named (Delegation.payDelegator s d era pool r).1 := by
  rcases payDelegator_cases s d era pool r with ⟨_, e⟩ | ⟨_, t, ht, e, _⟩
  · rw [e]; exact h
  · rw [e]
    exact named_settle era (by rw [(graph_eq ht).1]; exact hd) (named_graph ht h)

/-- One payment: it is the one of `Delegation` with the reward that the records yielded at the start. -/
theorem pay_one {cfg : Credit.Cfg} {k : Credit.State} {c : Credit.Core} {s : Delegation.State} {d : Delegator} {era : Nat} (pool : Balance)
    (he : Credit.EnvInv k) (hk : Credit.CoreInv False (Credit.currentEra cfg k) k.core) (hc : Credit.CoreInv False (Credit.currentEra cfg k) c)
    (hat : cfg.attenuationStep ≠ 2 ^ 64 - 1) (hs : Same k.core c d.who) :
    ∃ c', payDelegator cfg { k with core := c } s d era pool = .ok (Delegation.payDelegator s d era pool (rewardAt cfg k), c') ∧
      Credit.CoreInv False (Credit.currentEra cfg k) c' ∧ (∀ b, b ≠ d.who → Same c c' b) ∧
      ((Delegation.payDelegator s d era pool (rewardAt cfg k)).2.2 = none → c' = c) := by
  unfold payDelegator
  by_cases hf : d.since.getD era = era
  · refine ⟨c, ?_, hc, fun b _ => Same.refl c b, fun _ => rfl⟩
    rw [if_pos hf]
    unfold Delegation.payDelegator
    simp only [hf, if_true]
  · rw [if_neg hf]
    have he' : Credit.EnvInv { k with core := c } := he.of_frame rfl
    obtain ⟨⟨c', v⟩, h1⟩ := Credit.getReward_total (cfg := cfg) he' (lv := False) hc d.who (d.since.getD era) (era - 1)
    obtain ⟨⟨c2, w⟩, h2⟩ := Credit.getReward_total (cfg := cfg) he (lv := False) hk d.who (d.since.getD era) (era - 1)
    have hv : v = w := reward_local hk hc hat hs h1 h2
    have hr : rewardAt cfg k d.who (d.since.getD era) (era - 1) = v := by
      unfold rewardAt; rw [h2]; exact hv.symm
    refine ⟨c', ?_, Credit.getReward_inv (s := { k with core := c }) hc h1, fun b hb => ?_, fun hn => ?_⟩
    · rw [h1]
      unfold Delegation.payDelegator
      simp only [hf, if_false, hr]
    · exact getReward_same h1 hb
    · unfold Delegation.payDelegator at hn
      simp only [hf, if_false] at hn
      cases hn

theorem next_behind {cfg : Delegation.Cfg} {s : Delegation.State} {last : Option Nat} {a : AccId} (h : nextDelegator cfg s last = some a) :
    behind last (cfg.key a) = true := (List.mem_filter.1 (minKey_mem h).1).2

theorem behind_trans {last : Option Nat} {i j : Nat} (h : behind last i = true) (h' : behind (some i) j = true) : behind last j = true := by
  cases last with
  | none => rfl
  | some l =>
    simp only [behind, decide_eq_true_eq] at h h' ⊢
    omega

/-- The loop is the one of `Delegation` with the rewards that the records yielded at the start of the block. -/
theorem loop_refines (cfg : StakingCredit.Cfg) (k : Credit.State) (he : Credit.EnvInv k)
    (hk : Credit.CoreInv False (Credit.currentEra cfg.credit k) k.core) (hat : cfg.credit.attenuationStep ≠ 2 ^ 64 - 1) (era : Nat) :
    ∀ (n : Nat) (x : Loop), Credit.CoreInv False (Credit.currentEra cfg.credit k) x.core → Named x.l.s →
      (∀ b, behind x.l.last (cfg.dele.key b) = true → Same k.core x.core b) →
      (∀ b, (∀ p ∈ x.l.paid, p.who ≠ b) → Same k.core x.core b) →
      ∃ y, payLoop cfg k era n x = .ok y ∧ y.l = Delegation.payLoop cfg.dele era (rewardAt cfg.credit k) n x.l ∧
        Credit.CoreInv False (Credit.currentEra cfg.credit k) y.core ∧ (∀ b, (∀ p ∈ y.l.paid, p.who ≠ b) → Same k.core y.core b) := by
  intro n
  induction n with
  | zero => intro x hc _ _ hp; exact ⟨x, rfl, rfl, hc, hp⟩
  | succ n ih =>
    intro x hc hn hb hp
    cases ha : nextDelegator cfg.dele x.l.s x.l.last with
    | none => exact ⟨{ x with l := { x.l with full := false } }, by simp only [payLoop, ha], by simp only [Delegation.payLoop, ha], hc, hp⟩
    | some a =>
      cases hd : x.l.s.delegators.get a with
      | none => exact ⟨{ x with l := { x.l with full := false } }, by simp only [payLoop, ha, hd], by simp only [Delegation.payLoop, ha, hd], hc, hp⟩
      | some d =>
        have hw := hn a d hd
        have hba := next_behind ha
        obtain ⟨c', e1, hc', hs, hno⟩ := pay_one (s := x.l.s) (d := d) (era := era) x.l.pool he hk hc hat (by rw [hw]; exact hb a hba)
        have hn' := named_payDelegator (s := x.l.s) (d := d) era x.l.pool (rewardAt cfg.credit k) (by rw [hw]; exact hd) hn
        have hwho := payDelegator_cases x.l.s d era x.l.pool (rewardAt cfg.credit k)
        simp only [payLoop, Delegation.payLoop, ha, hd, e1]
        generalize Delegation.payDelegator x.l.s d era x.l.pool (rewardAt cfg.credit k) = r at hno hn' hwho ⊢
        have hp' : ∀ b, (∀ p ∈ x.l.paid ++ r.2.2.toList, p.who ≠ b) → Same k.core c' b := by
          intro b hq
          have h1 := hp b (fun p h => hq p (List.mem_append_left _ h))
          rcases hwho with ⟨_, e⟩ | ⟨_, _, _, _, e⟩
          · rw [hno (by rw [e])]; exact h1
          · refine h1.trans (hs b fun hbd => ?_)
            have hmem := List.mem_append_right x.l.paid (Option.mem_toList.2 e)
            exact hq _ hmem hbd.symm
        by_cases h0 : x.l.pool - r.2.1 = 0
        · rw [if_pos h0, if_pos h0]
          exact ⟨_, rfl, rfl, hc', hp'⟩
        · rw [if_neg h0, if_neg h0]
          have hn2 : Named (payReferer r.1 d.who r.2.1 (x.l.pool - r.2.1)).1 := named_graph (payReferer_graph _ _ _ _) hn'
          generalize payReferer r.1 d.who r.2.1 (x.l.pool - r.2.1) = q at hn2 ⊢
          by_cases h1 : x.l.pool - r.2.1 - q.2 = 0
          · rw [if_pos h1, if_pos h1]
            exact ⟨_, rfl, rfl, hc', hp'⟩
          · rw [if_neg h1, if_neg h1]
            refine ih ⟨⟨q.1, x.l.pool - r.2.1 - q.2, some (cfg.dele.key a), x.l.full, x.l.paid ++ r.2.2.toList⟩, c'⟩ hc' hn2 (fun b hbb => ?_) hp'
            refine (hb b (behind_trans hba hbb)).trans (hs b ?_)
            intro hbd
            rw [hw] at hbd
            subst hbd
            simp [behind] at hbb

/-! ### One block -/

/-- A block is the one of `Delegation` with the rewards that the records yield; records of others stay. -/
theorem block_refines (cfg : StakingCredit.Cfg) (k : Credit.State) (s : Delegation.State) (he : Credit.EnvInv k)
    (hk : Credit.CoreInv False (Credit.currentEra cfg.credit k) k.core) (hat : cfg.credit.attenuationStep ≠ 2 ^ 64 - 1)
    (hera : cfg.credit.blocksPerEra = cfg.dele.blocksPerEra) (hblock : k.block = s.block + 1) (hn : Named s) :
    ∃ core, onBlock cfg k s = .ok (Delegation.onBlock cfg.dele s (rewardAt cfg.credit k), core) ∧
      Credit.CoreInv False (Credit.currentEra cfg.credit k) core ∧
      ∀ b, (∀ p ∈ (Delegation.onBlock cfg.dele s (rewardAt cfg.credit k)).2, p.who ≠ b) → Same k.core core b := by
  unfold onBlock Delegation.onBlock
  simp only
  split
  · exact ⟨k.core, rfl, hk, fun b _ => Same.refl _ b⟩
  · split
    · exact ⟨k.core, rfl, hk, fun b _ => Same.refl _ b⟩
    · unfold payDelegators Delegation.payDelegators
      have hcur : Credit.currentEra cfg.credit k = creditEra cfg.dele { s with block := s.block + 1 } := by
        unfold Credit.currentEra Credit.blockToEra creditEra
        rw [hera, hblock]
      split
      · exact ⟨k.core, rfl, hk, fun b _ => Same.refl _ b⟩
      · obtain ⟨y, e1, e2, e3, e4⟩ := loop_refines cfg k he hk hat (Credit.currentEra cfg.credit k) s.perBlock
          ⟨⟨{ s with block := s.block + 1 }, poolOf cfg.dele { s with block := s.block + 1 }, s.lastKey, true, []⟩, k.core⟩ hk hn
          (fun b _ => Same.refl _ b) (fun b _ => Same.refl _ b)
        refine ⟨y.core, ?_, e3, ?_⟩
        · rw [e1]
          simp only
          rw [← hcur, e2]
        · rw [← hcur]
          simp only
          rw [← e2]
          exact e4

/-- What the payments of a block are. -/
theorem block_payments (cfg : Delegation.Cfg) (s : Delegation.State) (r : AccId → Nat → Nat → Option Balance) {ps : List Payment}
    (h : Marks (creditEra cfg s) s.delegators ps) :
    ∀ p ∈ (Delegation.onBlock cfg s r).2, p.first ≤ p.last ∧ p.last + 1 = (s.block + 1) / cfg.blocksPerEra ∧ p.amount = r p.who p.first p.last := by
  have h1 : Marks (creditEra cfg { s with block := s.block + 1 }) s.delegators ps := h.later (Nat.div_le_div_right (Nat.le_succ _))
  unfold Delegation.onBlock
  simp only
  split
  · simp
  · split
    · simp
    · have := payDelegators_inv (cfg := cfg) (s := { s with block := s.block + 1 }) (reward := r)
        (P := fun t l => Marks (creditEra cfg { s with block := s.block + 1 }) t.delegators (ps ++ l) ∧
          ∀ p ∈ l, p.first ≤ p.last ∧ p.last + 1 = creditEra cfg { s with block := s.block + 1 } ∧ p.amount = r p.who p.first p.last)
        (fun u t l hg hi => by
          obtain ⟨g1, _⟩ := graph_eq hg
          rw [g1]; exact hi)
        (fun u d l hd hi hne => by
          have hm := marks_settle hd hi.1 hne (r d.who (d.since.getD (creditEra cfg { s with block := s.block + 1 })) (creditEra cfg { s with block := s.block + 1 } - 1))
          rw [List.append_assoc] at hm
          refine ⟨hm, fun p hp => ?_⟩
          rcases List.mem_append.1 hp with hp | hp
          · exact hi.2 p hp
          · simp only [List.mem_singleton] at hp
            subst hp
            obtain ⟨n, e1, e2, _⟩ := hi.1.mark _ d hd
            rw [e1] at hne ⊢
            simp only [Option.getD_some] at hne ⊢
            refine ⟨by omega, by omega, trivial⟩)
        (fun u l a d hi hd => hi.1.who a d hd)
        ⟨by simpa using h1, by simp⟩
      exact this.2

/-! ### Histories -/

/-- What holds of the staking pallet and the credit pallet after the payments `ps`. -/
structure Inv (cfg : StakingCredit.Cfg) (x : StakingCredit.State) (ps : List Payment) : Prop where
  clock : x.credit.block = x.dele.block
  core : Credit.CoreInv False (Credit.currentEra cfg.credit x.credit) x.credit.core
  env : Credit.EnvInv x.credit
  marks : Marks (creditEra cfg.dele x.dele) x.dele.delegators ps

/-- The account a call of staking for credit is about. -/
def staker : StakingCredit.Op → AccId
  | .stake who _ _ _ => who
  | .usdt _ who _ _ _ => who
  | .unset _ who => who

/-- A property which the parts of staking for credit preserve is preserved by the calls. -/
theorem stake_keeps_of (sc : StakingCredit.Cfg) (P : StakingCredit.State → Prop) (s : StakingCredit.State) (op : StakingCredit.Op)
    (hpay : ∀ u t who v, StakingCredit.pay sc u who v = .ok t → P u → P t)
    (hadd : ∀ u t g n, StakingCredit.addCredit sc u (staker op) g n = .ok t → P u → P t)
    (hset : ∀ u who x y, P u → P { u with credit := Credit.setStakingBalance u.credit who x y })
    (hany : ∀ u t order, StakingCredit.delegateAny sc u (staker op) order = .ok t → P u → P t)
    (hbal : ∀ u b, P u → P { u with balances := b })
    (h : P s) : P (StakingCredit.step sc s op).1 := by
  have above : ∀ u t dst order, StakingCredit.delegateAbove sc u (staker op) dst order = .ok t → P u → P t := by
    intro u t dst order h hu
    unfold StakingCredit.delegateAbove at h
    split at h
    · exact hany _ _ _ h hu
    · cases h; exact hu
  cases op with
  | stake who signed dst order =>
    simp only [StakingCredit.step]
    split
    · exact h
    split
    · exact h
    rename_i s' hs
    unfold StakingCredit.doStakingDelegate at hs
    simp only at hs
    split at hs; · cases hs
    split at hs; · cases hs
    split at hs
    · cases hs
    split at hs; · cases hs
    generalize ((Credit.creditBalance s.credit who (some s.credit.defaultCampaign)).getD dst 0 - _) = v at hs
    cases hp : StakingCredit.pay sc s who v with
    | error e => rw [hp] at hs; cases hs
    | ok s1 =>
      rw [hp] at hs
      simp only [Except.bind] at hs
      split at hs
      · cases hs
      rename_i s2 h2
      exact above _ _ _ _ hs (hadd _ _ _ _ h2 (hpay _ _ _ _ hp h))
  | usdt admin who u d order =>
    simp only [StakingCredit.step]
    split
    · exact h
    split
    · exact h
    rename_i s' lvl hs
    unfold StakingCredit.doUsdt at hs
    simp only at hs
    split at hs; · cases hs
    split at hs
    · cases hs
    rename_i cur rem _
    generalize StakingCredit.climb _ _ _ _ _ = dst at hs
    cases h1 : StakingCredit.addCredit sc s who (Credit.Level.gap (Credit.Level.ofU8 dst) (Credit.Level.ofU8 cur)) s.credit.defaultUsdtCampaign with
    | error e => rw [h1] at hs; cases hs
    | ok s1 =>
      rw [h1] at hs
      simp only [Except.bind] at hs
      obtain ⟨t, ht, e⟩ := World.map_ok hs
      cases e
      exact above _ _ _ _ ht (hset _ _ _ _ (hadd _ _ _ _ h1 h))
  | unset admin who =>
    simp only [StakingCredit.step]
    split
    · exact h
    · exact hbal _ _ h

theorem stake_keeps (sc : StakingCredit.Cfg) (P : StakingCredit.State → Prop)
    (hpay : ∀ u t who v, StakingCredit.pay sc u who v = .ok t → P u → P t)
    (hadd : ∀ u t who g n, StakingCredit.addCredit sc u who g n = .ok t → P u → P t)
    (hset : ∀ u who x y, P u → P { u with credit := Credit.setStakingBalance u.credit who x y })
    (s : StakingCredit.State) (op : StakingCredit.Op)
    (hany : ∀ u t order, StakingCredit.delegateAny sc u (staker op) order = .ok t → P u → P t)
    (hbal : ∀ u b, P u → P { u with balances := b })
    (h : P s) : P (StakingCredit.step sc s op).1 :=
  stake_keeps_of sc P s op hpay (fun u t => hadd u t _) hset hany hbal h

/-- A call of the credit pallet that is a step of `Credit` preserves what holds of it. -/
theorem credit_keeps {cfg : StakingCredit.Cfg} {x : StakingCredit.State} {ps : List Payment} {k : Credit.State} {op : Credit.Op} {o : Credit.Out}
    (h : Inv cfg x ps) (hb : Credit.body cfg.credit x.credit op = .ok (k, o)) (hs : k.block = x.credit.block)
    (ht : Credit.timely cfg.credit x.credit op) (hv : Credit.validPercents op) : Inv cfg { x with credit := k } ps := by
  refine ⟨hs.trans h.clock, ?_, Credit.body_env hb hv h.env, h.marks⟩
  have := Credit.body_now hb h.core ht
  unfold Credit.currentEra at this ⊢
  simp only
  rw [hs]
  exact this

theorem inv_stake {cfg : StakingCredit.Cfg} (hera : cfg.credit.blocksPerEra = cfg.dele.blocksPerEra) {x : StakingCredit.State} {ps : List Payment}
    (h : Inv cfg x ps) (op : StakingCredit.Op) : Inv cfg (StakingCredit.step cfg x op).1 ps := by
  refine stake_keeps cfg (fun y => Inv cfg y ps) ?_ ?_ ?_ x op ?_ ?_ h
  · intro u t who v hp hu
    unfold StakingCredit.pay at hp
    split at hp
    · cases hp
    · cases hp; exact ⟨hu.clock, hu.core, hu.env, hu.marks⟩
  · intro u t who g n ha hu
    unfold StakingCredit.addCredit at ha
    split at ha
    · cases ha
    · rename_i c hc
      cases ha
      have hb : Credit.body cfg.credit u.credit (.addOrUpdateCredit who g (some n)) = .ok (c, .done) := by
        simp only [Credit.body, hc]; rfl
      refine credit_keeps hu hb ?_ trivial trivial
      unfold Credit.addOrUpdateCredit at hc
      obtain ⟨_, _, h2⟩ := Credit.map_ok hc
      cases h2
      rfl
  · intro u who a b hu
    exact credit_keeps (op := .setStakingBalance who a b) (o := .done) hu rfl rfl trivial trivial
  · intro u t order ha hu
    unfold StakingCredit.delegateAny at ha
    split at ha
    · cases ha
    rename_i d hd
    cases ha
    have hm : d.block = u.dele.block ∧ Marks (creditEra cfg.dele u.dele) d.delegators ps := by
      unfold Delegation.delegateAny at hd
      split at hd
      · cases hd
      · rw [hu.clock] at hd
        exact marks_doDelegate hu.marks (doDelegate_pass hd)
    have hc : Inv cfg { u with credit := if u.dele.delegators.contains (staker op) then u.credit
        else { u.credit with core := Credit.initDelegatorHistory (Credit.currentEra cfg.credit u.credit) u.credit.core (staker op) } } ps := by
      split
      · exact hu
      · exact credit_keeps (op := .initDelegatorHistory (staker op)) (o := .done) hu rfl rfl trivial trivial
    refine ⟨hc.clock.trans hm.1.symm, hc.core, hc.env, ?_⟩
    have : creditEra cfg.dele d = creditEra cfg.dele u.dele := by unfold creditEra; rw [hm.1]
    simp only
    rw [this]
    exact hm.2
  · intro u b hu
    exact ⟨hu.clock, hu.core, hu.env, hu.marks⟩

theorem inv_plain {cfg : Chain.Cfg} (hf : Fits cfg) {c : Chain.State} {ps : List Payment} (h : Inv cfg.stake c.stk ps) (op : Chain.Op)
    (ho : own op = true) (hs : Sound cfg c (.chain op)) : Inv cfg.stake (sync (Chain.step cfg c op)).stk ps := by
  have same : ∀ w s a, Inv cfg.stake (sync { c with w := w, slash := s, adsc := a }).stk ps := fun w s a =>
    ⟨rfl, by
      have := h.core
      unfold Credit.currentEra at this
      rw [h.clock] at this
      exact this, h.env.of_frame rfl, h.marks⟩
  have hwhole : ∀ x : StakingCredit.State, Inv cfg.stake x ps → ∀ w, Inv cfg.stake (sync { c with w := w, stk := x }).stk ps := fun x hx w =>
    ⟨rfl, by
      have := hx.core
      unfold Credit.currentEra at this
      rw [hx.clock] at this
      exact this, hx.env.of_frame rfl, hx.marks⟩
  cases op with
  | world op => simp only [Chain.step]; split <;> exact same _ _ _
  | bond op n => simp only [Chain.step]; split <;> exact same _ _ _
  | slash op => simp only [Chain.step]; split <;> exact same _ _ _
  | adsc op => exact same _ _ _
  | stake op =>
    have hx : Inv cfg.stake (Chain.stkOn c) ps := ⟨h.clock, h.core, h.env, h.marks⟩
    exact hwhole _ (inv_stake (cfg := cfg.stake) hf.eras hx op) _
  | dele op =>
    simp only [Chain.step]
    split
    · have hm := marks_step cfg.dele (s := (Chain.stkOn c).dele) op (ps := ps) h.marks
      have hn : (Delegation.step cfg.dele (Chain.stkOn c).dele op).2.payments = [] := by
        have hk := step_kind cfg.dele (Chain.stkOn c).dele op
        generalize Delegation.step cfg.dele (Chain.stkOn c).dele op = r at hk
        cases hk with
        | same _ t o _ hn => exact hn
        | join => rfl
        | quit => rfl
        | block r => cases ho
        | era order => unfold newEra; (repeat' split) <;> rfl
      rw [hn, List.append_nil] at hm
      refine ⟨rfl, ?_, h.env.of_frame rfl, hm.2⟩
      refine h.core.mono ?_
      unfold Credit.currentEra Credit.blockToEra
      rw [h.clock]
      exact Nat.div_le_div_right hm.1
    · exact same _ _ _
  | credit op =>
    have he : Credit.EnvInv { c.stk.credit with bank := c.w.bank } := h.env.of_frame rfl
    have ht : Credit.timely cfg.stk.credit { c.stk.credit with bank := c.w.bank } op := by
      have := hs.1
      cases op <;> first | trivial | exact this
    have hc : Credit.CoreInv False (Credit.currentEra cfg.stk.credit c.stk.credit) (Credit.step cfg.stk.credit { c.stk.credit with bank := c.w.bank } op).1.core := by
      rcases Credit.step_cases (cfg := cfg.stk.credit) { c.stk.credit with bank := c.w.bank } op with ⟨k, o, h1, h2⟩ | h1
      · rw [h2]; exact Credit.body_now (s := { c.stk.credit with bank := c.w.bank }) h1 h.core ht
      · rw [h1]; exact h.core
    have he2 := Credit.step_env (cfg := cfg.stk.credit) (op := op) hs.2 he
    refine ⟨rfl, ?_, he2.of_frame rfl, h.marks⟩
    unfold Credit.currentEra at hc
    rw [h.clock] at hc
    exact hc

theorem fill_own {cfg : Chain.Cfg} {c : Chain.State} {op : Chain.Op} (ho : own op = true) : own (fill cfg c op) = true := by
  unfold fill
  split
  · rfl
  · exact ho

theorem fill_sound {cfg : Chain.Cfg} {c : Chain.State} {op : Chain.Op} (hs : Sound cfg c (.chain op)) : Sound cfg c (.chain (fill cfg c op)) := by
  unfold fill
  split
  · trivial
  · exact hs

theorem inv_chain {cfg : Chain.Cfg} (hf : Fits cfg) {c : Chain.State} {ps : List Payment} (h : Inv cfg.stake c.stk ps) (op : Chain.Op)
    (ho : own op = true) (hs : Sound cfg c (.chain op)) : Inv cfg.stake (call cfg c op).stk ps := by
  have hi := inv_plain hf h (fill cfg c op) (fill_own ho) (fill_sound hs)
  unfold call
  generalize sync (Chain.step cfg c (fill cfg c op)) = t at hi
  simp only
  unfold effect
  split
  · rename_i d _ _
    split
    · exact credit_keeps (op := .initDelegatorHistory d) (o := .done) hi rfl rfl trivial trivial
    · exact hi
  · rename_i d
    exact credit_keeps (op := .slashCredit d (some Credit.u64Max)) (o := .done) hi rfl rfl trivial trivial
  · exact hi

/-- A block: it does not panic, and it is the one of `Delegation` with the rewards that are due. -/
theorem inv_block {cfg : Chain.Cfg} (hf : Fits cfg) {c : Chain.State} {ps : List Payment} (h : Inv cfg.stake c.stk ps) :
    ∃ core qs, step cfg c .block =
        ({ Chain.step cfg c (.dele (.block (rewardAt cfg.stk.credit (creditNext c)))) with stk := { (Chain.step cfg c (.dele (.block (rewardAt cfg.stk.credit (creditNext c))))).stk with credit := { creditNext c with core := core } } }, .paid qs) ∧
      Inv cfg.stake (step cfg c .block).1.stk (ps ++ qs) ∧
      (∀ p ∈ qs, p.first ≤ p.last ∧ p.last + 1 = Credit.currentEra cfg.stk.credit (creditNext c) ∧
        Due cfg.stk.credit (creditNext c) p.who p.first p.last p.amount) ∧
      ∀ b, (∀ p ∈ qs, p.who ≠ b) → Same c.stk.credit.core core b := by
  have hcore : Credit.CoreInv False (Credit.currentEra cfg.stk.credit (creditNext c)) (creditNext c).core := by
    refine h.core.mono ?_
    unfold Credit.currentEra Credit.blockToEra
    rw [h.clock]
    exact Nat.div_le_div_right (Nat.le_succ _)
  have henv : Credit.EnvInv (creditNext c) := h.env.of_frame rfl
  obtain ⟨core, e1, e2, e3⟩ := block_refines cfg.stake (creditNext c) (Chain.stkOn c).dele henv hcore hf.step hf.eras rfl h.marks.who
  have hm := marks_onBlock cfg.dele (s := (Chain.stkOn c).dele) (rewardAt cfg.stk.credit (creditNext c)) (ps := ps) h.marks
  have hp := block_payments cfg.dele (Chain.stkOn c).dele (rewardAt cfg.stk.credit (creditNext c)) h.marks
  have estep : step cfg c .block =
      ({ Chain.step cfg c (.dele (.block (rewardAt cfg.stk.credit (creditNext c)))) with stk := { (Chain.step cfg c (.dele (.block (rewardAt cfg.stk.credit (creditNext c))))).stk with credit := { creditNext c with core := core } } }, .paid (Delegation.onBlock cfg.dele (Chain.stkOn c).dele (rewardAt cfg.stk.credit (creditNext c))).2) := by
    simp only [step, e1]
    rfl
  refine ⟨core, (Delegation.onBlock cfg.dele (Chain.stkOn c).dele (rewardAt cfg.stk.credit (creditNext c))).2, estep, ?_, ?_, e3⟩
  · rw [estep]
    exact ⟨hm.1.symm, e2, henv.of_frame rfl, hm.2⟩
  · intro p hpm
    obtain ⟨q1, q2, q3⟩ := hp p hpm
    have hera : p.last + 1 = Credit.currentEra cfg.stk.credit (creditNext c) := by
      rw [q2]
      unfold Credit.currentEra Credit.blockToEra
      rw [hf.eras]
      rfl
    refine ⟨q1, hera, ?_⟩
    obtain ⟨⟨c', v⟩, h1⟩ := Credit.getReward_total (cfg := cfg.stk.credit) henv (lv := False) hcore p.who p.first p.last
    have hv : p.amount = v := by rw [q3]; unfold rewardAt; rw [h1]
    rw [hv]
    exact getReward_due hcore hf.step q1 (by omega) h1

theorem inv_step {cfg : Chain.Cfg} (hf : Fits cfg) {c : Chain.State} {ps : List Payment} (h : Inv cfg.stake c.stk ps) (op : Op)
    (hs : Sound cfg c op) : Inv cfg.stake (step cfg c op).1.stk (ps ++ (step cfg c op).2.payments) := by
  cases op with
  | chain op =>
    simp only [step, Out.payments, List.append_nil]
    split
    · rename_i ho
      exact inv_chain hf h op ho hs
    · exact h
  | block =>
    obtain ⟨core, qs, e, hi, _⟩ := inv_block hf h
    rw [e] at hi ⊢
    exact hi

theorem inv_start {cfg : Chain.Cfg} {c : Chain.State} (h : Start c) : Inv cfg.stake c.stk [] := by
  obtain ⟨⟨bank, settings, users, prices, admin, burn, ha, e⟩, hb, hn⟩ := h
  obtain ⟨g1, g2, _⟩ := Credit.genesis_core bank settings users
  refine ⟨by rw [e]; exact g2.trans hb.symm, ?_, by rw [e]; exact (Credit.genesis_env bank settings users ha).of_frame rfl, ?_⟩
  · rw [e]
    refine ⟨fun a l hl => ?_, False.elim, False.elim⟩
    rw [g1] at hl
    cases hl
  · rw [hn]
    exact ⟨(fun _ _ h => nomatch h), (fun _ _ h => nomatch h), (fun _ h => nomatch h), List.Pairwise.nil⟩

/-- Along a history, with the payments made before it. -/
theorem inv_run {cfg : Chain.Cfg} (hf : Fits cfg) : ∀ (ops : List Op) {c : Chain.State} {ps : List Payment}, Inv cfg.stake c.stk ps →
    (∀ e ∈ (run cfg c ops).2, Sound cfg e.1 e.2.1) →
    Inv cfg.stake (run cfg c ops).1.stk (ps ++ (payments (run cfg c ops).2).map Prod.snd) ∧
    ∀ e ∈ (run cfg c ops).2, ∃ qs, Inv cfg.stake e.1.stk qs ∧ e.2.2 = (step cfg e.1 e.2.1).2 := by
  intro ops
  induction ops with
  | nil => intro c ps h _; exact ⟨by simpa [run, payments] using h, by simp [run]⟩
  | cons op ops ih =>
    intro c ps h hs
    simp only [run] at hs ⊢
    have h1 := inv_step hf h op (hs (c, op, (step cfg c op).2) (by simp))
    obtain ⟨i1, i2⟩ := ih h1 (fun e he => hs e (by simp [he]))
    refine ⟨?_, ?_⟩
    · rw [List.append_assoc] at i1
      have : (payments ((c, op, (step cfg c op).2) :: (run cfg (step cfg c op).1 ops).2)).map Prod.snd =
          (step cfg c op).2.payments ++ (payments (run cfg (step cfg c op).1 ops).2).map Prod.snd := by
        simp [payments, Function.comp_def]
      rw [this]
      exact i1
    · intro e he
      rcases List.mem_cons.1 he with rfl | he
      · exact ⟨ps, h, rfl⟩
      · exact i2 e he

/-! ### The property -/

/-- C110: in every history of the chain the payouts at the start of a block never panic, and a delegator is paid for each
unpaid era up to the last one what the credit recorded for this era is worth per day: no more, no less. -/
theorem C110_amounts (cfg : Chain.Cfg) (hf : Fits cfg) {c : Chain.State} (h : Start c) (ops : List Op)
    (hs : ∀ e ∈ (run cfg c ops).2, Sound cfg e.1 e.2.1) :
    ∀ e ∈ (run cfg c ops).2, e.2.2 ≠ .halted ∧ ∀ p ∈ e.2.2.payments,
      p.first ≤ p.last ∧ p.last + 1 = Credit.currentEra cfg.stk.credit (creditNext e.1) ∧
      Due cfg.stk.credit (creditNext e.1) p.who p.first p.last p.amount := by
  intro e he
  obtain ⟨qs, hi, ho⟩ := (inv_run hf ops (inv_start h) hs).2 e he
  obtain ⟨b, op, o⟩ := e
  simp only at hi ho ⊢
  cases op with
  | chain op =>
    have : o = .paid [] := ho
    subst this
    exact ⟨(by intro h; cases h), by simp [Out.payments]⟩
  | block =>
    obtain ⟨core, ps, e1, _, h3, _⟩ := inv_block hf hi
    rw [e1] at ho
    simp only at ho
    subst ho
    exact ⟨(by intro h; cases h), h3⟩

theorem owed_bounds {cfg : Credit.Cfg} {k : Credit.State} {a : AccId} {x y e : Nat} (h : e ∈ owed cfg k a x y) : x ≤ e ∧ e ≤ y := by
  unfold owed at h
  split at h
  · cases h
  · exact Credit.mem_eras.1 (List.mem_filter.1 h).1

theorem owed_increasing (cfg : Credit.Cfg) (k : Credit.State) (a : AccId) (x y : Nat) : (owed cfg k a x y).Pairwise (· < ·) := by
  unfold owed
  split
  · exact List.Pairwise.nil
  · exact (Credit.eras_pairwise x y).filter _

/-- C110: over the whole history an account is paid for no era twice, and in the order of the eras. -/
theorem C110_once (cfg : Chain.Cfg) (hf : Fits cfg) {c : Chain.State} (h : Start c) (ops : List Op)
    (hs : ∀ e ∈ (run cfg c ops).2, Sound cfg e.1 e.2.1) (a : AccId) :
    ((paymentsTo a (run cfg c ops).2).flatMap fun q => owed cfg.stk.credit (creditNext q.1) a q.2.first q.2.last).Pairwise (· < ·) := by
  have hm := (inv_run hf ops (inv_start h) hs).1.marks.order
  rw [List.nil_append, List.pairwise_map] at hm
  have hm2 : (paymentsTo a (run cfg c ops).2).Pairwise (fun p q => p.2.last < q.2.first) := by
    unfold paymentsTo
    rw [List.pairwise_filter]
    refine hm.imp ?_
    intro p q hpq hp hq
    simp only [decide_eq_true_eq] at hp hq
    exact hpq (by rw [hp, hq])
  generalize paymentsTo a (run cfg c ops).2 = l at hm2
  induction l with
  | nil => exact List.Pairwise.nil
  | cons q l ih =>
    rw [List.pairwise_cons] at hm2
    rw [List.flatMap_cons, List.pairwise_append]
    refine ⟨owed_increasing _ _ _ _ _, ih hm2.2, ?_⟩
    intro e he e' he'
    obtain ⟨q', hq', he'⟩ := List.mem_flatMap.1 he'
    have h1 := owed_bounds he
    have h2 := owed_bounds he'
    have h3 := hm2.1 q' hq'
    omega

/-- C110: a block changes accounts, ledger and delegations as `Chain` does for the rewards just described, so that the
statements about supply, books and balances apply; credit and its history change for paid delegators only. -/
theorem C110_block (cfg : Chain.Cfg) (hf : Fits cfg) {c : Chain.State} (h : Start c) (ops : List Op)
    (hs : ∀ e ∈ (run cfg c ops).2, Sound cfg e.1 e.2.1) :
    let b := (run cfg c ops).1
    let t := step cfg b .block
    ∃ r : AccId → Nat → Nat → Option Balance,
      (∀ p ∈ t.2.payments, p.amount = r p.who p.first p.last) ∧
      t.1.w = (Chain.step cfg b (.dele (.block r))).w ∧ t.1.stk.dele = (Chain.step cfg b (.dele (.block r))).stk.dele ∧
      ∀ a, (∀ p ∈ t.2.payments, p.who ≠ a) →
        t.1.stk.credit.core.userCredit.get a = b.stk.credit.core.userCredit.get a ∧
        t.1.stk.credit.core.history.get a = b.stk.credit.core.history.get a := by
  intro b t
  have hi := (inv_run hf ops (inv_start h) hs).1
  obtain ⟨core, qs, e1, _, h3, h4⟩ := inv_block (c := b) hf hi
  have ht : t = step cfg b .block := rfl
  rw [e1] at ht
  refine ⟨rewardAt cfg.stk.credit (creditNext b), ?_, ?_, ?_, ?_⟩
  · have hp := block_payments cfg.dele (Chain.stkOn b).dele (rewardAt cfg.stk.credit (creditNext b)) hi.marks
    have hq : t.2.payments = (Delegation.onBlock cfg.dele (Chain.stkOn b).dele (rewardAt cfg.stk.credit (creditNext b))).2 := by
      have hcore : Credit.CoreInv False (Credit.currentEra cfg.stk.credit (creditNext b)) (creditNext b).core := by
        refine hi.core.mono ?_
        unfold Credit.currentEra Credit.blockToEra
        rw [hi.clock]
        exact Nat.div_le_div_right (Nat.le_succ _)
      obtain ⟨core', e1', _, _⟩ := block_refines cfg.stake (creditNext b) (Chain.stkOn b).dele (hi.env.of_frame rfl) hcore hf.step hf.eras rfl hi.marks.who
      simp only [t, step, e1', Out.payments]
      rfl
    intro p hpm
    rw [hq] at hpm
    exact (hp p hpm).2.2
  · rw [ht]
  · rw [ht]
  · intro a ha
    rw [ht] at ha ⊢
    exact h4 a ha

/-! ### Example -/

/-- Eras of 4 blocks. -/
def exCfg : Chain.Cfg :=
  { Chain.exCfg with stk := { Chain.exCfg.stk with credit := { Credit.exCfg with blocksPerEra := 4 }, dele := { Delegation.exCfg with totalMining := 10 ^ 24 } } }

theorem exCfg_fits : Fits exCfg := ⟨rfl, by decide⟩

/-- Account 7 has a credit score of 130, account 3 one of 40. -/
def exStart : Chain.State :=
  { Chain.exStart with stk := { Chain.exStart.stk with credit := { Credit.genesis Council.exBank (Credit.campaign8Settings ++ Credit.campaign7Settings 10) [(7, Credit.Data.new 8 130), (3, Credit.Data.new 8 40)] with creditBalances := [0, 50, 120, 200], isAdmin := fun a => decide (a = 4), burnPrice := 2 } } }

theorem exStart_start : Start exStart :=
  ⟨⟨Council.exBank, Credit.campaign8Settings ++ Credit.campaign7Settings 10, _, _, _, _, by decide, rfl⟩, rfl, rfl⟩

/-- Two validators are elected; 7 delegates, 3 must not; in era 1 the credit of 7 rises to 230; blocks up to era 3. -/
def exOps : List Op :=
  [.chain (.bond (.bond 1 11 500 .staked true) 0), .chain (.bond (.validate 11 (0, false)) 0), .chain (.bond (.bond 2 12 500 .stash true) 0),
   .chain (.bond (.validate 12 (0, false)) 0), .chain (.dele (.configure 100 2 1 [] 84)), .chain (.dele (.newEra [1, 2])), .chain (.dele (.newEra [1, 2])),
   .chain (.dele (.delegate 7 [1] false)), .chain (.dele (.delegate 3 [1] true))] ++ List.replicate 6 .block ++
  [.chain (.credit (.addOrUpdateCredit 7 100 none))] ++ List.replicate 9 .block

theorem exOps_sound : ∀ e ∈ (run exCfg exStart exOps).2, Sound exCfg e.1 e.2.1 := by
  have hops : ∀ c, ∀ op ∈ exOps, Sound exCfg c op := by
    intro c op h
    simp only [exOps, List.mem_append, List.mem_cons, List.mem_replicate, List.not_mem_nil, or_false] at h
    rcases h with ((h | h) | h) | h
    · rcases h with rfl | rfl | rfl | rfl | rfl | rfl | rfl | rfl | rfl <;> trivial
    · rw [h.2]; trivial
    · rw [h]; exact ⟨trivial, trivial⟩
    · rw [h.2]; trivial
  have hmem : ∀ (ops : List Op) (c : Chain.State), ∀ e ∈ (run exCfg c ops).2, e.2.1 ∈ ops := by
    intro ops
    induction ops with
    | nil => intro c e h; cases h
    | cons op ops ih =>
      intro c e h
      rcases List.mem_cons.1 h with rfl | h
      · simp
      · exact List.mem_cons_of_mem _ (ih _ e h)
  exact fun e h => hops _ _ (hmem _ _ e h)

/-- Account 7 is paid for eras 0, 1 and 2, more from era 1 on; account 3 is not a delegator. -/
example :
    let c := run exCfg exStart exOps
    (payments c.2).map (·.2) = [⟨7, 0, 0, some 684931376344495250⟩, ⟨7, 1, 1, some 2191780404302384800⟩, ⟨7, 2, 2, some 2191780404302384800⟩] ∧
    (payments c.2).map (fun q => owed exCfg.stk.credit (creditNext q.1) 7 q.2.first q.2.last) = [[0], [1], [2]] ∧
    c.1.w.bank.free 7 = 684931376344495250 + 2 * 2191780404302384800 ∧ c.1.stk.dele.delegators.get 3 = none ∧
    (Credit.historyOf c.1.stk.credit.core 7).map (fun e => (e.1, e.2.credit)) = [(0, 130), (1, 230)] := by
  decide +kernel

end Verif.Payout
