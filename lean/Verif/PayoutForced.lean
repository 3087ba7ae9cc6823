import Verif.PayoutLeave
import Verif.CreditLaw

/-
Property C121: a credit administrator can end a delegation by force; from then on the account earns nothing, until somebody
gives it credit again (pallets/staking/src/lib.rs:2116-2131).
-/

namespace Verif.Payout

open Verif Delegation

/-- Calls that can give a credit record to an account that has none: the record set by root or a credit administrator, the
credit of another pallet, and the conversion of USDT by a credit administrator. -/
def gives (a : AccId) : Op → Bool
  | .chain (.credit (.addOrUpdateCredit b _ _)) => decide (b = a)
  | .chain (.credit (.addOrUpdateCreditData b _)) => decide (b = a)
  | .chain (.credit (.externalSetCreditData _ b _)) => decide (b = a)
  | .chain (.stake (.usdt _ b _ _ _)) => decide (b = a)
  | _ => false

/-- The account has no credit record. -/
def Without (c : Chain.State) (a : AccId) : Prop := c.stk.credit.core.userCredit.get a = none

/-- The account is no delegator, or its delegation has ended. -/
def Idle (c : Chain.State) (a : AccId) : Prop := ∀ d, c.stk.dele.delegators.get a = some d → d.delegating = false

/-! ### The record -/

theorem credit_none {cfg : Credit.Cfg} (hat : cfg.attenuationStep ≠ 2 ^ 64 - 1) {k : Credit.State} {op : Credit.Op} {a : AccId}
    (hg : gives a (.chain (.credit op)) = false) (h : k.core.userCredit.get a = none) :
    (Credit.step cfg k op).1.core.userCredit.get a = none := by
  rw [Credit.C79_record_table cfg hat]
  generalize (Credit.step cfg k op).2 = out
  unfold Credit.expectedRecord
  cases hr : Credit.tableRow cfg k op out with
  | none => exact h
  | some r =>
    obtain ⟨b, f⟩ := r
    simp only
    split
    rotate_left
    · exact h
    rename_i hab
    subst hab
    rw [h]
    unfold Credit.tableRow at hr
    split at hr
    case h_5 => cases hr; simp [gives] at hg
    case h_6 =>
      obtain ⟨x, hx, e⟩ := Option.map_eq_some_iff.1 hr
      cases e; rfl
    case h_7 =>
      obtain ⟨x, hx, e⟩ := Option.map_eq_some_iff.1 hr
      cases e
      simp [Credit.punished]
    case h_8 => cases hr; simp [Credit.punished]
    case h_2 => cases hr; simp
    case h_11 => cases hr; simp [gives] at hg
    case h_12 => cases hr; simp [gives] at hg
    all_goals first
      | (cases hr; rfl)
      | (cases hr)

theorem stake_none {cfg : StakingCredit.Cfg} (hat : cfg.credit.attenuationStep ≠ 2 ^ 64 - 1) {x : StakingCredit.State} {op : StakingCredit.Op} {a : AccId}
    (hg : gives a (.chain (.stake op)) = false) (h : x.credit.core.userCredit.get a = none) :
    (StakingCredit.step cfg x op).1.credit.core.userCredit.get a = none ∧
      ((∀ d, x.dele.delegators.get a = some d → d.delegating = false) →
        ∀ d, (StakingCredit.step cfg x op).1.dele.delegators.get a = some d → d.delegating = false) := by
  by_cases hst : ∃ sg dst order, op = .stake a sg dst order
  · obtain ⟨sg, dst, order, rfl⟩ := hst
    have : (StakingCredit.step cfg x (.stake a sg dst order)).1 = x := by
      simp only [StakingCredit.step, StakingCredit.doStakingDelegate, Credit.creditScore, h]
      split
      · rfl
      · split <;> rename_i h2
        · rfl
        · exfalso
          revert h2
          split
          · intro h2; cases h2
          · split
            · intro h2; cases h2
            · intro h2; cases h2
    rw [this]
    exact ⟨h, id⟩
  · by_cases hun : ∃ ad who, op = .unset ad who
    · obtain ⟨ad, who, rfl⟩ := hun
      simp only [StakingCredit.step]
      split <;> exact ⟨h, id⟩
    have hne : staker op ≠ a := by
      cases op with
      | stake who sg dst order =>
        intro e
        exact hst ⟨sg, dst, order, by rw [show who = a from e]⟩
      | usdt ad who u v order => simpa [gives, staker] using hg
      | unset ad who => exact absurd ⟨ad, who, rfl⟩ hun
    have hne' : a ≠ staker op := fun e => hne e.symm
    refine stake_keeps_of cfg (fun u => u.credit.core.userCredit.get a = none ∧
      ((∀ d, x.dele.delegators.get a = some d → d.delegating = false) → ∀ d, u.dele.delegators.get a = some d → d.delegating = false)) x op
      ?_ ?_ ?_ ?_ ?_ ⟨h, id⟩
    · intro u t who v hp hu
      unfold StakingCredit.pay at hp
      split at hp
      · cases hp
      · cases hp; exact hu
    · intro u t g n ha hu
      unfold StakingCredit.addCredit at ha
      split at ha
      · cases ha
      rename_i k hk
      cases ha
      refine ⟨?_, hu.2⟩
      have hb : Credit.step cfg.credit u.credit (.addOrUpdateCredit (staker op) g (some n)) = (k, .done) := by
        simp only [Credit.step, Credit.body, hk]
        rfl
      have := credit_none hat (k := u.credit) (op := .addOrUpdateCredit (staker op) g (some n)) (a := a)
        (by simpa [gives] using hne) hu.1
      rw [hb] at this
      exact this
    · intro u who p q hu
      exact hu
    · intro u t order ht hu
      unfold StakingCredit.delegateAny at ht
      split at ht
      · cases ht
      rename_i d hd
      cases ht
      refine ⟨?_, fun hi e he => ?_⟩
      · show (if _ then _ else _ : Credit.State).core.userCredit.get a = none
        split
        · exact hu.1
        · have := credit_none hat (k := u.credit) (op := .initDelegatorHistory (staker op)) (a := a) rfl hu.1
          exact this
      · unfold Delegation.delegateAny at hd
        split at hd
        · cases hd
        have hrec := doDelegate_record hd a
        rw [if_neg hne] at hrec
        have he' : d.delegators.get a = some e := he
        rw [hrec] at he'
        exact hu.2 hi e he'
    · intro u b hu
      exact hu

/-! ### Payouts -/

theorem reward_none {cfg : Credit.Cfg} {k : Credit.State} {a : AccId} {x y : Nat} {b : AccId} {core : Credit.Core} {v : Option Balance}
    (h : Credit.getReward cfg k b x y = .ok (core, v)) (hn : k.core.userCredit.get a = none) : core.userCredit.get a = none := by
  by_cases hb : a = b
  · subst hb
    unfold Credit.getReward at h
    simp only [hn] at h
    split at h <;> (cases h; exact hn)
  · rw [(getReward_same h hb).1]
    exact hn

theorem payLoop_none {cfg : StakingCredit.Cfg} {k : Credit.State} {era : Nat} {a : AccId} : ∀ (n : Nat) (x y : Loop),
    payLoop cfg k era n x = .ok y → x.core.userCredit.get a = none → y.core.userCredit.get a = none := by
  intro n
  induction n with
  | zero => intro x y h hx; unfold payLoop at h; cases h; exact hx
  | succ n ih =>
    intro x y h hx
    unfold payLoop at h
    split at h
    · cases h; exact hx
    split at h
    · cases h; exact hx
    split at h
    · cases h
    rename_i r core hp
    have hc : core.userCredit.get a = none := by
      unfold payDelegator at hp
      split at hp
      · cases hp; exact hx
      · split at hp
        · cases hp
        · rename_i core' v hr
          cases hp
          exact reward_none hr hx
    simp only at h
    split at h
    · cases h; exact hc
    split at h
    · cases h; exact hc
    exact ih _ _ h hc

theorem block_without {cfg : Chain.Cfg} {c : Chain.State} {a : AccId} (h : Without c a) : Without (step cfg c .block).1 a := by
  simp only [step]
  split
  · exact h
  · rename_i s ps core e
    show core.userCredit.get a = none
    unfold onBlock at e
    simp only at e
    split at e
    · cases e; exact h
    split at e
    · cases e; exact h
    unfold payDelegators at e
    split at e
    · cases e; exact h
    split at e
    · cases e
    · rename_i x hx
      cases e
      exact payLoop_none _ _ _ hx h

/-! ### Calls -/

/-- What the delegations of an account without credit can do. -/
theorem dele_idle {cfg : Chain.Cfg} {c : Chain.State} {a : AccId} (h : Without c a) (hi : Idle c a) (op : Delegation.Op) (ho : own (.dele op) = true) :
    Idle (call cfg c (.dele op)) a := by
  intro d hd
  by_cases hr : rejoins a (.chain (.dele op)) = true
  · cases op with
    | delegate x vs p =>
      have hx : x = a := by simpa [rejoins] using hr
      subst hx
      have hp : Credit.passThreshold cfg.stk.credit c.stk.credit x = false := by
        unfold Credit.passThreshold
        rw [show c.stk.credit.core.userCredit.get x = none from h]
      have e : (call cfg c (.dele (.delegate x vs p))).stk.dele.delegators = c.stk.dele.delegators := by
        show (Chain.step cfg c (.dele (.delegate x vs (Credit.passThreshold cfg.stk.credit c.stk.credit x)))).stk.dele.delegators = _
        rw [hp]
        have hn : ¬ Delegation.allowed cfg.dele (deleOf c) (.delegate x vs false) := by
          simp [Delegation.allowed]
        have := (C93_accepted cfg.dele (deleOf c) (.delegate x vs false) rfl).2 hn
        simp only [Chain.step]
        split
        · show (Delegation.step cfg.dele (deleOf c) (.delegate x vs false)).1.delegators = _
          rw [this]
          rfl
        · rfl
      rw [e] at hd
      exact hi d hd
    | _ => cases hr
  · have hr : rejoins a (.chain (.dele op)) = false := by simpa using hr
    have key : ∀ o, rejoins a (.chain (.dele o)) = false → own (.dele o) = true → (Chain.step cfg c (.dele o)).stk.dele.delegators.get a = some d → d.delegating = false := by
      intro o hr ho hd
      simp only [Chain.step] at hd
      split at hd
      rotate_left
      · exact hi d hd
      have hd : (Delegation.step cfg.dele (deleOf c) o).1.delegators.get a = some d := hd
      have hi' : ∀ e, (deleOf c).delegators.get a = some e → e.delegating = false := hi
      by_cases hh : Delegation.hook o = true
      · cases o with
        | newEra order =>
          obtain ⟨era, l, e⟩ := newEra_graph (deleOf c) order
          have e1 : (Delegation.newEra (deleOf c) order).1.delegators = (deleOf c).delegators := (congrArg Prod.fst e :)
          have hd : (Delegation.newEra (deleOf c) order).1.delegators.get a = some d := hd
          rw [e1] at hd
          exact hi' d hd
        | block r => cases ho
        | _ => cases hh
      · have hh : Delegation.hook o = false := by simpa using hh
        by_cases ha : Delegation.allowed cfg.dele (deleOf c) o
        · rw [C93_records cfg.dele (deleOf c) o hh ha a] at hd
          have he : ((deleOf c).delegators.get a).bind (ended (deleOf c)) = some d → d.delegating = false := by
            intro he
            cases hx : (deleOf c).delegators.get a with
            | none => rw [hx] at he; cases he
            | some x =>
              rw [hx] at he
              simp only [Option.bind_some, ended, hi' x hx, if_true] at he
              cases he
              exact hi' _ hx
          cases o with
          | delegate x vs p =>
            have : x ≠ a := by simpa [rejoins] using hr
            simp only [recordAfter, if_neg this] at hd; exact hi' d hd
          | delegateAny x order p => cases ho
          | undelegate x => simp only [recordAfter] at hd; split at hd; exacts [he hd, hi' d hd]
          | forceUnstaking k x => simp only [recordAfter] at hd; split at hd; exacts [he hd, hi' d hd]
          | forceUndelegate k xs => simp only [recordAfter] at hd; split at hd; exacts [he hd, hi' d hd]
          | _ => exact hi' d hd
        · rw [(C93_accepted cfg.dele (deleOf c) o hh).2 ha] at hd
          exact hi' d hd
    cases op with
    | delegate x vs p => exact key (.delegate x vs (Credit.passThreshold cfg.stk.credit c.stk.credit x)) hr rfl hd
    | _ => exact key _ hr ho hd

theorem effect_none {cfg : Chain.Cfg} (hf : Fits cfg) {k : Credit.State} {a : AccId} (b t : FMap AccId Delegator) (op : Chain.Op)
    (h : k.core.userCredit.get a = none) : (effect cfg.stk.credit b t k op).core.userCredit.get a = none := by
  unfold effect
  split
  · split
    · rename_i d _ _ _
      exact credit_none hf.step (k := k) (op := .initDelegatorHistory d) (a := a) rfl h
    · exact h
  · exact credit_none hf.step rfl h
  · exact h

theorem call_without {cfg : Chain.Cfg} (hf : Fits cfg) {c : Chain.State} {a : AccId} (op : Chain.Op) (ho : own op = true)
    (hg : gives a (.chain op) = false) (h : Without c a) :
    Without (call cfg c op) a ∧ (Idle c a → Idle (call cfg c op) a) := by
  have hcred : ∀ k : Credit.State, k.core.userCredit.get a = none → ∀ b t, (effect cfg.stk.credit b t k op).core.userCredit.get a = none :=
    fun k hk b t => effect_none hf b t op hk
  cases op with
  | world op =>
    have e : (Chain.step cfg c (.world op)).stk = c.stk := by simp only [Chain.step]; split <;> rfl
    refine ⟨hcred (sync (Chain.step cfg c (.world op))).stk.credit ?_ c.stk.dele.delegators (Chain.step cfg c (.world op)).stk.dele.delegators, fun hi => ?_⟩
    · show (Chain.step cfg c (.world op)).stk.credit.core.userCredit.get a = none
      rw [e]; exact h
    · show ∀ d, (Chain.step cfg c (.world op)).stk.dele.delegators.get a = some d → d.delegating = false
      rw [e]; exact hi
  | bond op n =>
    have e : (Chain.step cfg c (.bond op n)).stk = c.stk := by simp only [Chain.step]; split <;> rfl
    refine ⟨hcred (sync (Chain.step cfg c (.bond op n))).stk.credit ?_ c.stk.dele.delegators (Chain.step cfg c (.bond op n)).stk.dele.delegators, fun hi => ?_⟩
    · show (Chain.step cfg c (.bond op n)).stk.credit.core.userCredit.get a = none
      rw [e]; exact h
    · show ∀ d, (Chain.step cfg c (.bond op n)).stk.dele.delegators.get a = some d → d.delegating = false
      rw [e]; exact hi
  | slash op =>
    have e : (Chain.step cfg c (.slash op)).stk = c.stk := by simp only [Chain.step]; split <;> rfl
    refine ⟨hcred (sync (Chain.step cfg c (.slash op))).stk.credit ?_ c.stk.dele.delegators (Chain.step cfg c (.slash op)).stk.dele.delegators, fun hi => ?_⟩
    · show (Chain.step cfg c (.slash op)).stk.credit.core.userCredit.get a = none
      rw [e]; exact h
    · show ∀ d, (Chain.step cfg c (.slash op)).stk.dele.delegators.get a = some d → d.delegating = false
      rw [e]; exact hi
  | adsc op => exact ⟨hcred _ h c.stk.dele.delegators c.stk.dele.delegators, fun hi => hi⟩
  | credit op =>
    refine ⟨hcred _ ?_ c.stk.dele.delegators c.stk.dele.delegators, fun hi => hi⟩
    exact credit_none hf.step (k := { c.stk.credit with bank := c.w.bank }) (op := op) hg h
  | stake op =>
    have := stake_none (cfg := cfg.stake) hf.step (x := Chain.stkOn c) (op := op) (a := a) hg h
    exact ⟨hcred _ this.1 c.stk.dele.delegators c.stk.dele.delegators, fun hi => this.2 hi⟩
  | dele op =>
    refine ⟨?_, fun hi => dele_idle h hi op ho⟩
    refine effect_none hf _ _ _ ?_
    have : ∀ o, (Chain.step cfg c (.dele o)).stk.credit = c.stk.credit := by
      intro o
      simp only [Chain.step]
      split <;> rfl
    show (Chain.step cfg c (fill cfg c (.dele op))).stk.credit.core.userCredit.get a = none
    have hfill : ∃ o, fill cfg c (.dele op) = .dele o := by cases op <;> exact ⟨_, rfl⟩
    obtain ⟨o, eo⟩ := hfill
    rw [eo, this]
    exact h

theorem step_without {cfg : Chain.Cfg} (hf : Fits cfg) {c : Chain.State} {ps : List Payment} (hg : Good cfg c ps) {a : AccId} (op : Op)
    (hv : gives a op = false) (h : Without c a) :
    Without (step cfg c op).1 a ∧ (Idle c a → Idle (step cfg c op).1 a) ∧
      ∀ p ∈ (step cfg c op).2.payments, p.who = a → p.amount = none := by
  cases op with
  | chain op =>
    simp only [step]
    refine ⟨?_, ?_, by simp [Out.payments]⟩
    · split
      · rename_i ho; exact (call_without hf op ho hv h).1
      · exact h
    · split
      · rename_i ho; exact (call_without hf op ho hv h).2
      · exact id
  | block =>
    refine ⟨block_without h, ?_, ?_⟩
    · intro hi d hd
      obtain ⟨r, e1, _, _⟩ := block_dele hf hg.inv
      rw [e1] at hd
      cases hx : c.stk.dele.delegators.get a with
      | none =>
        have := (block_none cfg.dele (deleOf c) r hg.inv.marks.who a hx).1
        rw [this] at hd
        cases hd
      | some x =>
        obtain ⟨m, m1, m2, _⟩ := hg.inv.marks.mark a x hx
        have hm : m ≤ ((deleOf c).block + 1) / cfg.dele.blocksPerEra := Nat.le_trans m2 (Nat.div_le_div_right (Nat.le_succ _))
        rcases block_idle cfg.dele (deleOf c) r hg.inv.marks.who a hx (hi x hx) m1 hm with ⟨k1, _⟩ | ⟨k1, _⟩
        · rw [k1] at hd; cases hd; exact hi _ hx
        · rw [k1] at hd; cases hd
    · intro p hp hw
      obtain ⟨core, qs, e, _, hq, _⟩ := inv_block hf hg.inv
      rw [e] at hp
      obtain ⟨_, _, hdue⟩ := hq p hp
      rw [hw] at hdue
      have ho : owed cfg.stk.credit (creditNext c) a p.first p.last = [] := by
        unfold owed
        rw [show (creditNext c).core.userCredit.get a = none from h]
      rcases hdue with ⟨_, hv⟩ | ⟨hne, _⟩
      · exact hv
      · exact absurd ho hne

theorem run_without {cfg : Chain.Cfg} (hf : Fits cfg) (a : AccId) : ∀ (ops : List Op) {c : Chain.State} {ps : List Payment}, Good cfg c ps →
    (∀ e ∈ (run cfg c ops).2, Sound cfg e.1 e.2.1) → (∀ op ∈ ops, gives a op = false) → Without c a →
    Without (run cfg c ops).1 a ∧ (Idle c a → Idle (run cfg c ops).1 a) ∧ ∀ q ∈ paymentsTo a (run cfg c ops).2, q.2.amount = none := by
  intro ops
  induction ops with
  | nil => intro c ps _ _ _ h; exact ⟨h, id, by simp [run, paymentsTo, payments]⟩
  | cons op ops ih =>
    intro c ps hg hs hv h
    have hg' := good_step hf hg op (hs (c, op, (step cfg c op).2) (by simp [run]))
    obtain ⟨h1, h2, h3⟩ := step_without hf hg op (hv op (by simp)) h
    obtain ⟨i1, i2, i3⟩ := ih hg' (fun e he => hs e (List.mem_cons_of_mem _ he)) (fun o ho => hv o (List.mem_cons_of_mem _ ho)) h1
    refine ⟨i1, fun hi => i2 (h2 hi), ?_⟩
    simp only [run, paymentsTo_cons]
    intro q hq
    rcases List.mem_append.1 hq with hq | hq
    · obtain ⟨p, hp, e⟩ := List.mem_map.1 hq
      rw [← e]
      have := List.mem_filter.1 hp
      exact h3 p this.1 (by simpa using this.2)
    · exact i3 q hq

/-! ### C121 -/

/-- **C121.** A credit administrator ends a delegation by force: the account has no credit and no credit history afterwards,
and does not delegate; credit and delegation of everybody else, and all balances, are as before. -/
theorem C121_forced (cfg : Chain.Cfg) (c : Chain.State) (a : AccId) :
    let t := (step cfg c (.chain (.dele (.forceUnstaking true a)))).1
    t.stk.credit.core.userCredit.get a = none ∧ t.stk.credit.core.history.get a = none ∧ Idle t a ∧ t.w.bank.accts = c.w.bank.accts ∧
    ∀ b, b ≠ a → t.stk.credit.core.userCredit.get b = c.stk.credit.core.userCredit.get b ∧
      t.stk.credit.core.history.get b = c.stk.credit.core.history.get b ∧ t.stk.dele.delegators.get b = c.stk.dele.delegators.get b := by
  intro t
  have hrec : ∀ b, t.stk.dele.delegators.get b = recordAfter cfg.dele (deleOf c) b (.forceUnstaking true a) := fun b =>
    C93_records cfg.dele (deleOf c) (.forceUnstaking true a) rfl (by simp [Delegation.allowed]) b
  refine ⟨?_, ?_, ?_, ?_, fun b hb => ⟨?_, ?_, ?_⟩⟩
  · exact FMap.get_erase_self _ _
  · exact FMap.get_erase_self _ _
  · intro d hd
    rw [hrec a] at hd
    simp only [recordAfter, if_true] at hd
    cases hx : (deleOf c).delegators.get a with
    | none => rw [hx] at hd; cases hd
    | some x =>
      rw [hx] at hd
      simp only [Option.bind_some, ended] at hd
      split at hd
      · rename_i h1; cases hd; exact h1
      · split at hd
        · cases hd
        · cases hd; rfl
  · have e : ∀ s : Delegation.State, (undelegateOf s a).led = s.led := by
      intro s
      unfold undelegateOf
      split
      · rfl
      · split
        · rfl
        · split <;> rfl
    show (undelegateOf (Chain.stkOn c).dele a).led.bank.accts = c.w.bank.accts
    rw [e]
    rfl
  · exact FMap.get_erase_ne _ hb
  · exact FMap.get_erase_ne _ hb
  · rw [hrec b]
    simp only [recordAfter, if_neg (fun e : a = b => hb e.symm)]
    rfl

/-- **C121.** Without the privilege of a credit administrator the call changes neither credit nor delegations. -/
theorem C121_refused (cfg : Chain.Cfg) (c : Chain.State) (a : AccId) :
    let t := (step cfg c (.chain (.dele (.forceUnstaking false a)))).1
    t.stk.credit.core = c.stk.credit.core ∧ t.stk.dele.delegators = c.stk.dele.delegators := by
  intro t
  exact ⟨rfl, rfl⟩

/-- **C121.** An account without a credit record earns nothing, whatever happens, until it is given credit: every payout to
it, also for eras it has delegated in, has no amount; if it does not delegate, it cannot delegate again. -/
theorem C121_without_credit (cfg : Chain.Cfg) (hf : Fits cfg) {c : Chain.State} (h : Start c) (hw : World.settle c.w = c.w)
    (hd : ∃ bank m, c.stk.dele = genesis bank m) (before ops : List Op) (a : AccId) :
    let b := run cfg c before
    let t := run cfg b.1 ops
    (∀ e ∈ b.2 ++ t.2, Sound cfg e.1 e.2.1) → Without b.1 a → (∀ op ∈ ops, gives a op = false) →
    Without t.1 a ∧ (Idle b.1 a → Idle t.1 a) ∧ ∀ q ∈ paymentsTo a t.2, q.2.amount = none := by
  intro b t hs h0 hv
  have hg := good_run hf before (good_start (cfg := cfg) h hw hd) (fun e he => hs e (List.mem_append_left _ he))
  exact run_without hf a ops hg (fun e he => hs e (List.mem_append_right _ he)) hv h0

/-- **C121.** After it has been unstaked by force, an account is paid nothing more and cannot delegate, until it is given
credit again. -/
theorem C121_out (cfg : Chain.Cfg) (hf : Fits cfg) {c : Chain.State} (h : Start c) (hw : World.settle c.w = c.w)
    (hd : ∃ bank m, c.stk.dele = genesis bank m) (before ops : List Op) (a : AccId) :
    let b := run cfg c before
    let t := run cfg b.1 (.chain (.dele (.forceUnstaking true a)) :: ops)
    (∀ e ∈ b.2 ++ t.2, Sound cfg e.1 e.2.1) → (∀ op ∈ ops, gives a op = false) →
    Without t.1 a ∧ Idle t.1 a ∧ ∀ q ∈ paymentsTo a t.2, q.2.amount = none := by
  intro b t hs hv
  have hg := good_run hf before (good_start (cfg := cfg) h hw hd) (fun e he => hs e (List.mem_append_left _ he))
  have hs2 : ∀ e ∈ t.2, Sound cfg e.1 e.2.1 := fun e he => hs e (List.mem_append_right _ he)
  have hg' := good_step hf hg (.chain (.dele (.forceUnstaking true a))) (hs2 (b.1, _, _) (List.mem_cons_self ..))
  obtain ⟨f1, _, f3, _⟩ := C121_forced cfg b.1 a
  obtain ⟨k1, k2, k3⟩ := run_without hf a ops hg' (fun e he => hs2 e (List.mem_cons_of_mem _ he)) hv f1
  refine ⟨k1, k2 f3, ?_⟩
  simp only [t, run, paymentsTo_cons]
  intro q hq
  rcases List.mem_append.1 hq with hq | hq
  · cases hq
  · exact k3 q hq

/-! ### Examples -/

/-- Account 7 delegates and is unstaked by force in era 0; it tries to delegate again. -/
def exForced : List Op := [.block, .chain (.dele (.delegate 7 [1] true)), .block, .chain (.stake (.stake 7 true 0 [1, 2])), .block, .block, .block]

/-- The hypotheses of `C121_out` are met: the account loses its credit and the reward of era 0, and cannot delegate. -/
example :
    let b := run exCfg exStart (exOps.take 10)
    let t := run exCfg b.1 (.chain (.dele (.forceUnstaking true 7)) :: exForced)
    b.1.stk.dele.delegators.get 7 = some ⟨7, [1], some 0, true⟩ ∧ (b.1.stk.credit.core.userCredit.get 7).map (·.credit) = some 130 ∧
    (∀ op ∈ exForced, gives 7 op = false) ∧
    (paymentsTo 7 t.2).map (fun q => (q.2.first, q.2.last, q.2.amount)) = [(0, 0, none)] ∧
    t.1.stk.dele.delegators.get 7 = none ∧ (t.1.stk.credit.core.userCredit.get 3).map (·.credit) = some 40 := by
  decide +kernel

/-- Without the forced unstaking the account is paid; and once it is given credit again, it can delegate again. -/
example :
    let b := run exCfg exStart (exOps.take 10)
    let g : Op := .chain (.credit (.addOrUpdateCredit 7 120 none))
    (paymentsTo 7 (run exCfg b.1 exForced).2).map (fun q => (q.2.first, q.2.last, q.2.amount)) = [(0, 0, some 684931376344495250)] ∧
    gives 7 g = true ∧
    (run exCfg b.1 [.chain (.dele (.forceUnstaking true 7)), g, .chain (.dele (.delegate 7 [1] true))]).1.stk.dele.delegators.get 7 = some ⟨7, [1], some 0, true⟩ := by
  decide +kernel

end Verif.Payout
