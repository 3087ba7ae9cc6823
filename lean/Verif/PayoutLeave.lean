import Verif.PayoutJoin
import Verif.DelegationLaw

/-!
# Ceasing to be a delegator: C114
-/

namespace Verif.Payout

open Verif Delegation

/-- Calls that may make account `a` delegate again. -/
def rejoins (a : AccId) : Op → Bool
  | .chain (.dele (.delegate d _ _)) => decide (d = a)
  | .chain (.stake (.stake who _ _ _)) => decide (who = a)
  | .chain (.stake (.usdt _ who _ _ _)) => decide (who = a)
  | _ => false

theorem rejoins_staker {a : AccId} {o : StakingCredit.Op} (h : rejoins a (.chain (.stake o)) = false) :
    (∃ ad who, o = .unset ad who) ∨ staker o ≠ a := by
  cases o with
  | unset ad who => exact .inl ⟨_, _, rfl⟩
  | stake who sg dst order => exact .inr (by simpa [rejoins, staker] using h)
  | usdt ad who u v order => exact .inr (by simpa [rejoins, staker] using h)

/-- Without a call of its own an account does not become a delegator. -/
theorem call_none {cfg : Chain.Cfg} (hf : Fits cfg) {c : Chain.State} {ps : List Payment} (hg : Good cfg c ps) (op : Chain.Op) (ho : own op = true)
    {a : AccId} (hr : rejoins a (.chain op) = false) (h : c.stk.dele.delegators.get a = none) : (call cfg c op).stk.dele.delegators.get a = none := by
  cases hx : (call cfg c op).stk.dele.delegators.get a with
  | none => rfl
  | some d =>
    exfalso
    obtain ⟨h1, _⟩ := joined_call hf hg op ho h hx
    rcases h1 with ⟨vs, pass, rfl⟩ | ⟨o, rfl, e⟩
    · simp [rejoins] at hr
    · rcases rejoins_staker hr with ⟨ad, who, rfl⟩ | hn
      · have : (call cfg c (.stake (.unset ad who))).stk.dele.delegators.get a = none := by
          have e : (call cfg c (.stake (.unset ad who))).stk.dele.delegators = (StakingCredit.step cfg.stake (Chain.stkOn c) (.unset ad who)).1.dele.delegators := rfl
          rw [e]
          simp only [StakingCredit.step]
          split <;> exact h
        rw [this] at hx
        cases hx
      · exact hn e

/-- The record of an account whose delegation has ended stays. -/
theorem call_idle {cfg : Chain.Cfg} {c : Chain.State} (op : Chain.Op) (ho : own op = true) {a : AccId} {d : Delegator}
    (hr : rejoins a (.chain op) = false) (h : c.stk.dele.delegators.get a = some d) (hd : d.delegating = false) :
    (call cfg c op).stk.dele.delegators.get a = some d := by
  have hst : (call cfg c op).stk.dele.delegators = (Chain.step cfg c (fill cfg c op)).stk.dele.delegators := rfl
  rw [hst]
  cases op with
  | world op => simp only [fill, Chain.step]; split <;> exact h
  | bond op n => simp only [fill, Chain.step]; split <;> exact h
  | slash op => simp only [fill, Chain.step]; split <;> exact h
  | adsc op => exact h
  | credit op => exact h
  | stake op =>
    show (StakingCredit.step cfg.stake (Chain.stkOn c) op).1.dele.delegators.get a = some d
    rcases stake_last cfg.stake (Chain.stkOn c) op with h1 | ⟨u, order, h1, h2, h3⟩
    · rw [h1]; exact h
    · rcases rejoins_staker hr with ⟨ad, who, rfl⟩ | hn
      · simp only [StakingCredit.step]
        split <;> exact h
      · generalize (StakingCredit.step cfg.stake (Chain.stkOn c) op).1 = r at h1
        unfold StakingCredit.delegateAny at h1
        split at h1
        · cases h1
        rename_i t ht
        cases h1
        unfold Delegation.delegateAny at ht
        split at ht
        · cases ht
        have := doDelegate_record ht a
        rw [if_neg hn] at this
        show t.delegators.get a = some d
        rw [this]
        show u.dele.delegators.get a = some d
        rw [h2]
        exact h
  | dele op =>
    have key : ∀ o, rejoins a (.chain (.dele o)) = false → own (.dele o) = true → (Chain.step cfg c (.dele o)).stk.dele.delegators.get a = some d := by
      intro o hr ho
      simp only [Chain.step]
      split
      · rename_i hown
        show (Delegation.step cfg.dele (deleOf c) o).1.delegators.get a = some d
        by_cases hh : Delegation.hook o = true
        · cases o with
          | newEra order =>
            obtain ⟨era, l, e⟩ := newEra_graph (deleOf c) order
            have e1 : (Delegation.newEra (deleOf c) order).1.delegators = (deleOf c).delegators := (congrArg Prod.fst e :)
            show (Delegation.newEra (deleOf c) order).1.delegators.get a = some d
            rw [e1]
            exact h
          | block r => cases ho
          | _ => cases hh
        · have hh : Delegation.hook o = false := by simpa using hh
          by_cases ha : Delegation.allowed cfg.dele (deleOf c) o
          · rw [C93_records cfg.dele (deleOf c) o hh ha a]
            have hd' : (deleOf c).delegators.get a = some d := h
            have he : ((deleOf c).delegators.get a).bind (ended (deleOf c)) = some d := by
              rw [hd']
              simp [ended, hd]
            cases o with
            | delegate x vs p =>
              have : x ≠ a := by simpa [rejoins] using hr
              simp only [recordAfter, if_neg this]; exact hd'
            | delegateAny x order p => cases ho
            | undelegate x => simp only [recordAfter]; split; exacts [he, hd']
            | forceUnstaking k x => simp only [recordAfter]; split; exacts [he, hd']
            | forceUndelegate k xs => simp only [recordAfter]; split; exacts [he, hd']
            | _ => exact hd'
          · rw [(C93_accepted cfg.dele (deleOf c) o hh).2 ha]
            exact h
      · exact h
    cases op with
    | delegate x vs p => exact key (.delegate x vs _) hr rfl
    | _ => exact key _ hr ho

/-- What has happened to an account whose delegation had ended with the unpaid eras from `n` on. -/
def Ended (cfg : Chain.Cfg) (a : AccId) (d : Delegator) (n : Nat) (r : Option Delegator) (l : List (Chain.State × Payment)) : Prop :=
  (r = some d ∧ l = []) ∨
  (r = none ∧ ∃ q, l = [q] ∧ q.2.first = n ∧ q.2.last + 1 = Credit.currentEra cfg.stk.credit (creditNext q.1))

theorem block_idle (cfg : Delegation.Cfg) (s : Delegation.State) (r : AccId → Nat → Nat → Option Balance) (hn : Named s) (a : AccId) {d : Delegator} {n : Nat}
    (h : s.delegators.get a = some d) (hd : d.delegating = false) (hs : d.since = some n) (hm : n ≤ (s.block + 1) / cfg.blocksPerEra) :
    ((Delegation.onBlock cfg s r).1.delegators.get a = some d ∧ (Delegation.onBlock cfg s r).2.filter (fun p => decide (p.who = a)) = []) ∨
    ((Delegation.onBlock cfg s r).1.delegators.get a = none ∧ ∃ p, (Delegation.onBlock cfg s r).2.filter (fun p => decide (p.who = a)) = [p] ∧
      p.first = n ∧ p.last + 1 = (s.block + 1) / cfg.blocksPerEra) := by
  have hera : creditEra cfg { s with block := s.block + 1 } = (s.block + 1) / cfg.blocksPerEra := rfl
  unfold Delegation.onBlock
  simp only
  split
  · exact .inl ⟨h, rfl⟩
  · split
    · exact .inl ⟨h, rfl⟩
    · refine (payDelegators_inv (cfg := cfg) (s := { s with block := s.block + 1 }) (reward := r)
        (P := fun t l => ((t.delegators.get a = some d ∧ l.filter (fun p => decide (p.who = a)) = []) ∨
          (t.delegators.get a = none ∧ ∃ p, l.filter (fun p => decide (p.who = a)) = [p] ∧ p.first = n ∧ p.last + 1 = (s.block + 1) / cfg.blocksPerEra)) ∧ Named t)
        ?_ ?_ ?_ ⟨.inl ⟨h, rfl⟩, hn⟩).1
      · intro u t l hg hu
        rw [(graph_eq hg).1]
        exact ⟨hu.1, named_graph hg hu.2⟩
      · intro u e l he hu hsince
        refine ⟨?_, named_settle _ he hu.2⟩
        rw [hera] at hsince ⊢
        by_cases hea : a = e.who
        · rw [← hea] at he
          rcases hu.1 with ⟨k1, k2⟩ | ⟨k1, _⟩
          · rw [he] at k1
            cases k1
            rw [hs] at hsince
            simp only [Option.getD_some] at hsince
            refine .inr ⟨?_, ⟨a, n, (s.block + 1) / cfg.blocksPerEra - 1, r a n ((s.block + 1) / cfg.blocksPerEra - 1)⟩, ?_, rfl, ?_⟩
            rotate_left 1
            · rw [List.filter_append, k2]
              simp only [hs, Option.getD_some, List.nil_append]
              rw [List.filter_cons_of_pos (by simp [hea]), ← hea]
              rfl
            · show (s.block + 1) / cfg.blocksPerEra - 1 + 1 = _
              omega
            · unfold settle
              rw [hd]
              simp only [Bool.false_eq_true, if_false]
              rw [← hea]
              exact FMap.get_erase_self _ _
          · rw [he] at k1; cases k1
        · rw [settle_others _ _ _ _ hea, List.filter_append]
          have : List.filter (fun p => decide (p.who = a)) [(⟨e.who, e.since.getD ((s.block + 1) / cfg.blocksPerEra), (s.block + 1) / cfg.blocksPerEra - 1, r e.who (e.since.getD ((s.block + 1) / cfg.blocksPerEra)) ((s.block + 1) / cfg.blocksPerEra - 1)⟩ : Payment)] = [] := by
            rw [List.filter_cons_of_neg (by simpa using fun h => hea h.symm)]
            rfl
          rw [this, List.append_nil]
          exact hu.1
      · intro u l x y hu hy
        exact hu.2 x y hy

/-- Nothing is paid to an account without a record. -/
theorem block_none (cfg : Delegation.Cfg) (s : Delegation.State) (r : AccId → Nat → Nat → Option Balance) (hn : Named s) (a : AccId)
    (h : s.delegators.get a = none) : (Delegation.onBlock cfg s r).1.delegators.get a = none ∧
      (Delegation.onBlock cfg s r).2.filter (fun p => decide (p.who = a)) = [] := by
  unfold Delegation.onBlock
  simp only
  split
  · exact ⟨h, rfl⟩
  · split
    · exact ⟨h, rfl⟩
    · refine (payDelegators_inv (cfg := cfg) (s := { s with block := s.block + 1 }) (reward := r)
        (P := fun t l => (t.delegators.get a = none ∧ l.filter (fun p => decide (p.who = a)) = []) ∧ Named t) ?_ ?_ ?_ ⟨⟨h, rfl⟩, hn⟩).1
      · intro u t l hg hu
        rw [(graph_eq hg).1]
        exact ⟨hu.1, named_graph hg hu.2⟩
      · intro u e l he hu _
        refine ⟨?_, named_settle _ he hu.2⟩
        have hea : a ≠ e.who := by
          intro hea
          rw [← hea, hu.1.1] at he
          cases he
        rw [settle_others _ _ _ _ hea, List.filter_append, hu.1.2, List.nil_append]
        refine ⟨hu.1.1, ?_⟩
        rw [List.filter_cons_of_neg (by simpa using fun h => hea h.symm)]
        rfl
      · intro u l x y hu hy
        exact hu.2 x y hy

theorem paymentsTo_cons (a : AccId) (c : Chain.State) (op : Op) (o : Out) (l : List (Chain.State × Op × Out)) :
    paymentsTo a ((c, op, o) :: l) = (o.payments.filter (fun p => decide (p.who = a))).map (c, ·) ++ paymentsTo a l := by
  unfold paymentsTo payments
  rw [List.flatMap_cons, List.filter_append, List.filter_map]
  rfl

/-- An account that is no delegator and does not become one is not paid. -/
theorem gone_run {cfg : Chain.Cfg} (hf : Fits cfg) (a : AccId) : ∀ (ops : List Op) {c : Chain.State} {ps : List Payment}, Good cfg c ps →
    (∀ e ∈ (run cfg c ops).2, Sound cfg e.1 e.2.1) → (∀ op ∈ ops, rejoins a op = false) → c.stk.dele.delegators.get a = none →
    (run cfg c ops).1.stk.dele.delegators.get a = none ∧ paymentsTo a (run cfg c ops).2 = [] := by
  intro ops
  induction ops with
  | nil => intro c ps _ _ _ h; exact ⟨h, rfl⟩
  | cons op ops ih =>
    intro c ps hg hs hr h
    have hg' := good_step hf hg op (hs (c, op, (step cfg c op).2) (by simp [run]))
    have hs' : ∀ e ∈ (run cfg (step cfg c op).1 ops).2, Sound cfg e.1 e.2.1 := fun e h => hs e (List.mem_cons_of_mem _ h)
    have hr' : ∀ o ∈ ops, rejoins a o = false := fun o h => hr o (List.mem_cons_of_mem _ h)
    simp only [run, paymentsTo_cons]
    cases op with
    | block =>
      obtain ⟨r, e1, e2, _⟩ := block_dele hf hg.inv
      obtain ⟨k1, k2⟩ := block_none cfg.dele (deleOf c) r hg.inv.marks.who a h
      obtain ⟨i1, i2⟩ := ih hg' hs' hr' (by rw [e1]; exact k1)
      exact ⟨i1, by rw [e2, k2, i2]; rfl⟩
    | chain op =>
      have h1 : (step cfg c (.chain op)).1.stk.dele.delegators.get a = none := by
        simp only [step]
        split
        · rename_i ho
          exact call_none hf hg op ho (hr _ (by simp)) h
        · exact h
      obtain ⟨i1, i2⟩ := ih hg' hs' hr' h1
      exact ⟨i1, by rw [i2]; rfl⟩

theorem ended_run {cfg : Chain.Cfg} (hf : Fits cfg) (a : AccId) {d : Delegator} {n : Nat} (hd : d.delegating = false) (hn : d.since = some n) :
    ∀ (ops : List Op) {c : Chain.State} {ps : List Payment}, Good cfg c ps →
    (∀ e ∈ (run cfg c ops).2, Sound cfg e.1 e.2.1) → (∀ op ∈ ops, rejoins a op = false) → c.stk.dele.delegators.get a = some d →
    Ended cfg a d n ((run cfg c ops).1.stk.dele.delegators.get a) (paymentsTo a (run cfg c ops).2) := by
  intro ops
  induction ops with
  | nil => intro c ps _ _ _ h; exact .inl ⟨h, rfl⟩
  | cons op ops ih =>
    intro c ps hg hs hr h
    have hg' := good_step hf hg op (hs (c, op, (step cfg c op).2) (by simp [run]))
    have hs' : ∀ e ∈ (run cfg (step cfg c op).1 ops).2, Sound cfg e.1 e.2.1 := fun e h => hs e (List.mem_cons_of_mem _ h)
    have hr' : ∀ o ∈ ops, rejoins a o = false := fun o h => hr o (List.mem_cons_of_mem _ h)
    simp only [run, paymentsTo_cons]
    cases op with
    | block =>
      obtain ⟨r, e1, e2, _⟩ := block_dele hf hg.inv
      have hm : n ≤ ((deleOf c).block + 1) / cfg.dele.blocksPerEra := by
        obtain ⟨m, m1, m2, _⟩ := hg.inv.marks.mark a d h
        rw [hn] at m1
        cases m1
        exact Nat.le_trans m2 (Nat.div_le_div_right (Nat.le_succ _))
      rcases block_idle cfg.dele (deleOf c) r hg.inv.marks.who a h hd hn hm with ⟨k1, k2⟩ | ⟨k1, p, k2, k3, k4⟩
      · rw [e2, k2]
        exact ih hg' hs' hr' (by rw [e1]; exact k1)
      · obtain ⟨i1, i2⟩ := gone_run hf a ops hg' hs' hr' (by rw [e1]; exact k1)
        refine .inr ⟨i1, (c, p), ?_, k3, ?_⟩
        · rw [e2, k2, i2]; rfl
        · rw [k4]
          unfold Credit.currentEra Credit.blockToEra
          rw [hf.eras]
          rfl
    | chain op =>
      have h1 : (step cfg c (.chain op)).1.stk.dele.delegators.get a = some d := by
        simp only [step]
        split
        · rename_i ho
          exact call_idle op ho (hr _ (by simp)) h hd
        · exact h
      exact ih hg' hs' hr' h1

/-! ### The property -/

/-- C114: a delegation that has ended in any way. As long as a record with unpaid eras is kept, the account gets one more payout, for all eras not yet paid
before the one it is made in, not later than in the first full era after; it amounts to the rewards recorded for these eras.
Then it is no delegator any more. -/
theorem C114_last (cfg : Chain.Cfg) (hf : Fits cfg) (hN : 2 < cfg.dele.blocksPerEra) (hinj : Function.Injective cfg.dele.key) {c : Chain.State}
    (h : Start c) (hw : World.settle c.w = c.w) (hd : ∃ bank m, c.stk.dele = genesis bank m) (before rest ops : List Op) (a : AccId)
    (d : Delegator) (n k : Nat) :
    let b := run cfg c before
    let m := run cfg b.1 rest
    let t := run cfg b.1 (rest ++ .block :: ops)
    (∀ e ∈ b.2 ++ t.2, Sound cfg e.1 e.2.1) →
    b.1.stk.dele.delegators.get a = some d → d.delegating = false → d.since = some n →
    m.1.stk.dele.block + 1 = k * cfg.dele.blocksPerEra → 0 < m.1.w.ledger.era.getD 0 →
    Quiet cfg.dele.blocksPerEra a ops → (∀ op ∈ rest ++ ops, rejoins a op = false) →
    (∀ e ∈ t.2, Chain.pool cfg e.1 ≠ 0) → Chain.pool cfg t.1 ≠ 0 →
    t.1.stk.dele.delegators.get a = none ∧
    ∃ e p, paymentsTo a t.2 = [(e, p)] ∧ p.first = n ∧ p.last + 1 = Credit.currentEra cfg.stk.credit (creditNext e) ∧
      Due cfg.stk.credit (creditNext e) a p.first p.last p.amount := by
  intro b m t hs hrec hdel hsi hk he hq hr hp hp'
  have hg := good_run hf before (good_start (cfg := cfg) h hw hd) (fun e he => hs e (List.mem_append_left _ he))
  have hs2 : ∀ e ∈ t.2, Sound cfg e.1 e.2.1 := fun e he => hs e (List.mem_append_right _ he)
  have hr2 : ∀ op ∈ rest ++ .block :: ops, rejoins a op = false := by
    intro op ho
    rcases List.mem_append.1 ho with ho | ho
    · exact hr op (List.mem_append_left _ ho)
    · rcases List.mem_cons.1 ho with rfl | ho
      · rfl
      · exact hr op (List.mem_append_right _ ho)
  obtain ⟨e1, e2⟩ := run_append cfg rest (.block :: ops) b.1
  have hsm : ∀ e ∈ m.2, Sound cfg e.1 e.2.1 := fun e he => hs2 e (by show e ∈ (run cfg b.1 (rest ++ .block :: ops)).2; rw [e2]; exact List.mem_append_left _ he)
  have hgm := good_run hf rest hg hsm
  have hend := ended_run hf a hdel hsi (rest ++ .block :: ops) hg hs2 hr2 hrec
  rcases hend with ⟨k1, k2⟩ | ⟨k1, q, k2, k3, k4⟩
  · exfalso
    have hmid := ended_run hf a hdel hsi rest hg hsm (fun op ho => hr op (List.mem_append_left _ ho)) hrec
    rw [e2, paymentsTo_append] at k2
    obtain ⟨k3, k4⟩ := List.append_eq_nil_iff.1 k2
    rcases hmid with ⟨l1, _⟩ | ⟨_, q, l2, _⟩
    · obtain ⟨q, q1, q2, _⟩ := era_once cfg hf hN hinj hgm ops a d n k hk he l1 hsi hq
        (fun e he => hs2 e (by show e ∈ (run cfg b.1 (rest ++ .block :: ops)).2; rw [e2]; exact List.mem_append_right _ he))
        (fun e he => hp e (by show e ∈ (run cfg b.1 (rest ++ .block :: ops)).2; rw [e2]; exact List.mem_append_right _ he))
        (by rw [← e1]; exact hp')
      have : q ∈ paymentsTo a (run cfg (run cfg b.1 rest).1 (.block :: ops)).2 := List.mem_filter.2 ⟨q1, by simpa using q2⟩
      rw [k4] at this
      cases this
    · rw [k3] at l2; cases l2
  · refine ⟨k1, q.1, q.2, k2, k3, k4, ?_⟩
    have hm : q ∈ paymentsTo a t.2 := by
      show q ∈ paymentsTo a (run cfg b.1 (rest ++ .block :: ops)).2
      rw [k2]; simp
    obtain ⟨h1, h2⟩ := List.mem_filter.1 hm
    have := (paid_due hf _ hg.inv hs2 q h1).2.2.1
    simp only [decide_eq_true_eq] at h2
    rw [h2] at this
    exact this

/-- Undelegating leaves the unpaid eras to be paid, unless the first of them has the number of the staking era. -/
theorem undelegate_idle (cfg : Chain.Cfg) (c : Chain.State) (a : AccId) {d : Delegator} {n : Nat} (h : c.stk.dele.delegators.get a = some d)
    (hd : d.delegating = true) (hn : d.since = some n) (hx : (deleOf c).led.era.getD 0 ≠ n) :
    (step cfg c (.chain (.dele (.undelegate a)))).1.stk.dele.delegators.get a = some { d with delegating := false } := by
  have e : (step cfg c (.chain (.dele (.undelegate a)))).1.stk.dele.delegators = (Delegation.step cfg.dele (deleOf c) (.undelegate a)).1.delegators := rfl
  have h' : (deleOf c).delegators.get a = some d := h
  rw [e, C93_records cfg.dele (deleOf c) (.undelegate a) rfl ⟨d, h⟩ a]
  simp only [recordAfter, if_true, h', Option.bind_some, ended, hd, hn, Bool.true_eq_false, if_false]
  rw [if_neg]
  rintro (h | h)
  · cases h
  · exact hx (Option.some.inj h).symm

/-- C114: whoever ends its delegation is still paid for every era up to then, once, at the latest in the first full era after,
and then is no delegator any more.
Partial: in the code this fails if the first unpaid era happens to have the number of the staking era (`C114_lost`). -/
theorem C114_leave_partial (cfg : Chain.Cfg) (hf : Fits cfg) (hN : 2 < cfg.dele.blocksPerEra) (hinj : Function.Injective cfg.dele.key) {c : Chain.State}
    (h : Start c) (hw : World.settle c.w = c.w) (hd : ∃ bank m, c.stk.dele = genesis bank m) (before rest ops : List Op) (a : AccId)
    (d : Delegator) (n k : Nat) :
    let b := run cfg c before
    let m := run cfg b.1 (.chain (.dele (.undelegate a)) :: rest)
    let t := run cfg b.1 (.chain (.dele (.undelegate a)) :: rest ++ .block :: ops)
    (∀ e ∈ b.2 ++ t.2, Sound cfg e.1 e.2.1) →
    b.1.stk.dele.delegators.get a = some d → d.delegating = true → d.since = some n → b.1.w.ledger.era.getD 0 ≠ n →
    m.1.stk.dele.block + 1 = k * cfg.dele.blocksPerEra → 0 < m.1.w.ledger.era.getD 0 →
    Quiet cfg.dele.blocksPerEra a ops → (∀ op ∈ rest ++ ops, rejoins a op = false) →
    (∀ e ∈ t.2, Chain.pool cfg e.1 ≠ 0) → Chain.pool cfg t.1 ≠ 0 →
    t.1.stk.dele.delegators.get a = none ∧
    ∃ e p, paymentsTo a t.2 = [(e, p)] ∧ p.first = n ∧ p.last + 1 = Credit.currentEra cfg.stk.credit (creditNext e) ∧
      Due cfg.stk.credit (creditNext e) a p.first p.last p.amount := by
  intro b m t hs hrec hdel hsi hx hk he hq hr hp hp'
  obtain ⟨e1, e2⟩ := run_append cfg before [.chain (.dele (.undelegate a))] c
  have key := C114_last cfg hf hN hinj h hw hd (before ++ [.chain (.dele (.undelegate a))]) rest ops a { d with delegating := false } n k
  simp only [e1, e2] at key
  refine key (fun e he => hs e ?_) (undelegate_idle cfg _ a hrec hdel hsi hx) trivial hsi hk he hq hr (fun e he => hp e (List.mem_cons_of_mem _ he)) hp'
  rcases List.mem_append.1 he with he | he
  · rcases List.mem_append.1 he with he | he
    · exact List.mem_append_left _ he
    · have : e = _ := List.mem_singleton.1 he
      exact List.mem_append_right _ (by rw [this]; exact List.mem_cons_self ..)
  · exact List.mem_append_right _ (List.mem_cons_of_mem _ he)

/-- C114: whoever is no delegator is paid nothing and stays out until a call of its own or one that raises its credit. -/
theorem C114_gone (cfg : Chain.Cfg) (hf : Fits cfg) {c : Chain.State} (h : Start c) (hw : World.settle c.w = c.w)
    (hd : ∃ bank m, c.stk.dele = genesis bank m) (before ops : List Op) (a : AccId) :
    let b := run cfg c before
    let t := run cfg b.1 ops
    (∀ e ∈ b.2 ++ t.2, Sound cfg e.1 e.2.1) → b.1.stk.dele.delegators.get a = none → (∀ op ∈ ops, rejoins a op = false) →
    t.1.stk.dele.delegators.get a = none ∧ paymentsTo a t.2 = [] := by
  intro b t hs hrec hr
  have hg := good_run hf before (good_start (cfg := cfg) h hw hd) (fun e he => hs e (List.mem_append_left _ he))
  exact gone_run hf a ops hg (fun e he => hs e (List.mem_append_right _ he)) hr hrec

/-- Account 7 delegates and ends its delegation, both in era 0. -/
def exLeave : List Op := exOps.take 10 ++ [.chain (.dele (.undelegate 7))]

/-- The hypotheses of `C114_last` and `C114_leave_partial` are met: the last payout, for era 0, is made in era 1. -/
example :
    let b := run exCfg exStart exLeave
    let m := run exCfg b.1 [.block, .block]
    let ops : List Op := [.block, .chain (.dele (.undelegate 3)), .block, .block]
    let t := run exCfg b.1 ([.block, .block] ++ .block :: ops)
    b.1.stk.dele.delegators.get 7 = some ⟨7, [1], some 0, false⟩ ∧ m.1.stk.dele.block + 1 = 1 * exCfg.dele.blocksPerEra ∧
    0 < m.1.w.ledger.era.getD 0 ∧ ops.countP isBlock = 3 ∧ ops.countP joins < 4 ∧ (∀ op ∈ ops, ends 7 op = false) ∧
    (∀ op ∈ [.block, .block] ++ ops, rejoins 7 op = false) ∧ (∀ e ∈ t.2, Chain.pool exCfg e.1 ≠ 0) ∧ Chain.pool exCfg t.1 ≠ 0 ∧
    (paymentsTo 7 t.2).map (fun q => (q.2.first, q.2.last, q.2.amount)) = [(0, 0, some 684931376344495250)] ∧
    t.1.stk.dele.delegators.get 7 = none := by
  decide +kernel

/-- C114, finding: whether anything is left to pay is decided by comparing the first unpaid era, counted in blocks, with the
number of the staking era. Account 7 has delegated through the whole of era 1 and ends its delegation at the first block of
era 2, while the staking era has number 1: it is removed at once, and era 1, for which its reward is due, is never paid. -/
theorem C114_lost :
    let b := run exCfg exStart (exOps.take 8 ++ List.replicate 8 .block)
    let t := run exCfg b.1 (.chain (.dele (.undelegate 7)) :: List.replicate 12 .block)
    b.1.stk.dele.block / exCfg.dele.blocksPerEra = 2 ∧ b.1.stk.dele.delegators.get 7 = some ⟨7, [1], some 1, true⟩ ∧
    owed exCfg.stk.credit (creditNext b.1) 7 1 1 = [1] ∧ (∀ e ∈ t.2, Chain.pool exCfg e.1 ≠ 0) ∧
    (paymentsTo 7 b.2).map (fun q => (q.2.first, q.2.last)) = [(0, 0)] ∧ paymentsTo 7 t.2 = [] := by
  decide +kernel

/-- Left to itself, the account is paid for era 1 in the next block. -/
example :
    let b := run exCfg exStart (exOps.take 8 ++ List.replicate 8 .block)
    (paymentsTo 7 (run exCfg b.1 [.block]).2).map (fun q => (q.2.first, q.2.last, q.2.amount)) = [(1, 1, some 684931376344495250)] := by
  decide +kernel

end Verif.Payout
