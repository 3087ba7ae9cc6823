import Verif.PayoutIncome
import Verif.ChainOwn
import Verif.RewardsLaw

/-!
# What a delegator earns arrives and stays: C117

C91 (payouts arrive), C111 (one payout in every era) and C115 (nobody else's call takes money) together, on the chain as
a whole with the credit pallet.
-/

namespace Verif.Payout

open Verif Delegation

/-! ### Specification -/

/-- What account `a` gets in a step of the history: its own payouts, and the bonuses for the payouts of delegators it has
referred, by the state before the block. -/
def gain (cfg : Chain.Cfg) (a : AccId) (e : Chain.State × Op × Out) : Balance :=
  shareOf a (e.2.2.payments.flatMap (creditsOf e.1.stk.dele ((e.1.stk.dele.block + 1) / cfg.dele.blocksPerEra)))

/-- What account `a` gets in a history. -/
def gained (cfg : Chain.Cfg) (a : AccId) (tr : List (Chain.State × Op × Out)) : Balance := (tr.map (gain cfg a)).sum

/-- The call takes no money of `a`, see C115. -/
def Spares (cfg : Chain.Cfg) (a : AccId) (c : Chain.State) : Op → Prop
  | .chain op => ¬ Chain.pays cfg c a op
  | .block => True

/-- Every era of the payout is rewarded, with `r`. -/
def Steady (cfg : Chain.Cfg) (a : AccId) (r : Balance) (q : Chain.State × Payment) : Prop :=
  ∀ e, q.2.first ≤ e → e ≤ q.2.last → e ∈ owed cfg.stk.credit (creditNext q.1) a q.2.first q.2.last ∧
    ∀ d, Credit.recordedAt (Credit.historyOf (creditNext q.1).core a) e = some d → Credit.dailyOf (creditNext q.1) a d = .ok r

/-- The account is on the black list when paid. -/
def Listed (cfg : Chain.Cfg) (q : Chain.State × Payment) : Prop :=
  (q.1.stk.dele.block + 1) / cfg.dele.blocksPerEra ≤ (q.1.stk.dele.blackList.get q.2.who).getD 0

/-! ### Deposits -/

theorem exists_of_total {b : Bank} {a : AccId} (h : 0 < b.total a) : b.accts.contains a = true := by
  cases hc : b.accts.contains a with
  | true => rfl
  | false =>
    have hn : b.accts.get a = none := by
      cases hg : b.accts.get a with
      | none => rfl
      | some x => simp [FMap.contains, hg] at hc
    unfold Bank.total Bank.free Bank.reserved at h
    rw [Bank.acct_of_none hn] at h
    exact absurd h (Nat.lt_irrefl 0)

theorem deposit_total {b : Bank} (hs : Chain.Solid b) {a : AccId} (h : 0 < b.total a) (v : Balance) :
    (b.depositCreating a v).total a = b.total a + v := by
  have hc := exists_of_total h
  unfold Bank.depositCreating
  split
  · rename_i hv; rw [hv]; rfl
  · rw [if_neg (fun hx => by rw [hc] at hx; cases hx.1)]
    have hf : b.ed ≤ b.free a := by
      rcases Chain.solid_acct hs a with h1 | ⟨h1, _⟩
      · exact h1
      · rw [hc] at h1; cases h1
    have e := Bank.acct_put_self { b with issuance := b.issuance + v } a ⟨b.free a + v, b.reserved a⟩
    rw [if_neg (fun hx => absurd (show b.free a + v < b.ed from hx.1) (by omega))] at e
    unfold Bank.total
    have e1 : ({ b with issuance := b.issuance + v }.put a ⟨b.free a + v, b.reserved a⟩).free a = b.free a + v := (congrArg Acct.free e :)
    have e2 : ({ b with issuance := b.issuance + v }.put a ⟨b.free a + v, b.reserved a⟩).reserved a = b.reserved a := (congrArg Acct.reserved e :)
    rw [e1, e2]
    omega

theorem credited_total {b : Bank} (hs : Chain.Solid b) {a : AccId} (h : 0 < b.total a) (l : List (AccId × Balance)) :
    b.total a + shareOf a l ≤ (credited b l).total a := by
  induction l generalizing b with
  | nil => exact Nat.le_refl _
  | cons x l ih =>
    obtain ⟨k1, k2⟩ := Chain.depositCreating_keeps b x.1 x.2 hs
    have hle := k2 a (fun hf => hf)
    have := ih k1 (Nat.lt_of_lt_of_le h hle)
    change _ ≤ (credited (b.depositCreating x.1 x.2) l).total a
    by_cases hx : x.1 = a
    · have e : shareOf a (x :: l) = x.2 + shareOf a l := by simp [shareOf, totalOf, hx]
      have e2 : (b.depositCreating x.1 x.2).total a = b.total a + x.2 := by rw [hx]; exact deposit_total hs h x.2
      omega
    · have e : shareOf a (x :: l) = shareOf a l := by simp [shareOf, totalOf, hx]
      omega

/-! ### Steps -/

theorem total_settle (w : World.State) (a : AccId) : (World.settle w).bank.total a = w.bank.total a := rfl

/-- A block brings at least the payouts and bonuses. -/
theorem block_gain {cfg : Chain.Cfg} (hf : Fits cfg) {c : Chain.State} {ps : List Payment} (h : Inv cfg.stake c.stk ps)
    (hb : Chain.Solid c.w.bank) {a : AccId} (ha : 0 < c.w.bank.total a) (hp : Chain.pool cfg (step cfg c .block).1 ≠ 0) :
    c.w.bank.total a + gain cfg a (c, .block, (step cfg c .block).2) ≤ (step cfg c .block).1.w.bank.total a := by
  obtain ⟨r, h1, h2, h3⟩ := block_dele hf h
  have hpool : poolOf cfg.dele (Delegation.onBlock cfg.dele (deleOf c) r).1 ≠ 0 := by
    rw [← h1]; exact hp
  obtain ⟨l, hl, hx⟩ := C91_block cfg.dele (deleOf c) r
  have hl : l = (Delegation.onBlock cfg.dele (deleOf c) r).2 := (Delegation.Out.paid.inj hl).symm
  obtain ⟨e1, -, -⟩ := hx hpool
  have hera : creditEra cfg.dele (Delegation.onBlock cfg.dele (deleOf c) r).1 = (c.stk.dele.block + 1) / cfg.dele.blocksPerEra := by
    unfold creditEra
    rw [onBlock_block]
    rfl
  have hbank : (step cfg c .block).1.w.bank.total a = (Delegation.onBlock cfg.dele (deleOf c) r).1.led.bank.total a := by
    rw [h3]
    rfl
  have e1 : (Delegation.onBlock cfg.dele (deleOf c) r).1.led = _ := e1
  rw [hbank, e1]
  have hg : gain cfg a (c, .block, (step cfg c .block).2) = shareOf a (l.flatMap (creditsOf (deleOf c) ((c.stk.dele.block + 1) / cfg.dele.blocksPerEra))) := by
    unfold gain
    rw [h2, ← hl]
    rfl
  rw [hg, ← hera]
  exact credited_total (b := c.w.bank) hb ha _

theorem pays_fill {cfg : Chain.Cfg} {c : Chain.State} {a : AccId} {op : Chain.Op} (h : ¬ Chain.pays cfg c a op) :
    ¬ Chain.pays cfg c a (fill cfg c op) := by
  unfold fill
  split
  · exact h
  · exact h

theorem step_solid {cfg : Chain.Cfg} (hf : Fits cfg) (hp : cfg.world.micro.burnPercent ≤ 100) {c : Chain.State} {ps : List Payment}
    (h : Inv cfg.stake c.stk ps) (hb : Chain.Solid c.w.bank) (op : Op) : Chain.Solid (step cfg c op).1.w.bank := by
  cases op with
  | chain op =>
    simp only [step]
    split
    · exact (Chain.step_keeps hp c (fill cfg c op) hb).1
    · exact hb
  | block =>
    obtain ⟨r, -, -, h3⟩ := block_dele hf h
    rw [h3]
    exact (Chain.step_keeps hp c (.dele (.block r)) hb).1

theorem step_gain {cfg : Chain.Cfg} (hf : Fits cfg) (hp : cfg.world.micro.burnPercent ≤ 100) {c : Chain.State} {ps : List Payment}
    (h : Inv cfg.stake c.stk ps) (hb : Chain.Solid c.w.bank) {a : AccId} (ha : 0 < c.w.bank.total a) (op : Op) (hs : Spares cfg a c op)
    (hpool : Chain.pool cfg (step cfg c op).1 ≠ 0) :
    c.w.bank.total a + gain cfg a (c, op, (step cfg c op).2) ≤ (step cfg c op).1.w.bank.total a := by
  cases op with
  | chain op =>
    have e : gain cfg a (c, .chain op, (step cfg c (.chain op)).2) = 0 := rfl
    rw [e, Nat.add_zero]
    simp only [step]
    split
    · exact (Chain.step_keeps hp c (fill cfg c op) hb).2 a (pays_fill hs)
    · exact Nat.le_refl _
  | block => exact block_gain hf h hb ha hpool

theorem run_gain {cfg : Chain.Cfg} (hf : Fits cfg) (hp : cfg.world.micro.burnPercent ≤ 100) {a : AccId} :
    ∀ (ops : List Op) {c : Chain.State} {ps : List Payment}, Good cfg c ps → Chain.Solid c.w.bank → 0 < c.w.bank.total a →
      (∀ e ∈ (run cfg c ops).2, Sound cfg e.1 e.2.1 ∧ Spares cfg a e.1 e.2.1 ∧ Chain.pool cfg e.1 ≠ 0) → Chain.pool cfg (run cfg c ops).1 ≠ 0 →
      c.w.bank.total a + gained cfg a (run cfg c ops).2 ≤ (run cfg c ops).1.w.bank.total a := by
  intro ops
  induction ops with
  | nil => intro c ps _ _ _ _ _; exact Nat.le_refl _
  | cons op ops ih =>
    intro c ps h hb ha hs hpool
    obtain ⟨s1, s2, -⟩ := hs (c, op, (step cfg c op).2) (by simp [run])
    have hs' : ∀ e ∈ (run cfg (step cfg c op).1 ops).2, Sound cfg e.1 e.2.1 ∧ Spares cfg a e.1 e.2.1 ∧ Chain.pool cfg e.1 ≠ 0 :=
      fun e he => hs e (by simp [run, he])
    have hp' : Chain.pool cfg (step cfg c op).1 ≠ 0 := pool_first (fun e he => (hs' e he).2.2) hpool
    have h1 := step_gain hf hp h.inv hb ha op s2 hp'
    have h2 := ih (good_step hf h op s1) (step_solid hf hp h.inv hb op) (by omega) hs' hpool
    have e : gained cfg a (run cfg c (op :: ops)).2 = gain cfg a (c, op, (step cfg c op).2) + gained cfg a (run cfg (step cfg c op).1 ops).2 := rfl
    rw [e]
    change _ ≤ (run cfg (step cfg c op).1 ops).1.w.bank.total a
    omega

theorem run_solid {cfg : Chain.Cfg} (hf : Fits cfg) (hp : cfg.world.micro.burnPercent ≤ 100) :
    ∀ (ops : List Op) {c : Chain.State} {ps : List Payment}, Good cfg c ps → Chain.Solid c.w.bank →
      (∀ e ∈ (run cfg c ops).2, Sound cfg e.1 e.2.1) → Chain.Solid (run cfg c ops).1.w.bank := by
  intro ops
  induction ops with
  | nil => intro c ps _ h _; exact h
  | cons op ops ih =>
    intro c ps h hb hs
    have s1 := hs (c, op, (step cfg c op).2) (by simp [run])
    exact ih (good_step hf h op s1) (step_solid hf hp h.inv hb op) (fun e he => hs e (by simp [run, he]))

/-! ### Amounts -/

/-- The payouts of an account not on the black list are part of what it gets. -/
theorem own_gain {cfg : Chain.Cfg} {a : AccId} (tr : List (Chain.State × Op × Out)) (hl : ∀ q ∈ paymentsTo a tr, ¬ Listed cfg q) :
    ((paymentsTo a tr).map fun q => q.2.amount.getD 0).sum ≤ gained cfg a tr := by
  induction tr with
  | nil => exact Nat.le_refl _
  | cons e tr ih =>
    have e1 : paymentsTo a (e :: tr) = ((e.2.2.payments.map fun p => (e.1, p)).filter fun q => decide (q.2.who = a)) ++ paymentsTo a tr := by
      simp [paymentsTo, payments]
    have i := ih fun q hq => hl q (by rw [e1]; exact List.mem_append_right _ hq)
    have hl0 : ∀ q ∈ ((e.2.2.payments.map fun p => (e.1, p)).filter fun q => decide (q.2.who = a)), ¬ Listed cfg q :=
      fun q hq => hl q (by rw [e1]; exact List.mem_append_left _ hq)
    rw [e1, List.map_append, List.sum_append]
    have e2 : gained cfg a (e :: tr) = gain cfg a e + gained cfg a tr := rfl
    rw [e2]
    refine Nat.add_le_add ?_ i
    unfold gain
    generalize e.2.2.payments = ps at hl0 ⊢
    induction ps with
    | nil => exact Nat.le_refl _
    | cons p ps ih =>
      have hsplit : shareOf a ((p :: ps).flatMap (creditsOf e.1.stk.dele ((e.1.stk.dele.block + 1) / cfg.dele.blocksPerEra))) =
          shareOf a (creditsOf e.1.stk.dele ((e.1.stk.dele.block + 1) / cfg.dele.blocksPerEra) p) +
          shareOf a (ps.flatMap (creditsOf e.1.stk.dele ((e.1.stk.dele.block + 1) / cfg.dele.blocksPerEra))) := by
        simp [shareOf, totalOf, List.filter_append]
      rw [hsplit]
      have ih := ih fun q hq => hl0 q (by
        obtain ⟨m1, m2⟩ := List.mem_filter.1 hq
        exact List.mem_filter.2 ⟨by rw [List.map_cons]; exact List.mem_cons_of_mem _ m1, m2⟩)
      by_cases hw : p.who = a
      · have hnl : ¬ Listed cfg (e.1, p) := hl0 _ (List.mem_filter.2 ⟨by simp, by simp [hw]⟩)
        have hd : dueOf e.1.stk.dele ((e.1.stk.dele.block + 1) / cfg.dele.blocksPerEra) p = p.amount.getD 0 := by
          unfold dueOf
          exact if_neg hnl
        have h3 : p.amount.getD 0 ≤ shareOf a (creditsOf e.1.stk.dele ((e.1.stk.dele.block + 1) / cfg.dele.blocksPerEra) p) := by
          unfold creditsOf shareOf totalOf
          rw [List.filter_cons, if_pos (by simp [hw]), List.map_cons, List.sum_cons, hd]
          exact Nat.le_add_right _ _
        rw [List.map_cons, List.filter_cons, if_pos (by simp [hw]), List.map_cons, List.sum_cons]
        exact Nat.add_le_add h3 ih
      · rw [List.map_cons, List.filter_cons, if_neg (by simp [hw])]
        exact Nat.le_trans ih (Nat.le_add_left _ _)

theorem eras_length (x y : Nat) : (Credit.eras x y).length = y + 1 - x := by
  unfold Credit.eras
  simp

/-- A steady payout is worth `r` for each of its eras. -/
theorem steady_amount {cfg : Chain.Cfg} {a : AccId} {r : Balance} {q : Chain.State × Payment}
    (hd : Due cfg.stk.credit (creditNext q.1) a q.2.first q.2.last q.2.amount) (hs : Steady cfg a r q) :
    q.2.amount.getD 0 = r * (q.2.last + 1 - q.2.first) := by
  have ho : owed cfg.stk.credit (creditNext q.1) a q.2.first q.2.last = Credit.eras q.2.first q.2.last ∨ q.2.last + 1 - q.2.first = 0 := by
    by_cases hz : q.2.last + 1 - q.2.first = 0
    · exact .inr hz
    refine .inl ?_
    have hs := fun e h1 h2 => (hs e h1 h2).1
    unfold owed at hs ⊢
    cases hu : (creditNext q.1).core.userCredit.get a with
    | none =>
      have := hs q.2.first (Nat.le_refl _) (by omega)
      simp [hu] at this
    | some d =>
      simp only [hu] at hs ⊢
      refine List.filter_eq_self.2 fun e he => ?_
      have hb : q.2.first ≤ e ∧ e ≤ q.2.last := by
        unfold Credit.eras at he
        have := List.mem_range'_1.1 he
        omega
      exact (List.mem_filter.1 (hs e hb.1 hb.2)).2
  rcases hd with ⟨h1, h2⟩ | ⟨h1, daily, h2, h3⟩
  · have hz : q.2.last + 1 - q.2.first = 0 := by
      by_cases hz : q.2.last + 1 - q.2.first = 0
      · exact hz
      · have := (hs q.2.first (Nat.le_refl _) (by omega)).1
        rw [h1] at this
        cases this
    rw [h2, hz]
    rfl
  · have hc : ∀ e ∈ owed cfg.stk.credit (creditNext q.1) a q.2.first q.2.last, daily e = r := by
      intro e he
      obtain ⟨d, d1, d2⟩ := h2 e he
      have hb := owed_bounds he
      have := (hs e hb.1 hb.2).2 d d1
      rw [this] at d2
      exact (Except.ok.inj d2).symm
    have hsum : ((owed cfg.stk.credit (creditNext q.1) a q.2.first q.2.last).map daily).sum = r * (owed cfg.stk.credit (creditNext q.1) a q.2.first q.2.last).length := by
      rw [List.map_congr_left hc]
      simp [Nat.mul_comm]
    rw [h3]
    simp only [Option.getD_some]
    rw [hsum]
    rcases ho with ho | ho
    · rw [ho, eras_length]
    · rw [ho]
      have : (owed cfg.stk.credit (creditNext q.1) a q.2.first q.2.last).length = 0 := by
        rcases Nat.eq_zero_or_pos (owed cfg.stk.credit (creditNext q.1) a q.2.first q.2.last).length with h | h
        · exact h
        · obtain ⟨e, he⟩ := List.exists_mem_of_length_pos h
          have := owed_bounds he
          omega
      rw [this]

theorem periods_sum (r : Nat) (m : Nat) : ∀ n k : Nat, n < k →
    ((periods n k (m + 1)).map fun p => r * (p.2 + 1 - p.1)).sum = r * (k + m - n) := by
  induction m with
  | zero =>
    intro n k h
    simp only [periods, List.map_cons, List.map_nil, List.sum_cons, List.sum_nil, Nat.add_zero]
    rw [show k - 1 + 1 - n = k - n by omega]
  | succ m ih =>
    intro n k h
    rw [periods, List.map_cons, List.sum_cons, ih k (k + 1) (by omega), ← Nat.mul_add]
    congr 1
    show k - 1 + 1 - n + (k + 1 + m - k) = _
    omega

/-! ### The property -/

/-- C117. Over any history, an account that pays nothing has at the end at least what it had plus all its payouts and
referral bonuses, as long as the mining pool is not used up. -/
theorem C117_kept (cfg : Chain.Cfg) (hf : Fits cfg) (hfee : cfg.world.micro.burnPercent ≤ 100) {c : Chain.State}
    (h : Start c) (hw : World.settle c.w = c.w) (hd : ∃ bank m, c.stk.dele = genesis bank m) (hsol : Chain.Solid c.w.bank)
    (before ops : List Op) (a : AccId) :
    let b := run cfg c before
    let t := run cfg b.1 ops
    (∀ e ∈ b.2 ++ t.2, Sound cfg e.1 e.2.1) → 0 < b.1.w.bank.total a →
    (∀ e ∈ t.2, Spares cfg a e.1 e.2.1 ∧ Chain.pool cfg e.1 ≠ 0) → Chain.pool cfg t.1 ≠ 0 →
    b.1.w.bank.total a + gained cfg a t.2 ≤ t.1.w.bank.total a := by
  intro b t hs ha hp hp'
  have hs1 : ∀ e ∈ b.2, Sound cfg e.1 e.2.1 := fun e he => hs e (List.mem_append_left _ he)
  have hg := good_run hf before (good_start (cfg := cfg) h hw hd) hs1
  have hsb := run_solid hf hfee before (good_start (cfg := cfg) h hw hd) hsol hs1
  exact run_gain hf hfee ops hg hsb ha (fun e he => ⟨hs e (List.mem_append_right _ he), hp e he⟩) hp'

/-- C117. A delegator whose credit is worth `r` a day in every era, and who neither pays anything nor is blacklisted, has
after `m + 1` further eras at least `r` more for each era from its first unpaid one on. -/
theorem C117_steady_income (cfg : Chain.Cfg) (hf : Fits cfg) (hfee : cfg.world.micro.burnPercent ≤ 100) (hN : 2 < cfg.dele.blocksPerEra)
    (hinj : Function.Injective cfg.dele.key) {c : Chain.State} (h : Start c) (hw : World.settle c.w = c.w)
    (hd : ∃ bank m, c.stk.dele = genesis bank m) (hsol : Chain.Solid c.w.bank) (before : List Op) (eras : List (List Op)) (a : AccId)
    (d : Delegator) (n k m : Nat) (r : Balance) :
    let b := run cfg c before
    let t := run cfg b.1 (eras.flatMap (Op.block :: ·))
    (∀ e ∈ b.2 ++ t.2, Sound cfg e.1 e.2.1) →
    b.1.stk.dele.block + 1 = k * cfg.dele.blocksPerEra → 0 < b.1.w.ledger.era.getD 0 →
    b.1.stk.dele.delegators.get a = some d → d.delegating = true → d.since = some n → eras.length = m + 1 →
    (∀ ops ∈ eras, Quiet cfg.dele.blocksPerEra a ops) → 0 < b.1.w.bank.total a →
    (∀ e ∈ t.2, Spares cfg a e.1 e.2.1 ∧ Chain.pool cfg e.1 ≠ 0) → Chain.pool cfg t.1 ≠ 0 →
    (∀ q ∈ paymentsTo a t.2, Steady cfg a r q ∧ ¬ Listed cfg q) →
    b.1.w.bank.total a + r * (k + m - n) ≤ t.1.w.bank.total a := by
  intro b t hs hk he hrec hdel hsi hm hq ha hp hp' hst
  have h1 := C117_kept cfg hf hfee h hw hd hsol before (eras.flatMap (Op.block :: ·)) a hs ha hp hp'
  obtain ⟨h2, h3⟩ := C111_income cfg hf hN hinj h hw hd before eras a d n k hs hk he hrec hdel hsi hq (fun e he => (hp e he).2) hp'
  have h4 := own_gain (cfg := cfg) (a := a) t.2 fun q hq => (hst q hq).2
  have h5 : ((paymentsTo a t.2).map fun q => q.2.amount.getD 0).sum = r * (k + m - n) := by
    have e : ((paymentsTo a t.2).map fun q => q.2.amount.getD 0) =
        ((paymentsTo a t.2).map fun q => (q.2.first, q.2.last)).map fun p => r * (p.2 + 1 - p.1) := by
      rw [List.map_map]
      exact List.map_congr_left fun q hq => steady_amount (h3 q hq) (hst q hq).1
    rw [e, h2, hm]
    refine periods_sum r m n k ?_
    have hg := good_run hf before (good_start (cfg := cfg) h hw hd) fun e he => hs e (List.mem_append_left _ he)
    obtain ⟨n', e1, e2, _⟩ := hg.inv.marks.mark a d hrec
    have hn' : n' = n := Option.some.inj (e1.symm.trans hsi)
    rw [hn'] at e2
    have e2 : n ≤ b.1.stk.dele.block / cfg.dele.blocksPerEra := e2
    exact Nat.lt_of_le_of_lt e2 ((Nat.div_lt_iff_lt_mul (by omega)).2 (by omega))
  have h1 : b.1.w.bank.total a + gained cfg a t.2 ≤ t.1.w.bank.total a := h1
  omega

/-! ### Example -/

/-- Account 7 gets 100 units, then everything as in the example of C110. -/
def exFunded : List Op := .chain (.world (.money (.mint 7 100))) :: exBefore

/-- Three eras in which others delegate and burn for credit. -/
def exCalm : List (List Op) :=
  [[.block, .block, .block], [.chain (.dele (.delegate 3 [1] true)), .block, .block, .block],
   [.block, .block, .chain (.credit (.burnForCredit 3 10)), .block]]

/-- The daily reward at a credit of 130. -/
def exDaily : Balance := 684931376344495250

def worthAt (cfg : Chain.Cfg) (a : AccId) (r : Balance) (q : Chain.State × Payment) (e : Nat) : Bool :=
  decide (e ∈ owed cfg.stk.credit (creditNext q.1) a q.2.first q.2.last) &&
  match Credit.recordedAt (Credit.historyOf (creditNext q.1).core a) e with
  | none => true
  | some d => match Credit.dailyOf (creditNext q.1) a d with
    | .ok x => decide (x = r)
    | .error _ => false

theorem steady_of_check {cfg : Chain.Cfg} {a : AccId} {r : Balance} {q : Chain.State × Payment}
    (h : (Credit.eras q.2.first q.2.last).all (worthAt cfg a r q) = true) : Steady cfg a r q := by
  intro e h1 h2
  have he : e ∈ Credit.eras q.2.first q.2.last := List.mem_range'_1.2 ⟨h1, by omega⟩
  have := List.all_eq_true.1 h e he
  unfold worthAt at this
  simp only [Bool.and_eq_true, decide_eq_true_eq] at this
  refine ⟨this.1, fun d hd => ?_⟩
  have h3 := this.2
  rw [hd] at h3
  simp only at h3
  cases hx : Credit.dailyOf (creditNext q.1) a d with
  | error f => rw [hx] at h3; cases h3
  | ok x => rw [hx] at h3; rw [of_decide_eq_true h3]

def sparesCheck (cfg : Chain.Cfg) (a : AccId) (c : Chain.State) : Op → Bool
  | .chain op => Chain.quiet cfg c a op
  | .block => true

theorem spares_of_check {cfg : Chain.Cfg} {a : AccId} {c : Chain.State} {op : Op} (h : sparesCheck cfg a c op = true) : Spares cfg a c op := by
  cases op with
  | chain op => exact Chain.quiet_sound h
  | block => trivial

/-- In three eras account 7 earns three times its daily reward, and has all of it at the end. -/
example :
    let b := run exCfg exStart exFunded
    let t := run exCfg b.1 (exCalm.flatMap (Op.block :: ·))
    b.1.w.bank.total 7 + exDaily * (1 + 2 - 0) ≤ t.1.w.bank.total 7 := by
  have hops : ∀ c, ∀ op ∈ exFunded ++ exCalm.flatMap (Op.block :: ·), Sound exCfg c op := by
    intro c op h
    have h : op ∈ ([_, _, _, _, _, _, _, _, _, _, _, _, _, _, _, _, _, _, _, _, _, _, _, _, _, _, _] : List Op) := h
    simp only [List.mem_cons, List.not_mem_nil, or_false] at h
    rcases h with rfl | rfl | rfl | rfl | rfl | rfl | rfl | rfl | rfl | rfl | rfl | rfl | rfl | rfl | rfl | rfl | rfl | rfl | rfl | rfl | rfl | rfl | rfl | rfl | rfl | rfl | rfl <;>
      first | trivial | exact ⟨trivial, trivial⟩
  have hmem : ∀ (ops : List Op) (c : Chain.State), ∀ e ∈ (run exCfg c ops).2, e.2.1 ∈ ops := by
    intro ops
    induction ops with
    | nil => intro c e h; cases h
    | cons op ops ih =>
      intro c e h
      simp only [run, List.mem_cons] at h
      rcases h with rfl | h
      · simp
      · exact List.mem_cons_of_mem _ (ih _ e h)
  have hq : ∀ ops ∈ exCalm, Quiet exCfg.dele.blocksPerEra 7 ops := by
    intro ops h
    have : ops.countP isBlock = 4 - 1 ∧ ops.countP joins < 4 ∧ ∀ op ∈ ops, ends 7 op = false := by
      revert ops
      decide
    exact ⟨this.1, this.2.1, this.2.2⟩
  have hp : ∀ e ∈ (run exCfg (run exCfg exStart exFunded).1 (exCalm.flatMap (Op.block :: ·))).2,
      sparesCheck exCfg 7 e.1 e.2.1 = true ∧ Chain.pool exCfg e.1 ≠ 0 := by decide +kernel
  have hst : ∀ q ∈ paymentsTo 7 (run exCfg (run exCfg exStart exFunded).1 (exCalm.flatMap (Op.block :: ·))).2,
      (Credit.eras q.2.first q.2.last).all (worthAt exCfg 7 exDaily q) = true ∧
      ¬ ((q.1.stk.dele.block + 1) / exCfg.dele.blocksPerEra ≤ (q.1.stk.dele.blackList.get q.2.who).getD 0) := by decide +kernel
  exact C117_steady_income exCfg exCfg_fits (by decide) (by decide) (fun _ _ h => h) exStart_start Chain.exStart_start.locks ⟨_, _, rfl⟩ Chain.exSolid
    exFunded exCalm 7 ⟨7, [1], some 0, true⟩ 0 1 2 exDaily
    (fun e he => hops _ _ (by
      rcases List.mem_append.1 he with he | he
      · exact List.mem_append_left _ (hmem _ _ e he)
      · exact List.mem_append_right _ (hmem _ _ e he)))
    (by decide +kernel) (by decide +kernel) (by decide +kernel) rfl rfl rfl hq (by decide +kernel)
    (fun e he => ⟨spares_of_check (hp e he).1, (hp e he).2⟩) (by decide +kernel) (fun q hq => ⟨steady_of_check (hst q hq).1, (hst q hq).2⟩)

/-- Here the bound is attained. -/
example :
    let b := run exCfg exStart exFunded
    let t := run exCfg b.1 (exCalm.flatMap (Op.block :: ·))
    b.1.w.bank.total 7 = 100 ∧ t.1.w.bank.total 7 = 100 + 3 * exDaily ∧ gained exCfg 7 t.2 = 3 * exDaily := by
  decide +kernel

end Verif.Payout
