import Verif.PayoutProperties

/-!
# The income of a delegator: C111

C92 and C110 together, on the chain as a whole: a delegator gets one payout per era.
-/

namespace Verif.Payout

open Verif Delegation

/-! ### Specification -/

/-- The next block. -/
def isBlock : Op → Bool
  | .block => true
  | _ => false

/-- Calls that may make an account a delegator. -/
def joins : Op → Bool
  | .chain (.dele (.delegate ..)) => true
  | .chain (.stake (.stake ..)) => true
  | .chain (.stake (.usdt ..)) => true
  | _ => false

/-- Calls that end the delegation of account `a`. -/
def ends (a : AccId) : Op → Bool
  | .chain (.dele (.undelegate d)) => decide (d = a)
  | .chain (.dele (.forceUndelegate _ ds)) => decide (a ∈ ds)
  | .chain (.dele (.forceUnstaking _ d)) => decide (d = a)
  | _ => false

/-- What may happen in an era of `n` blocks after its first block, for account `a` to keep its income. -/
structure Quiet (n : Nat) (a : AccId) (ops : List Op) : Prop where
  blocks : ops.countP isBlock = n - 1
  joins : ops.countP joins < n
  stays : ∀ op ∈ ops, ends a op = false

/-- The periods of the payouts in the `m` eras from `k` on, if era `n` is the first unpaid one. -/
def periods (n k : Nat) : Nat → List (Nat × Nat)
  | 0 => []
  | m + 1 => (n, k - 1) :: periods k (k + 1) m

/-! ### Frames -/

/-- The delegations with the accounts of the chain. -/
def deleOf (c : Chain.State) : Delegation.State := (Chain.stkOn c).dele

/-- What operations other than blocks do; `K` are those who join. -/
structure Frame (s s' : Delegation.State) (a : AccId) (j : Nat) : Prop where
  cursor : cursor s' = cursor s
  era : s.led.era.getD 0 ≤ s'.led.era.getD 0
  mark : ∀ d n, s.delegators.get a = some d → d.since = some n → ∃ d', s'.delegators.get a = some d' ∧ d'.since = some n
  stays : ∀ d, s.delegators.get a = some d → d.delegating = true → ∃ d', s'.delegators.get a = some d' ∧ d'.delegating = true
  keys : ∃ K : List AccId, K.length ≤ j ∧ ∀ x d, s'.delegators.get x = some d → x ∈ K ∨ ∃ d, s.delegators.get x = some d
  graph : GInv s → GInv s'

theorem Frame.same {s s' : Delegation.State} {a : AccId} {j : Nat} (h1 : Delegation.graph s' = Delegation.graph s)
    (h2 : Delegation.cursor s' = Delegation.cursor s) (h3 : s.led.era.getD 0 ≤ s'.led.era.getD 0) : Frame s s' a j := by
  obtain ⟨g1, _⟩ := graph_eq h1
  exact ⟨h2, h3, fun d n h4 h5 => ⟨d, by rw [g1]; exact h4, h5⟩, fun d h4 h5 => ⟨d, by rw [g1]; exact h4, h5⟩, ⟨[], Nat.zero_le _, fun x d h => .inr ⟨d, by rw [← g1]; exact h⟩⟩,
    fun h => h.of_graph h1⟩

/-- The ledger does not matter otherwise. -/
theorem Frame.led {s s' t : Delegation.State} {a : AccId} {j : Nat} (h : Frame s s' a j) (hg : Delegation.graph t = Delegation.graph s')
    (hc : Delegation.cursor t = Delegation.cursor s') (he : s.led.era.getD 0 ≤ t.led.era.getD 0) : Frame s t a j := by
  obtain ⟨g1, _⟩ := graph_eq hg
  refine ⟨hc.trans h.cursor, he, fun d n h1 h2 => ?_, fun d h1 h2 => ?_, ?_, fun hi => (h.graph hi).of_graph hg⟩
  · rw [g1]; exact h.mark d n h1 h2
  · rw [g1]; exact h.stays d h1 h2
  · rw [g1]; exact h.keys

theorem world_era (cfg : World.Cfg) (w : World.State) (op : World.Op) : w.ledger.era.getD 0 ≤ (World.step cfg w op).ledger.era.getD 0 := by
  show _ ≤ (World.effect cfg w op).ledger.era.getD 0
  cases op with
  | ledger op => exact Ledger.step_era cfg.ledger { w.ledger with bank := w.bank } op
  | hold a v => simp only [World.effect]; split <;> exact Nat.le_refl _
  | release a v => simp only [World.effect]; split <;> exact Nat.le_refl _
  | unlockStake r a => simp only [World.effect]; split <;> exact Nat.le_refl _
  | unlockVote r a => simp only [World.effect]; split <;> exact Nat.le_refl _
  | unlockMove r x y v => simp only [World.effect]; split <;> exact Nat.le_refl _
  | _ => exact Nat.le_refl _

theorem worlds_era (cfg : World.Cfg) (ws : List World.Op) : ∀ w : World.State, w.ledger.era.getD 0 ≤ (World.run cfg w ws).ledger.era.getD 0 := by
  induction ws with
  | nil => intro w; exact Nat.le_refl _
  | cons op ws ih => intro w; exact Nat.le_trans (world_era cfg w op) (ih _)

theorem chain_era (cfg : Chain.Cfg) {c : Chain.State} (h : World.settle c.w = c.w) (op : Chain.Op) :
    c.w.ledger.era.getD 0 ≤ (Chain.step cfg c op).w.ledger.era.getD 0 := by
  by_cases hw : ∃ o, op = .world o
  · obtain ⟨o, rfl⟩ := hw
    simp only [Chain.step]
    split
    · exact world_era cfg.world c.w o
    · exact Nat.le_refl _
  · obtain ⟨ws, _, e⟩ := Chain.C109_refines cfg c h op (fun o ho => hw ⟨o, ho⟩)
    rw [← e]
    exact worlds_era cfg.world ws c.w

/-- Calls of staking for credit: at most the staker joins. -/
theorem stake_frame (cfg : StakingCredit.Cfg) (x : StakingCredit.State) (hx : x.credit.block = x.dele.block) (op : StakingCredit.Op) (a : AccId) :
    Delegation.cursor (StakingCredit.step cfg x op).1.dele = Delegation.cursor x.dele ∧
    (∀ d n, x.dele.delegators.get a = some d → d.since = some n →
      ∃ d', (StakingCredit.step cfg x op).1.dele.delegators.get a = some d' ∧ d'.since = some n) ∧
    (∀ d, x.dele.delegators.get a = some d → d.delegating = true →
      ∃ d', (StakingCredit.step cfg x op).1.dele.delegators.get a = some d' ∧ d'.delegating = true) ∧
    (∀ y d, (StakingCredit.step cfg x op).1.dele.delegators.get y = some d → y = staker op ∨ ∃ d, x.dele.delegators.get y = some d) ∧
    (GInv x.dele → GInv (StakingCredit.step cfg x op).1.dele) := by
  have key := stake_keeps cfg (fun u => u.credit.block = u.dele.block ∧ Delegation.cursor u.dele = Delegation.cursor x.dele ∧
    (∀ d n, x.dele.delegators.get a = some d → d.since = some n → ∃ d', u.dele.delegators.get a = some d' ∧ d'.since = some n) ∧
    (∀ d, x.dele.delegators.get a = some d → d.delegating = true → ∃ d', u.dele.delegators.get a = some d' ∧ d'.delegating = true) ∧
    (∀ y d, u.dele.delegators.get y = some d → y = staker op ∨ ∃ d, x.dele.delegators.get y = some d) ∧
    (GInv x.dele → GInv u.dele)) ?_ ?_ ?_ x op ?_ ?_ ⟨hx, rfl, fun d n h1 h2 => ⟨d, h1, h2⟩, fun d h1 h2 => ⟨d, h1, h2⟩, fun y d h => .inr ⟨d, h⟩, id⟩
  · exact key.2
  · intro u t who v hp hu
    unfold StakingCredit.pay at hp
    split at hp
    · cases hp
    · cases hp; exact hu
  · intro u t who g n ha hu
    unfold StakingCredit.addCredit at ha
    split at ha
    · cases ha
    · rename_i c hc
      cases ha
      refine ⟨?_, hu.2⟩
      unfold Credit.addOrUpdateCredit at hc
      obtain ⟨_, _, h2⟩ := Credit.map_ok hc
      cases h2
      exact hu.1
  · intro u who p q hu
    exact hu
  · intro u t order ha hu
    obtain ⟨u1, u2, u3, u6, u4, u5⟩ := hu
    unfold StakingCredit.delegateAny at ha
    split at ha
    · cases ha
    rename_i d hd
    cases ha
    rw [u1] at hd
    unfold Delegation.delegateAny at hd
    split at hd
    · cases hd
    have hfr := doDelegate_frame (cfg := cfg.dele) a (.delegateAny (staker op) order true) rfl hd
    have hgi := fun h => inv_doDelegate (cfg := cfg.dele) (s := u.dele) h (doDelegate_pass hd)
    have hkeys : ∀ y z, d.delegators.get y = some z → y = staker op ∨ ∃ z, u.dele.delegators.get y = some z := by
      unfold doDelegate at hd
      split at hd
      · cases hd
      cases hd
      intro y z hz
      by_cases hy : y = staker op
      · exact .inl hy
      · right
        split at hz <;> simp only [FMap.get_insert_ne _ _ hy] at hz <;> exact ⟨z, hz⟩
    have hb : d.block = u.dele.block := (congrArg Prod.fst hfr.cursor :)
    refine ⟨?_, hfr.cursor.trans u2, fun e n h1 h2 => ?_, fun e h1 h2 => ?_, fun y z hz => ?_, fun h => hgi (u5 h)⟩
    · simp only
      rw [hb]
      split <;> exact u1
    · obtain ⟨e', h3, h4⟩ := u3 e n h1 h2
      exact hfr.mark e' n h3 h4
    · obtain ⟨e', h3, h4⟩ := u6 e h1 h2
      exact hfr.stays e' h3 h4
    · rcases hkeys y z hz with h | ⟨z', h⟩
      · exact .inl h
      · exact u4 y z' h
  · intro u b hu
    exact hu

/-- All operations but blocks. -/
theorem call_frame (cfg : Chain.Cfg) {c : Chain.State} {ps : List Payment} (h : Inv cfg.stake c.stk ps) (hw : World.settle c.w = c.w) (op : Chain.Op)
    (ho : own op = true) (a : AccId) (he : ends a (.chain op) = false) :
    Frame (deleOf c) (deleOf (call cfg c op)) a ([Op.chain op].countP joins) := by
  have hera := chain_era cfg hw (fill cfg c op)
  have same : (Chain.step cfg c (fill cfg c op)).stk.dele = c.stk.dele → Frame (deleOf c) (deleOf (call cfg c op)) a ([Op.chain op].countP joins) := by
    intro e
    refine Frame.same ?_ ?_ hera
    · have : (deleOf (call cfg c op)) = { (Chain.step cfg c (fill cfg c op)).stk.dele with led := Chain.led (Chain.step cfg c (fill cfg c op)) } := rfl
      rw [this, e]; rfl
    · have : (deleOf (call cfg c op)) = { (Chain.step cfg c (fill cfg c op)).stk.dele with led := Chain.led (Chain.step cfg c (fill cfg c op)) } := rfl
      rw [this, e]; rfl
  cases op with
  | world op => exact same (by simp only [fill, Chain.step]; split <;> rfl)
  | bond op n => exact same (by simp only [fill, Chain.step]; split <;> rfl)
  | slash op => exact same (by simp only [fill, Chain.step]; split <;> rfl)
  | adsc op => exact same rfl
  | credit op => exact same rfl
  | stake op =>
    obtain ⟨f1, f2, f5, f3, f4⟩ := stake_frame cfg.stake (Chain.stkOn c) h.clock op a
    have hj : (StakingCredit.step cfg.stake (Chain.stkOn c) op).1.dele = (Chain.stkOn c).dele ∨ [staker op].length ≤ [Op.chain (.stake op)].countP joins := by
      cases op with
      | stake => right; exact Nat.le_refl _
      | usdt => right; exact Nat.le_refl _
      | unset ad who =>
        left
        simp only [StakingCredit.step]
        split <;> rfl
    refine ⟨f1, hera, f2, f5, ?_, f4⟩
    rcases hj with hj | hj
    · refine ⟨[], Nat.zero_le _, fun x d hd => .inr ⟨d, ?_⟩⟩
      have : (deleOf (call cfg c (.stake op))).delegators = (StakingCredit.step cfg.stake (Chain.stkOn c) op).1.dele.delegators := rfl
      rw [this, hj] at hd
      exact hd
    · refine ⟨[staker op], hj, fun x d hd => ?_⟩
      rcases f3 x d hd with h | h
      · left; simp [h]
      · exact .inr h
  | dele op =>
    by_cases hown : Chain.deleOwn op = true
    · have hop : ∃ op', fill cfg c (.dele op) = .dele op' ∧ Chain.deleOwn op' = true ∧ Delegation.isBlock op' = false ∧ endsFor a op' = false ∧
          [op'].countP isJoin = [Op.chain (.dele op)].countP joins := by
        cases op <;> first
          | exact ⟨_, rfl, hown, rfl, he, rfl⟩
          | cases ho
          | exact ⟨_, rfl, hown, rfl, rfl, rfl⟩
      obtain ⟨op', e1, e2, e3, e4, e5⟩ := hop
      have hf := step_pframe cfg.dele (deleOf c) a op' e3 e4
      have hg := Delegation.inv_step cfg.dele (deleOf c) op'
      have hd : (Chain.step cfg c (fill cfg c (.dele op))).stk.dele = (Delegation.step cfg.dele (deleOf c) op').1 := by
        rw [e1]; simp only [Chain.step, e2, if_true]; rfl
      have hd' : deleOf (call cfg c (.dele op)) = { (Delegation.step cfg.dele (deleOf c) op').1 with led := Chain.led (Chain.step cfg c (fill cfg c (.dele op))) } := by
        rw [← hd]; rfl
      have hfr : Frame (deleOf c) (Delegation.step cfg.dele (deleOf c) op').1 a ([Op.chain (.dele op)].countP joins) :=
        ⟨hf.cursor, hf.era, hf.mark, hf.stays, by rw [← e5]; exact hf.keys, hg⟩
      refine hfr.led ?_ ?_ hera
      · rw [hd']; rfl
      · rw [hd']; rfl
    · refine same ?_
      cases op <;> first
        | exact absurd rfl hown
        | rfl

/-! ### Histories -/

/-- What holds along a history. -/
structure Good (cfg : Chain.Cfg) (c : Chain.State) (ps : List Payment) : Prop where
  inv : Inv cfg.stake c.stk ps
  graph : GInv c.stk.dele
  locks : World.settle c.w = c.w

theorem call_w (cfg : Chain.Cfg) (c : Chain.State) (op : Chain.Op) : (call cfg c op).w = (Chain.step cfg c (fill cfg c op)).w := rfl

/-- A block, with the delegations. -/
theorem block_dele {cfg : Chain.Cfg} (hf : Fits cfg) {c : Chain.State} {ps : List Payment} (h : Inv cfg.stake c.stk ps) :
    ∃ r : AccId → Nat → Nat → Option Balance, (step cfg c .block).1.stk.dele = (Delegation.onBlock cfg.dele (deleOf c) r).1 ∧ (step cfg c .block).2.payments = (Delegation.onBlock cfg.dele (deleOf c) r).2 ∧
      (step cfg c .block).1.w = (Chain.step cfg c (.dele (.block r))).w := by
  obtain ⟨core, qs, e, _⟩ := inv_block hf h
  have hcore : Credit.CoreInv False (Credit.currentEra cfg.stk.credit (creditNext c)) (creditNext c).core := by
    refine h.core.mono ?_
    unfold Credit.currentEra Credit.blockToEra
    rw [h.clock]
    exact Nat.div_le_div_right (Nat.le_succ _)
  obtain ⟨core', e1, _, _⟩ := block_refines cfg.stake (creditNext c) (Chain.stkOn c).dele (h.env.of_frame rfl) hcore hf.step hf.eras rfl h.marks.who
  refine ⟨rewardAt cfg.stk.credit (creditNext c), ?_, ?_, ?_⟩
  · rw [e]; rfl
  · simp only [step, e1, Out.payments]; rfl
  · rw [e]

theorem good_step {cfg : Chain.Cfg} (hf : Fits cfg) {c : Chain.State} {ps : List Payment} (h : Good cfg c ps) (op : Op) (hs : Sound cfg c op) :
    Good cfg (step cfg c op).1 (ps ++ (step cfg c op).2.payments) := by
  refine ⟨inv_step hf h.inv op hs, ?_, ?_⟩
  · cases op with
    | chain op =>
      simp only [step]
      split
      · rename_i ho
        by_cases he : ends (0 : Nat) (.chain op) = false
        · exact (call_frame cfg h.inv h.locks op ho 0 he).graph h.graph
        · have hd : ∃ op', op = .dele op' := by
            cases op <;> first | exact ⟨_, rfl⟩ | exact absurd rfl he
          obtain ⟨op', rfl⟩ := hd
          have hfill : fill cfg c (.dele op') = .dele op' := by
            cases op' <;> first | rfl | exact absurd rfl he
          have hst : (call cfg c (.dele op')).stk.dele = (Chain.step cfg c (.dele op')).stk.dele := by
            have : (call cfg c (.dele op')).stk.dele = (Chain.step cfg c (fill cfg c (.dele op'))).stk.dele := rfl
            rw [this, hfill]
          rw [hst]
          simp only [Chain.step]
          split
          · exact Delegation.inv_step cfg.dele (deleOf c) op' h.graph
          · exact h.graph
      · exact h.graph
    | block =>
      obtain ⟨r, e, _⟩ := block_dele hf h.inv
      rw [e]
      exact inv_onBlock cfg.dele r h.graph
  · cases op with
    | chain op =>
      simp only [step]
      split
      · exact Chain.settled_step cfg _ h.locks
      · exact h.locks
    | block =>
      obtain ⟨r, _, _, e⟩ := block_dele hf h.inv
      rw [e]
      exact Chain.settled_step cfg _ h.locks

theorem good_run {cfg : Chain.Cfg} (hf : Fits cfg) : ∀ (ops : List Op) {c : Chain.State} {ps : List Payment}, Good cfg c ps →
    (∀ e ∈ (run cfg c ops).2, Sound cfg e.1 e.2.1) → Good cfg (run cfg c ops).1 (ps ++ (payments (run cfg c ops).2).map Prod.snd) := by
  intro ops
  induction ops with
  | nil => intro c ps h _; simpa [run, payments] using h
  | cons op ops ih =>
    intro c ps h hs
    simp only [run] at hs ⊢
    have h1 := good_step hf h op (hs (c, op, (step cfg c op).2) (by simp))
    have i1 := ih h1 (fun e he => hs e (by simp [he]))
    rw [List.append_assoc] at i1
    have : (payments ((c, op, (step cfg c op).2) :: (run cfg (step cfg c op).1 ops).2)).map Prod.snd =
        (step cfg c op).2.payments ++ (payments (run cfg (step cfg c op).1 ops).2).map Prod.snd := by
      simp [payments, Function.comp_def]
    rw [this]
    exact i1

theorem good_start {cfg : Chain.Cfg} {c : Chain.State} (h : Start c) (hw : World.settle c.w = c.w) (hd : ∃ bank m, c.stk.dele = genesis bank m) : Good cfg c [] := by
  obtain ⟨bank, m, e⟩ := hd
  exact ⟨inv_start h, by rw [e]; exact inv_genesis bank m, hw⟩

theorem pool_first {cfg : Chain.Cfg} {c : Chain.State} {ops : List Op} (h : ∀ e ∈ (run cfg c ops).2, Chain.pool cfg e.1 ≠ 0)
    (h' : Chain.pool cfg (run cfg c ops).1 ≠ 0) : Chain.pool cfg c ≠ 0 := by
  cases ops with
  | nil => exact h'
  | cons op ops => exact h (c, op, (step cfg c op).2) (by simp [run])

theorem progress (cfg : Chain.Cfg) (hf : Fits cfg) (hN : 2 < cfg.dele.blocksPerEra) (hinj : Function.Injective cfg.dele.key) (a : AccId) (n k : Nat) (hn : n < k)
    (ops : List Op) : ∀ (c : Chain.State) (ps : List Payment) (d : Delegator), Good cfg c ps → c.stk.dele.delegators.get a = some d → d.since = some n →
    k * cfg.dele.blocksPerEra ≤ c.stk.dele.block → c.stk.dele.block + ops.countP isBlock < (k + 1) * cfg.dele.blocksPerEra → c.w.ledger.era.getD 0 ≠ 0 →
    behind c.stk.dele.lastKey (cfg.dele.key a) = true → (∀ e ∈ (run cfg c ops).2, Chain.pool cfg e.1 ≠ 0) → Chain.pool cfg (run cfg c ops).1 ≠ 0 →
    (∀ e ∈ (run cfg c ops).2, Sound cfg e.1 e.2.1) → (∀ op ∈ ops, ends a op = false) →
    (ahead cfg.dele c.stk.dele.delegators c.stk.dele.lastKey a).length + ops.countP joins ≤ c.stk.dele.perBlock * ops.countP isBlock →
    ∃ q ∈ payments (run cfg c ops).2, q.2.who = a ∧ q.2.first = n ∧ q.2.last + 1 = k := by
  induction ops with
  | nil =>
    intro c ps d _ hd _ _ _ _ hb _ _ _ _ hlen
    have : a ∈ ahead cfg.dele c.stk.dele.delegators c.stk.dele.lastKey a := mem_ahead.2 ⟨⟨d, hd⟩, hb, Nat.le_refl _⟩
    have := List.length_pos_of_mem this
    simp only [List.countP_nil, Nat.mul_zero] at hlen
    omega
  | cons op ops ih =>
    intro c ps d hg hd hs h1 h2 he hb hp hp' hsd hr hlen
    have hg' := good_step hf hg op (hsd (c, op, (step cfg c op).2) (by simp [run]))
    have hpt : ∀ e ∈ (run cfg (step cfg c op).1 ops).2, Chain.pool cfg e.1 ≠ 0 := fun e h => hp e (List.mem_cons_of_mem _ h)
    have hst : ∀ e ∈ (run cfg (step cfg c op).1 ops).2, Sound cfg e.1 e.2.1 := fun e h => hsd e (List.mem_cons_of_mem _ h)
    have hpe : Chain.pool cfg (run cfg (step cfg c op).1 ops).1 ≠ 0 := hp'
    have hrt : ∀ o ∈ ops, ends a o = false := fun o h => hr o (List.mem_cons_of_mem _ h)
    have lift : (∃ q ∈ payments (run cfg (step cfg c op).1 ops).2, q.2.who = a ∧ q.2.first = n ∧ q.2.last + 1 = k) →
        ∃ q ∈ payments (run cfg c (op :: ops)).2, q.2.who = a ∧ q.2.first = n ∧ q.2.last + 1 = k := by
      rintro ⟨q, h, h'⟩
      exact ⟨q, by simp only [run, payments, List.flatMap_cons]; exact List.mem_append_right _ h, h'⟩
    cases op with
    | block =>
      have c1 : (Op.block :: ops).countP isBlock = ops.countP isBlock + 1 := List.countP_cons_of_pos rfl
      have c2 : (Op.block :: ops).countP joins = ops.countP joins := List.countP_cons_of_neg (by simp [joins])
      rw [c1] at h2 hlen
      rw [c2] at hlen
      have hdiv : (c.stk.dele.block + 1) / cfg.dele.blocksPerEra = k := by
        rw [Nat.div_eq_iff (by omega)]
        rw [Nat.add_mul] at h2
        omega
      have hmod : (c.stk.dele.block + 1) % cfg.dele.blocksPerEra ≠ 0 := by
        intro h0
        have := Nat.div_add_mod (c.stk.dele.block + 1) cfg.dele.blocksPerEra
        rw [h0, hdiv, Nat.mul_comm] at this
        omega
      obtain ⟨r, e1, e2, e3⟩ := block_dele hf hg.inv
      have hb1 := onBlock_block cfg.dele (deleOf c) r
      rcases block_progress cfg.dele hinj (deleOf c) r a d n k hg.graph hd hs hn hdiv hmod he hb (pool_first hp hp')
          (by have := pool_first hpt hpe; unfold Chain.pool at this; rw [e1] at this; exact this) with
        ⟨p, h3, h4⟩ | ⟨k1, k2, k3, k4, k5⟩
      · refine ⟨(c, p), ?_, h4⟩
        simp only [run, payments, List.flatMap_cons]
        refine List.mem_append_left _ (List.mem_map.2 ⟨p, ?_, rfl⟩)
        rw [e2]; exact h3
      · refine lift (ih (step cfg c .block).1 _ d hg' (by rw [e1]; exact k1) hs ?_ ?_ ?_ (by rw [e1]; exact k4) hpt hpe hst hrt ?_)
        · rw [e1, hb1]; exact Nat.le_trans h1 (Nat.le_succ _)
        · rw [e1, hb1]
          have : (deleOf c).block = c.stk.dele.block := rfl
          omega
        · rw [e3]
          have := chain_era cfg hg.locks (.dele (.block r))
          omega
        · rw [e1, k2]
          have e4 : (deleOf c).perBlock = c.stk.dele.perBlock := rfl
          have e5 : (deleOf c).delegators = c.stk.dele.delegators := rfl
          have e6 : (deleOf c).lastKey = c.stk.dele.lastKey := rfl
          rw [e4, e5, e6] at k5
          rw [e4]
          rw [Nat.mul_add] at hlen
          omega
    | chain op =>
      have c1 : (Op.chain op :: ops).countP isBlock = ops.countP isBlock := List.countP_cons_of_neg (by simp [isBlock])
      have c2 : (Op.chain op :: ops).countP joins = ops.countP joins + [Op.chain op].countP joins := by
        simp only [List.countP_cons, List.countP_nil]; omega
      rw [c1] at h2 hlen
      rw [c2] at hlen
      have hfr : Frame (deleOf c) (deleOf (step cfg c (.chain op)).1) a ([Op.chain op].countP joins) := by
        simp only [step]
        split
        · rename_i ho
          exact call_frame cfg hg.inv hg.locks op ho a (hr _ (by simp))
        · exact Frame.same rfl rfl (Nat.le_refl _)
      obtain ⟨f1, f2, f3, _, ⟨K, f4, f5⟩, _⟩ := hfr
      simp only [cursor, Prod.mk.injEq] at f1
      obtain ⟨g1, g2, g3⟩ := f1
      obtain ⟨d', hd', hs'⟩ := f3 d n hd hs
      have g1' : (step cfg c (.chain op)).1.stk.dele.block = c.stk.dele.block := g1
      have g2' : (step cfg c (.chain op)).1.stk.dele.perBlock = c.stk.dele.perBlock := g2
      have g3' : (step cfg c (.chain op)).1.stk.dele.lastKey = c.stk.dele.lastKey := g3
      have f2' : c.w.ledger.era.getD 0 ≤ (step cfg c (.chain op)).1.w.ledger.era.getD 0 := f2
      refine lift (ih (step cfg c (.chain op)).1 _ d' hg' hd' hs' (by rw [g1']; exact h1) (by rw [g1']; exact h2) (by omega)
        (by rw [g3']; exact hb) hpt hpe hst hrt ?_)
      rw [g2', g3']
      have := length_le (l' := K ++ ahead cfg.dele c.stk.dele.delegators c.stk.dele.lastKey a)
        (ahead_nodup cfg.dele (step cfg c (.chain op)).1.stk.dele.delegators c.stk.dele.lastKey a) (by
        intro x hx
        rw [mem_ahead] at hx
        obtain ⟨⟨y, hy⟩, hx2⟩ := hx
        rw [List.mem_append]
        rcases f5 x y hy with h | h
        · exact .inl h
        · exact .inr (mem_ahead.2 ⟨h, hx2⟩))
      rw [List.length_append] at this
      omega

/-! ### One era -/

/-- From the first block of an era on: exactly one payout, for all unpaid eras, and then the mark is at the era. -/
theorem era_once (cfg : Chain.Cfg) (hf : Fits cfg) (hN : 2 < cfg.dele.blocksPerEra) (hinj : Function.Injective cfg.dele.key) {c : Chain.State}
    {ps : List Payment} (hg : Good cfg c ps) (ops : List Op) (a : AccId) (d : Delegator) (n k : Nat)
    (hk : c.stk.dele.block + 1 = k * cfg.dele.blocksPerEra) (he : 0 < c.w.ledger.era.getD 0) (hd : c.stk.dele.delegators.get a = some d)
    (hs : d.since = some n) (hq : Quiet cfg.dele.blocksPerEra a ops) (hsd : ∀ e ∈ (run cfg c (.block :: ops)).2, Sound cfg e.1 e.2.1)
    (hp : ∀ e ∈ (run cfg c (.block :: ops)).2, Chain.pool cfg e.1 ≠ 0) (hp' : Chain.pool cfg (run cfg c (.block :: ops)).1 ≠ 0) :
    ∃ q ∈ payments (run cfg c (.block :: ops)).2, q.2.who = a ∧ q.2.first = n ∧ q.2.last + 1 = k := by
  have hmk := hg.inv.marks.mark a d hd
  have hn : n < k := by
    obtain ⟨x, h1, h2, _⟩ := hmk
    rw [hs] at h1; cases h1
    have : creditEra cfg.dele c.stk.dele < k := by
      unfold creditEra
      rw [Nat.div_lt_iff_lt_mul (by omega)]
      omega
    exact Nat.lt_of_le_of_lt h2 this
  obtain ⟨r, e1, e2, e3⟩ := block_dele hf hg.inv
  have hone : Delegation.onBlock cfg.dele (deleOf c) r = ({ deleOf c with block := c.stk.dele.block + 1, perBlock := (c.stk.dele.count + (cfg.dele.blocksPerEra - 2) - 1) / (cfg.dele.blocksPerEra - 2) + 1, lastKey := none }, []) := by
    unfold Delegation.onBlock
    simp only
    rw [if_neg (by show ¬ c.w.ledger.era.getD 0 = 0; omega), if_pos (by show (c.stk.dele.block + 1) % _ = 0; rw [hk]; exact Nat.mul_mod_left _ _)]
    rfl
  rw [hone] at e1
  have hg' := good_step hf hg .block trivial
  obtain ⟨q, h1, h2⟩ := progress cfg hf hN hinj a n k hn ops (step cfg c .block).1 _ d hg' (by rw [e1]; exact hd) hs
    (by rw [e1]; exact Nat.le_of_eq hk.symm)
    (by
      rw [e1, hq.blocks]
      show c.stk.dele.block + 1 + (cfg.dele.blocksPerEra - 1) < (k + 1) * cfg.dele.blocksPerEra
      rw [Nat.add_mul, hk]; omega)
    (by
      rw [e3]
      have := chain_era cfg hg.locks (.dele (.block r))
      omega)
    (by rw [e1]; rfl) (fun e h => hp e (List.mem_cons_of_mem _ h)) hp' (fun e h => hsd e (List.mem_cons_of_mem _ h)) hq.stays
    (by
      rw [e1]
      show (ahead cfg.dele c.stk.dele.delegators none a).length + ops.countP joins ≤
        ((c.stk.dele.count + (cfg.dele.blocksPerEra - 2) - 1) / (cfg.dele.blocksPerEra - 2) + 1) * ops.countP isBlock
      have h3 : (ahead cfg.dele c.stk.dele.delegators none a).length ≤ c.stk.dele.count := by
        rw [hg.graph.count, sum_one]
        exact Nat.le_trans (List.length_filter_le _ _) (by simp [FMap.keys])
      have hj := hq.joins
      rw [hq.blocks]
      have hq : c.stk.dele.count ≤ (c.stk.dele.count + (cfg.dele.blocksPerEra - 2) - 1) / (cfg.dele.blocksPerEra - 2) * (cfg.dele.blocksPerEra - 2) := by
        have e1 := Nat.div_add_mod (c.stk.dele.count + (cfg.dele.blocksPerEra - 2) - 1) (cfg.dele.blocksPerEra - 2)
        have e2 := Nat.mod_lt (c.stk.dele.count + (cfg.dele.blocksPerEra - 2) - 1) (y := cfg.dele.blocksPerEra - 2) (by omega)
        rw [Nat.mul_comm] at e1
        omega
      have hq2 : (c.stk.dele.count + (cfg.dele.blocksPerEra - 2) - 1) / (cfg.dele.blocksPerEra - 2) * (cfg.dele.blocksPerEra - 2) ≤
          (c.stk.dele.count + (cfg.dele.blocksPerEra - 2) - 1) / (cfg.dele.blocksPerEra - 2) * (cfg.dele.blocksPerEra - 1) := Nat.mul_le_mul_left _ (by omega)
      rw [Nat.add_mul]
      omega)
  exact ⟨q, by simp only [run, payments, List.flatMap_cons]; exact List.mem_append_right _ h1, h2⟩

theorem run_append (cfg : Chain.Cfg) (l l' : List Op) : ∀ c : Chain.State,
    (run cfg c (l ++ l')).1 = (run cfg (run cfg c l).1 l').1 ∧ (run cfg c (l ++ l')).2 = (run cfg c l).2 ++ (run cfg (run cfg c l).1 l').2 := by
  induction l with
  | nil => intro c; exact ⟨rfl, rfl⟩
  | cons op l ih =>
    intro c
    obtain ⟨h1, h2⟩ := ih (step cfg c op).1
    refine ⟨h1, ?_⟩
    simp only [List.cons_append, run, h2]

/-- Payouts leave delegations that are not ended. -/
theorem block_stays (cfg : Delegation.Cfg) (s : Delegation.State) (r : AccId → Nat → Nat → Option Balance) (a : AccId) (hn : Named s) (d : Delegator)
    (h1 : s.delegators.get a = some d) (h2 : d.delegating = true) :
    ∃ d', (Delegation.onBlock cfg s r).1.delegators.get a = some d' ∧ d'.delegating = true := by
  unfold Delegation.onBlock
  simp only
  split
  · exact ⟨d, h1, h2⟩
  · split
    · exact ⟨d, h1, h2⟩
    · refine (payDelegators_inv (cfg := cfg) (s := { s with block := s.block + 1 }) (reward := r)
        (P := fun t _ => (∃ d', t.delegators.get a = some d' ∧ d'.delegating = true) ∧ Named t) ?_ ?_ ?_ ⟨⟨d, h1, h2⟩, hn⟩).1
      · intro u t l hg hu
        rw [(graph_eq hg).1]
        exact ⟨hu.1, named_graph hg hu.2⟩
      · intro u e l he hu _
        refine ⟨?_, named_settle _ he hu.2⟩
        obtain ⟨d', k1, k2⟩ := hu.1
        by_cases hea : a = e.who
        · rw [← hea] at he
          rw [he] at k1
          cases k1
          unfold settle
          rw [k2]
          simp only [if_true]
          rw [← hea, he]
          exact ⟨_, FMap.get_insert_self _ _ _, k2⟩
        · rw [settle_others _ _ _ _ hea]
          exact ⟨d', k1, k2⟩
      · intro u l x y hu hy
        exact hu.2 x y hy

theorem run_blocks {cfg : Chain.Cfg} (hf : Fits cfg) (a : AccId) : ∀ (ops : List Op) {c : Chain.State} {ps : List Payment}, Good cfg c ps →
    (∀ e ∈ (run cfg c ops).2, Sound cfg e.1 e.2.1) → (∀ op ∈ ops, ends a op = false) →
    (run cfg c ops).1.stk.dele.block = c.stk.dele.block + ops.countP isBlock ∧ c.w.ledger.era.getD 0 ≤ (run cfg c ops).1.w.ledger.era.getD 0 ∧
    (∀ d, c.stk.dele.delegators.get a = some d → d.delegating = true →
      ∃ d', (run cfg c ops).1.stk.dele.delegators.get a = some d' ∧ d'.delegating = true) ∧
    ∀ e ∈ (run cfg c ops).2, c.stk.dele.block ≤ e.1.stk.dele.block := by
  intro ops
  induction ops with
  | nil => intro c ps _ _ _; exact ⟨rfl, Nat.le_refl _, fun d h h' => ⟨d, h, h'⟩, by simp [run]⟩
  | cons op ops ih =>
    intro c ps hg hs hr
    have hg' := good_step hf hg op (hs (c, op, (step cfg c op).2) (by simp [run]))
    obtain ⟨i1, i2, i3, i4⟩ := ih hg' (fun e h => hs e (List.mem_cons_of_mem _ h)) (fun o h => hr o (List.mem_cons_of_mem _ h))
    simp only [run]
    cases op with
    | block =>
      obtain ⟨r, e1, _, e3⟩ := block_dele hf hg.inv
      have hb : (step cfg c .block).1.stk.dele.block = c.stk.dele.block + 1 := by rw [e1]; exact onBlock_block cfg.dele (deleOf c) r
      have he := chain_era cfg hg.locks (.dele (.block r))
      have hc : (Op.block :: ops).countP isBlock = ops.countP isBlock + 1 := List.countP_cons_of_pos rfl
      rw [← e3] at he
      refine ⟨by rw [i1, hb, hc]; omega, Nat.le_trans he i2, fun d h1 h2 => ?_, fun e h => ?_⟩
      · obtain ⟨d', h3, h4⟩ := block_stays cfg.dele (deleOf c) r a hg.graph.who d h1 h2
        exact i3 d' (by rw [e1]; exact h3) h4
      rcases List.mem_cons.1 h with rfl | h
      · exact Nat.le_refl _
      · have := i4 e h; omega
    | chain op =>
      have hfr : Frame (deleOf c) (deleOf (step cfg c (.chain op)).1) a ([Op.chain op].countP joins) := by
        simp only [step]
        split
        · rename_i ho
          exact call_frame cfg hg.inv hg.locks op ho a (hr _ (by simp))
        · exact Frame.same rfl rfl (Nat.le_refl _)
      have hb : (step cfg c (.chain op)).1.stk.dele.block = c.stk.dele.block := (congrArg Prod.fst hfr.cursor :)
      have he : c.w.ledger.era.getD 0 ≤ (step cfg c (.chain op)).1.w.ledger.era.getD 0 := hfr.era
      have hc : (Op.chain op :: ops).countP isBlock = ops.countP isBlock := List.countP_cons_of_neg (by simp [isBlock])
      refine ⟨by rw [i1, hb, hc], Nat.le_trans he i2, fun d hd h => ?_, fun e h => ?_⟩
      · obtain ⟨d', h1, h2⟩ := hfr.stays d hd h
        exact i3 d' h1 h2
      · rcases List.mem_cons.1 h with rfl | h
        · exact Nat.le_refl _
        · have := i4 e h; omega

theorem paid_due {cfg : Chain.Cfg} (hf : Fits cfg) (ops : List Op) {c : Chain.State} {ps : List Payment} (h : Inv cfg.stake c.stk ps)
    (hs : ∀ e ∈ (run cfg c ops).2, Sound cfg e.1 e.2.1) : ∀ q ∈ payments (run cfg c ops).2, q.2.first ≤ q.2.last ∧
      q.2.last + 1 = Credit.currentEra cfg.stk.credit (creditNext q.1) ∧
      Due cfg.stk.credit (creditNext q.1) q.2.who q.2.first q.2.last q.2.amount ∧ ∃ e ∈ (run cfg c ops).2, e.1 = q.1 := by
  intro q hq
  obtain ⟨e, he, hq⟩ := List.mem_flatMap.1 hq
  obtain ⟨p, hp, rfl⟩ := List.mem_map.1 hq
  obtain ⟨qs, hi, ho⟩ := (inv_run hf ops h hs).2 e he
  obtain ⟨b, op, o⟩ := e
  simp only at hi ho hp ⊢
  cases op with
  | chain op =>
    have : o = .paid [] := ho
    subst this
    simp [Out.payments] at hp
  | block =>
    obtain ⟨core, l, e1, _, h3, _⟩ := inv_block hf hi
    rw [e1] at ho
    simp only at ho
    subst ho
    obtain ⟨h4, h5, h6⟩ := h3 p hp
    exact ⟨h4, h5, h6, _, he, rfl⟩

/-- A list without repetitions of a property that one member has is that member. -/
theorem singleton {α : Type} {R : α → α → Prop} {l : List α} {x : α} (hx : x ∈ l) (hp : l.Pairwise R) (h1 : ∀ y ∈ l, R x y → False)
    (h2 : ∀ y ∈ l, R y x → False) : l = [x] := by
  obtain ⟨u, v, rfl⟩ := List.append_of_mem hx
  rw [List.pairwise_append, List.pairwise_cons] at hp
  have hu : u = [] := by
    cases u with
    | nil => rfl
    | cons y u => exact (h2 y (by simp) (hp.2.2 y (by simp) x (by simp))).elim
  have hv : v = [] := by
    cases v with
    | nil => rfl
    | cons y v => exact (h1 y (by simp) (hp.2.1.1 y (by simp))).elim
  rw [hu, hv]
  rfl

theorem era_exact (cfg : Chain.Cfg) (hf : Fits cfg) (hN : 2 < cfg.dele.blocksPerEra) (hinj : Function.Injective cfg.dele.key) {c : Chain.State}
    {ps : List Payment} (hg : Good cfg c ps) (ops : List Op) (a : AccId) (d : Delegator) (n k : Nat)
    (hk : c.stk.dele.block + 1 = k * cfg.dele.blocksPerEra) (he : 0 < c.w.ledger.era.getD 0) (hd : c.stk.dele.delegators.get a = some d)
    (hdel : d.delegating = true)
    (hs : d.since = some n) (hq : Quiet cfg.dele.blocksPerEra a ops) (hsd : ∀ e ∈ (run cfg c (.block :: ops)).2, Sound cfg e.1 e.2.1)
    (hp : ∀ e ∈ (run cfg c (.block :: ops)).2, Chain.pool cfg e.1 ≠ 0) (hp' : Chain.pool cfg (run cfg c (.block :: ops)).1 ≠ 0) :
    (∃ b p, paymentsTo a (run cfg c (.block :: ops)).2 = [(b, p)] ∧ p.first = n ∧ p.last + 1 = k) ∧
    (run cfg c (.block :: ops)).1.stk.dele.block + 1 = (k + 1) * cfg.dele.blocksPerEra ∧
    0 < (run cfg c (.block :: ops)).1.w.ledger.era.getD 0 ∧
    ∃ d', (run cfg c (.block :: ops)).1.stk.dele.delegators.get a = some d' ∧ d'.delegating = true ∧ d'.since = some k := by
  obtain ⟨q, hq1, hq2, hq3, hq4⟩ := era_once cfg hf hN hinj hg ops a d n k hk he hd hs hq hsd hp hp'
  have hends : ∀ op ∈ Op.block :: ops, ends a op = false := by
    intro op h
    rcases List.mem_cons.1 h with rfl | h
    · rfl
    · exact hq.stays op h
  obtain ⟨b1, b2, b3, b4⟩ := run_blocks hf a (.block :: ops) hg hsd hends
  have hgood := good_run hf (.block :: ops) hg hsd
  have hdue := paid_due hf (.block :: ops) hg.inv hsd
  have hcount : (Op.block :: ops).countP isBlock = ops.countP isBlock + 1 := List.countP_cons_of_pos rfl
  rw [hcount, hq.blocks] at b1
  have hblock : (run cfg c (.block :: ops)).1.stk.dele.block + 1 = (k + 1) * cfg.dele.blocksPerEra := by
    rw [b1, Nat.add_mul]; omega
  have hera : creditEra cfg.dele (run cfg c (.block :: ops)).1.stk.dele = k := by
    unfold creditEra
    rw [Nat.div_eq_iff (by omega)]
    rw [Nat.add_mul] at hblock
    omega
  have hlast : ∀ y ∈ payments (run cfg c (.block :: ops)).2, y.2.last + 1 = k := by
    intro y hy
    obtain ⟨_, h2, _, e, h4, h5⟩ := hdue y hy
    have hlow := b4 e h4
    rw [h5] at hlow
    have h6 : k ≤ y.2.last + 1 := by
      rw [h2]
      unfold Credit.currentEra Credit.blockToEra
      rw [hf.eras]
      show k ≤ (y.1.stk.dele.block + 1) / cfg.dele.blocksPerEra
      rw [Nat.le_div_iff_mul_le (by omega)]
      omega
    have h7 := (hgood.inv.marks.past y.2 (List.mem_append_right _ (List.mem_map.2 ⟨y, hy, rfl⟩))).2
    have h8 : y.2.last < k := by rw [← hera]; exact h7
    omega
  have hqm : q ∈ paymentsTo a (run cfg c (.block :: ops)).2 := List.mem_filter.2 ⟨hq1, by simpa using hq2⟩
  have hord : (paymentsTo a (run cfg c (.block :: ops)).2).Pairwise (fun x y => x.2.last < y.2.first) := by
    have h := (List.pairwise_append.1 hgood.inv.marks.order).2.1
    rw [List.pairwise_map] at h
    unfold paymentsTo
    rw [List.pairwise_filter]
    refine h.imp ?_
    intro x y hxy hx hy
    simp only [decide_eq_true_eq] at hx hy
    exact hxy (by rw [hx, hy])
  have hone := singleton hqm hord
    (fun y hy h => by
      have hm := (List.mem_filter.1 hy).1
      have h1 := (hdue y hm).1
      have h2 := hlast y hm
      omega)
    (fun y hy h => by
      have hm := (List.mem_filter.1 hy).1
      have h1 := (hdue q hq1).1
      have h2 := hlast y hm
      omega)
  refine ⟨⟨q.1, q.2, hone, hq3, hq4⟩, hblock, by omega, ?_⟩
  obtain ⟨d', k1, k2⟩ := b3 d hd hdel
  obtain ⟨m, m1, m2, m3⟩ := hgood.inv.marks.mark a d' k1
  have m4 := m3 q.2 (List.mem_append_right _ (List.mem_map.2 ⟨q, hq1, rfl⟩)) hq2
  have m5 : m ≤ k := by rw [← hera]; exact m2
  exact ⟨d', k1, k2, by rw [m1]; congr 1; omega⟩

theorem paymentsTo_append (a : AccId) (l l' : List (Chain.State × Op × Out)) : paymentsTo a (l ++ l') = paymentsTo a l ++ paymentsTo a l' := by
  unfold paymentsTo payments
  rw [List.flatMap_append, List.filter_append]

theorem eras_exact (cfg : Chain.Cfg) (hf : Fits cfg) (hN : 2 < cfg.dele.blocksPerEra) (hinj : Function.Injective cfg.dele.key) (a : AccId) (eras : List (List Op)) :
    ∀ {c : Chain.State} {ps : List Payment} (_ : Good cfg c ps) (d : Delegator) (n k : Nat)
    (_ : c.stk.dele.block + 1 = k * cfg.dele.blocksPerEra) (_ : 0 < c.w.ledger.era.getD 0) (_ : c.stk.dele.delegators.get a = some d)
    (_ : d.delegating = true) (_ : d.since = some n) (_ : ∀ ops ∈ eras, Quiet cfg.dele.blocksPerEra a ops)
    (_ : ∀ e ∈ (run cfg c (eras.flatMap (Op.block :: ·))).2, Sound cfg e.1 e.2.1)
    (_ : ∀ e ∈ (run cfg c (eras.flatMap (Op.block :: ·))).2, Chain.pool cfg e.1 ≠ 0) (_ : Chain.pool cfg (run cfg c (eras.flatMap (Op.block :: ·))).1 ≠ 0),
    (paymentsTo a (run cfg c (eras.flatMap (Op.block :: ·))).2).map (fun q => (q.2.first, q.2.last)) = periods n k eras.length := by
  induction eras with
  | nil => intro c ps _ d n k _ _ _ _ _ _ _ _ _; rfl
  | cons ops eras ih =>
    intro c ps hg d n k hk he hd hdel hs hq hsd hp hp'
    rw [List.flatMap_cons] at hsd hp hp' ⊢
    obtain ⟨e1, e2⟩ := run_append cfg (.block :: ops) (eras.flatMap (Op.block :: ·)) c
    rw [e2] at hsd hp ⊢
    rw [e1] at hp'
    have hsd1 : ∀ e ∈ (run cfg c (.block :: ops)).2, Sound cfg e.1 e.2.1 := fun e h => hsd e (List.mem_append_left _ h)
    have hsd2 : ∀ e ∈ (run cfg (run cfg c (.block :: ops)).1 (eras.flatMap (Op.block :: ·))).2, Sound cfg e.1 e.2.1 := fun e h => hsd e (List.mem_append_right _ h)
    have hp2 : ∀ e ∈ (run cfg (run cfg c (.block :: ops)).1 (eras.flatMap (Op.block :: ·))).2, Chain.pool cfg e.1 ≠ 0 := fun e h => hp e (List.mem_append_right _ h)
    obtain ⟨⟨b, p, h1, h2, h3⟩, h4, h5, d', h6, h7, h8⟩ := era_exact cfg hf hN hinj hg ops a d n k hk he hd hdel hs (hq ops (by simp)) hsd1
      (fun e h => hp e (List.mem_append_left _ h)) (pool_first hp2 hp')
    have := ih (good_run hf (.block :: ops) hg hsd1) d' k (k + 1) h4 h5 h6 h7 h8 (fun o h => hq o (List.mem_cons_of_mem _ h)) hsd2 hp2 hp'
    rw [paymentsTo_append, List.map_append, h1, this, List.length_cons]
    simp only [List.map_cons, List.map_nil, periods, List.cons_append, List.nil_append, h2]
    congr 2
    omega

/-! ### The property -/

/-- C111: the income of a delegator. Consider the eras that begin with the next block, the first being era `k`. An account that
delegates gets one payout in each of them: the first for all unpaid eras from `n` on, the others for the era before. Each is
the sum of the daily rewards recorded for the eras it covers. This holds as long as the mining pool does not run dry, the
delegation is not ended and in no era more delegations are made than it has blocks. -/
theorem C111_income (cfg : Chain.Cfg) (hf : Fits cfg) (hN : 2 < cfg.dele.blocksPerEra) (hinj : Function.Injective cfg.dele.key) {c : Chain.State}
    (h : Start c) (hw : World.settle c.w = c.w) (hd : ∃ bank m, c.stk.dele = genesis bank m) (before : List Op) (eras : List (List Op)) (a : AccId)
    (d : Delegator) (n k : Nat) :
    let b := run cfg c before
    let t := run cfg b.1 (eras.flatMap (Op.block :: ·))
    (∀ e ∈ b.2 ++ t.2, Sound cfg e.1 e.2.1) →
    b.1.stk.dele.block + 1 = k * cfg.dele.blocksPerEra → 0 < b.1.w.ledger.era.getD 0 →
    b.1.stk.dele.delegators.get a = some d → d.delegating = true → d.since = some n →
    (∀ ops ∈ eras, Quiet cfg.dele.blocksPerEra a ops) → (∀ e ∈ t.2, Chain.pool cfg e.1 ≠ 0) → Chain.pool cfg t.1 ≠ 0 →
    (paymentsTo a t.2).map (fun q => (q.2.first, q.2.last)) = periods n k eras.length ∧
    ∀ q ∈ paymentsTo a t.2, Due cfg.stk.credit (creditNext q.1) a q.2.first q.2.last q.2.amount := by
  intro b t hs hk he hrec hdel hsi hq hp hp'
  have hg := good_run hf before (good_start (cfg := cfg) h hw hd) (fun e he => hs e (List.mem_append_left _ he))
  have hs2 : ∀ e ∈ t.2, Sound cfg e.1 e.2.1 := fun e he => hs e (List.mem_append_right _ he)
  refine ⟨eras_exact cfg hf hN hinj a eras hg d n k hk he hrec hdel hsi hq hs2 hp hp', fun q hqm => ?_⟩
  obtain ⟨h1, h2⟩ := List.mem_filter.1 hqm
  have := (paid_due hf (eras.flatMap (Op.block :: ·)) hg.inv hs2 q h1).2.2.1
  simp only [decide_eq_true_eq] at h2
  rw [h2] at this
  exact this

/-- The example of C110 from era 1 on: three eras, in the second of which the credit of account 7 changes. -/
def exBefore : List Op := exOps.take 12

def exEras : List (List Op) :=
  [[.block, .block, .chain (.credit (.addOrUpdateCredit 7 100 none)), .block], [.chain (.dele (.delegate 3 [1] true)), .block, .block, .block],
   [.block, .block, .chain (.dele (.undelegate 3)), .block]]

example :
    let b := run exCfg exStart exBefore
    let t := run exCfg b.1 (exEras.flatMap (Op.block :: ·))
    b.1.stk.dele.block + 1 = 1 * exCfg.dele.blocksPerEra ∧ 0 < b.1.w.ledger.era.getD 0 ∧
    b.1.stk.dele.delegators.get 7 = some ⟨7, [1], some 0, true⟩ ∧
    (∀ ops ∈ exEras, ops.countP isBlock = 3 ∧ ops.countP joins < 4 ∧ ∀ op ∈ ops, ends 7 op = false) ∧
    (∀ e ∈ t.2, Chain.pool exCfg e.1 ≠ 0) ∧ Chain.pool exCfg t.1 ≠ 0 ∧ periods 0 1 3 = [(0, 0), (1, 1), (2, 2)] ∧
    (paymentsTo 7 t.2).map (fun q => (q.2.first, q.2.last, q.2.amount)) =
      [(0, 0, some 684931376344495250), (1, 1, some 2191780404302384800), (2, 2, some 2191780404302384800)] := by
  decide +kernel

example : World.settle exStart.w = exStart.w ∧ ∃ bank m, exStart.stk.dele = genesis bank m := ⟨Chain.exStart_start.locks, _, _, rfl⟩

end Verif.Payout
