import Verif.AdscProperties

/-
Properties C151 and C152: ADSC come into being by daily rewards and by the bridge only; the pool pays out no more than was put in. No new definitions of the code.
-/

namespace Verif.Asset

/-- What all accounts hold together. -/
def held (x : Asset) : Nat := x.accts.sum fun _ v => v

theorem at_bal (x : Asset) (a : AccId) : x.accts.at? (fun _ v => v) a = x.bal a := by
  unfold bal
  cases h : x.accts.get a with
  | none => rw [FMap.at?_none h]; rfl
  | some v => rw [FMap.at?_some h]; rfl

theorem bal_le_held (x : Asset) (a : AccId) : x.bal a ≤ x.held := by
  rw [← at_bal]
  exact FMap.at?_le_sum _ _ _

theorem held_debit (x : Asset) (a : AccId) (v : Balance) (h : v ≤ x.bal a) :
    (x.debit a v).sum (fun _ v => v) + v + x.dust a v = x.held := by
  unfold debit dust held
  have hb := at_bal x a
  split
  · have h1 := FMap.sum_erase x.accts a (fun _ v => v)
    rw [hb] at h1
    omega
  · have h1 := FMap.sum_insert x.accts a (x.bal a - v) (fun _ v => v)
    rw [hb] at h1
    omega

theorem held_mint {x x' : Asset} {a : AccId} {v : Balance} (h : x.mint a v = .ok x') :
    x'.held = x.held + v ∧ x'.supply = x.supply + v := by
  refine ⟨?_, (mint_exact h).2.2⟩
  unfold mint at h
  split at h
  · rename_i h0; cases h; subst h0; rfl
  split at h
  · cases h
  split at h
  · cases h
  split at h
  · cases h
  cases h
  unfold held
  have h1 := FMap.sum_insert x.accts a (x.bal a + v) (fun _ v => v)
  rw [at_bal] at h1
  dsimp only at h1 ⊢
  omega

theorem held_burn {x x' : Asset} {a : AccId} {v : Balance} (h : x.burn a v = .ok x') (hi : x.held ≤ x.supply) :
    x'.held + (x.bal a - x'.bal a) = x.held ∧ x'.supply + (x.bal a - x'.bal a) = x.supply := by
  obtain ⟨h1, h2, h3, -, h5⟩ := burn_exact h
  by_cases h0 : v = 0
  · rw [h2 h0]; omega
  have hp : 0 < v := Nat.pos_of_ne_zero h0
  have h3 := h3 hp
  have h5 := h5 hp
  have hd := held_debit x a v h1
  have hb := bal_le_held x a
  have hx : x'.held = (x.debit a v).sum (fun _ v => v) := by
    unfold burn at h
    rw [if_neg h0] at h
    split at h
    · cases h
    split at h
    · cases h
    split at h
    · cases h
    cases h
    rfl
  omega

theorem held_transfer {x x' : Asset} {src dst : AccId} {v : Balance} (h : x.transfer src dst v = .ok x') :
    x'.held ≤ x.held ∧ x'.supply = x.supply := by
  by_cases hne : src = dst
  · subst hne
    rw [transfer_self h]
    exact ⟨Nat.le_refl _, rfl⟩
  obtain ⟨h1, h2, -, -, h5⟩ := transfer_exact h hne
  refine ⟨?_, h5⟩
  by_cases h0 : v = 0
  · rw [h2 h0]
    exact Nat.le_refl _
  have hd := held_debit x src v h1
  unfold transfer at h
  rw [if_neg h0] at h
  split at h
  · cases h
  split at h
  · cases h
  split at h
  · cases h
  split at h
  · cases h
  cases h
  have hg : (x.debit src v).at? (fun _ v => v) dst = x.bal dst := by
    have := bal_debit x src v dst
    rw [if_neg (fun e => hne e.symm)] at this
    rw [← this]
    cases hq : (x.debit src v).get dst with
    | none => rw [FMap.at?_none hq]; rfl
    | some w => rw [FMap.at?_some hq]; rfl
  have h6 := FMap.sum_insert (x.debit src v) dst (x.bal dst + v + (if x.dustTo then x.dust src v else 0)) (fun _ v => v)
  rw [hg] at h6
  show FMap.sum _ _ ≤ _
  dsimp only
  split at h6
  · rename_i hq; rw [if_pos hq]; omega
  · rename_i hq; rw [if_neg hq]; omega

end Verif.Asset

namespace Verif.Adsc

/-- Rewards really minted. -/
def newFrom (l : List Pay) : Nat := (l.map fun p => if p.ok then p.amount else 0).sum

/-- ADSC created by an event: a daily reward paid out, or brought in over the bridge. -/
def createdBy : State × Op × Out → Nat
  | (_, .bridgeMint _ _ v, .done) => v
  | (_, .init, .paid l) => newFrom l
  | _ => 0

/-- ADSC gone by an event: what an account has lost to the bridge. -/
def goneBy (cfg : Cfg) : State × Op × Out → Nat
  | (s, .bridgeBurn w src v, .done) => s.asset.bal src - (step cfg s (.bridgeBurn w src v)).1.asset.bal src
  | _ => 0

/-- What happens to the asset outside the pallet are transfers: the supply stays and covers what the accounts hold. -/
def Fair : State × Op × Out → Prop
  | (s, .external _ _ x _ _, _) => x.supply = s.asset.supply ∧ x.held ≤ x.supply
  | _ => True

theorem newFrom_snoc (l : List Pay) (p : Pay) : newFrom (l ++ [p]) = newFrom l + if p.ok then p.amount else 0 := by
  unfold newFrom
  rw [List.map_append, List.sum_append]
  simp

/-- The scan creates what it lists as paid. -/
def Grows (c c' : Scan) : Prop :=
  c'.asset.supply + newFrom c.pays = c.asset.supply + newFrom c'.pays ∧ c'.asset.held + newFrom c.pays = c.asset.held + newFrom c'.pays

theorem Grows.trans {a b c : Scan} (h1 : Grows a b) (h2 : Grows b c) : Grows a c := by
  obtain ⟨a1, a2⟩ := h1
  obtain ⟨b1, b2⟩ := h2
  exact ⟨by omega, by omega⟩

theorem grows_pay (cfg : Cfg) (period : Nat) (c : Scan) (a : AccId) (left : Nat) : Grows c (payReward cfg period c a left) := by
  unfold payReward
  dsimp only
  cases hm : c.asset.mint a (Credit.perbillMul left period c.base) with
  | error e =>
    dsimp only
    refine ⟨?_, ?_⟩ <;> simp only [newFrom_snoc] <;> simp
  | ok x =>
    dsimp only
    obtain ⟨h1, h2⟩ := Asset.held_mint hm
    split <;> (refine ⟨?_, ?_⟩ <;> simp only [newFrom_snoc, if_true, h1, h2] <;> omega)

theorem grows_visit (cfg : Cfg) (period : Nat) (c : Scan) (a : AccId) (left : Nat) : Grows c (visit cfg period c a left) := by
  unfold visit
  dsimp only
  split
  · exact ⟨rfl, rfl⟩
  · exact grows_pay cfg period { c with lastKey := some (cfg.key a) } a left

theorem grows_scan (cfg : Cfg) (s : State) (l : List (AccId × Nat)) : ∀ (n : Nat) (c : Scan), Grows c (scan cfg s l n c) := by
  induction l with
  | nil => intro n c; exact ⟨rfl, rfl⟩
  | cons e l ih =>
    intro n c
    obtain ⟨a, left⟩ := e
    unfold scan
    split
    · exact ih n c
    · dsimp only
      split
      · exact grows_visit cfg s.period c a left
      · exact (grows_visit cfg s.period c a left).trans (ih _ _)

theorem asset_remove (l : List AccId) : ∀ s : State, (l.foldl removeStaker s).asset = s.asset := by
  induction l with
  | nil => intro s; rfl
  | cons a l ih =>
    intro s
    rw [List.foldl_cons, ih]
    unfold removeStaker
    dsimp only
    split
    · rfl
    · split <;> rfl

theorem asset_sub (l : List AccId) : ∀ s : State, (l.foldl subDay s).asset = s.asset := by
  induction l with
  | nil => intro s; rfl
  | cons a l ih =>
    intro s
    rw [List.foldl_cons, ih]
    unfold subDay
    split <;> rfl

theorem bank_remove (l : List AccId) : ∀ s : State, (l.foldl removeStaker s).bank = s.bank := by
  induction l with
  | nil => intro s; rfl
  | cons a l ih =>
    intro s
    rw [List.foldl_cons, ih]
    unfold removeStaker
    dsimp only
    split
    · rfl
    · split <;> rfl

theorem bank_sub (l : List AccId) : ∀ s : State, (l.foldl subDay s).bank = s.bank := by
  induction l with
  | nil => intro s; rfl
  | cons a l ih =>
    intro s
    rw [List.foldl_cons, ih]
    unfold subDay
    split <;> rfl

theorem supply_init (cfg : Cfg) (s : State) : (blockInit cfg s).1.asset.supply = s.asset.supply + newFrom (blockInit cfg s).2 ∧
    (blockInit cfg s).1.asset.held = s.asset.held + newFrom (blockInit cfg s).2 := by
  unfold blockInit
  split
  · exact ⟨rfl, rfl⟩
  · unfold reward
    split
    · exact ⟨rfl, rfl⟩
    · dsimp only
      rw [asset_sub, asset_remove]
      dsimp only
      rename_i k _
      obtain ⟨h1, h2⟩ := grows_scan cfg s ((sortByKey cfg.key s.stakers.entries).filter fun e => decide (k < cfg.key e.1)) s.perBlock
        ⟨s.asset, s.minted, s.base, s.target, none, [], [], []⟩
      exact ⟨h1, h2⟩

theorem supply_step (cfg : Cfg) (s : State) (op : Op) (hf : Fair (s, op, (step cfg s op).2)) (hi : s.asset.held ≤ s.asset.supply) :
    let r := step cfg s op
    r.1.asset.supply + goneBy cfg (s, op, r.2) = s.asset.supply + createdBy (s, op, r.2) ∧ r.1.asset.held ≤ r.1.asset.supply := by
  intro r
  rcases step_cases cfg s op with ⟨q, hb, hs⟩ | ⟨e, hb, hs⟩
  swap
  · have h1 : r = (s, .failed e) := hs
    rw [h1]
    refine ⟨?_, hi⟩
    cases op <;> rfl
  have hr : r = q := hs
  cases op <;> simp only [body] at hb
  case bridgeBurn w src v =>
    obtain ⟨s', h1, h2⟩ := map_ok hb
    unfold bridgeBurn at h1
    split at h1
    · cases h1
    obtain ⟨x, h3, h4⟩ := map_ok h1
    obtain ⟨g1, g2⟩ := Asset.held_burn (liftAsset_ok h3) hi
    have hq : r = ({ s with asset := x }, .done) := by rw [hr, ← h2, ← h4]
    have hg : goneBy cfg (s, .bridgeBurn w src v, .done) = s.asset.bal src - x.bal src := by
      show s.asset.bal src - (step cfg s (.bridgeBurn w src v)).1.asset.bal src = _
      change step cfg s (.bridgeBurn w src v) = _ at hq
      rw [hq]
    rw [hq]
    dsimp only
    rw [hg]
    refine ⟨?_, by omega⟩
    show x.supply + _ = s.asset.supply + 0
    omega
  case bridgeMint w dst v =>
    obtain ⟨s', h1, h2⟩ := map_ok hb
    unfold bridgeMint at h1
    split at h1
    · cases h1
    obtain ⟨x, h3, h4⟩ := map_ok h1
    obtain ⟨g1, g2⟩ := Asset.held_mint (liftAsset_ok h3)
    rw [hr, ← h2, ← h4]
    refine ⟨g2, ?_⟩
    show x.held ≤ x.supply
    omega
  case swap w v =>
    obtain ⟨⟨s', d⟩, h1, h2⟩ := map_ok hb
    unfold swap at h1
    split at h1
    · cases h1
    rename_i x hx
    split at h1
    · cases h1
    dsimp only at h1
    obtain ⟨b, h3, h4⟩ := map_ok h1
    cases h4
    obtain ⟨g1, g2⟩ := Asset.held_transfer (liftAsset_ok hx)
    rw [hr, ← h2]
    refine ⟨?_, ?_⟩
    · show x.supply + 0 = s.asset.supply + 0
      omega
    · show x.held ≤ x.supply
      omega
  case init =>
    cases hb
    obtain ⟨h1, h2⟩ := supply_init cfg s
    rw [hr]
    refine ⟨h1, ?_⟩
    dsimp only
    omega
  case external dt b x n p =>
    cases hb
    rw [hr]
    exact ⟨by show x.supply = s.asset.supply; exact hf.1, hf.2⟩
  case setOffline f => cases hb; rw [hr]; exact ⟨rfl, hi⟩
  case addStakerNft w a i =>
    obtain ⟨s', h1, h2⟩ := map_ok hb
    unfold addStakerNft at h1
    split at h1
    · cases h1
    split at h1
    · cases h1
    split at h1
    · cases h1
    cases h1
    rw [hr, ← h2]
    exact ⟨rfl, hi⟩
  all_goals
    obtain ⟨s', h1, h2⟩ := map_ok hb
    simp only [addStaker, setPeriod, setTarget, setBase, setRate, addPool] at h1
    split at h1
    · cases h1
    cases h1
    rw [hr, ← h2]
    exact ⟨rfl, hi⟩

/-- The supply of ADSC is what it was, plus all daily rewards paid and all that was brought in over the bridge, minus what accounts have
lost to the bridge; the accounts together never hold more than the supply. Between the calls of this pallet the asset may be transferred
freely. -/
theorem C151_supply (cfg : Cfg) (ops : List Op) : ∀ s : State, s.asset.held ≤ s.asset.supply →
    (∀ e ∈ (run cfg s ops).2, Fair e) →
    let r := run cfg s ops
    r.1.asset.supply + (r.2.map (goneBy cfg)).sum = s.asset.supply + (r.2.map createdBy).sum ∧ r.1.asset.held ≤ r.1.asset.supply := by
  induction ops with
  | nil => intro s hi _; exact ⟨rfl, hi⟩
  | cons op ops ih =>
    intro s hi hf
    simp only [run] at hf
    obtain ⟨h1, h2⟩ := supply_step cfg s op (hf _ List.mem_cons_self) hi
    obtain ⟨h3, h4⟩ := ih _ h2 fun e he => hf e (List.mem_cons_of_mem _ he)
    simp only [run, List.map_cons, List.sum_cons] at h3 h4 ⊢
    exact ⟨by omega, h4⟩

/-- An asset for the example. -/
def exAsset2 : Asset := { exAsset with accts := (∅ : FMap AccId Balance).insert 5 400, supply := 400 }

/-- On a history: 300 brought in for 1, 50 burnt from 5, a staker is paid the first daily reward, 5 swaps. -/
example :
    let s := (run exCfg (genesis exCfg exBank exAsset2 100) [.external 0 exBank exAsset2 {} allPriv, .addStaker 7 3]).1
    let ops : List Op := [.bridgeMint 7 1 300, .bridgeBurn 7 5 50, .external 86400000 exBank
      { exAsset2 with accts := ((∅ : FMap AccId Balance).insert 5 350).insert 1 300, supply := 650 } {} allPriv, .init, .init, .swap 5 20]
    let r := run exCfg s ops
    s.asset.held = 400 ∧ (∀ e ∈ r.2, Fair e) ∧ (r.2.map createdBy).sum = 400 ∧ (r.2.map (goneBy exCfg)).sum = 50 ∧
      r.1.asset.supply = 750 ∧ r.1.asset.held = 750 := by
  intro s ops r
  refine ⟨by decide +kernel, ?_, by decide +kernel, by decide +kernel, by decide +kernel, by decide +kernel⟩
  intro e he
  simp only [r, ops, run, List.mem_cons, List.not_mem_nil, or_false] at he
  rcases he with rfl | rfl | rfl | rfl | rfl | rfl <;> try trivial

/-! ### The pool -/

/-- DPR paid out by a swap. -/
def swappedBy : State × Op × Out → Nat
  | (_, .swap _ _, .swapped d) => d
  | _ => 0

/-- DPR put into the pool by root. -/
def fundedBy : State × Op × Out → Nat
  | (_, .addPool _ v, .done) => v
  | _ => 0

/-- The pool account itself does not swap, and outside the pallet nobody sends it DPR. -/
def PoolApart (cfg : Cfg) : State × Op × Out → Prop
  | (_, .swap who _, _) => who ≠ cfg.pool
  | (s, .external _ b _ _ _, _) => b.Inv ∧ b.free cfg.pool ≤ s.bank.free cfg.pool
  | _ => True

theorem pool_step (cfg : Cfg) (s : State) (op : Op) (hf : PoolApart cfg (s, op, (step cfg s op).2)) (hi : s.bank.Inv) :
    let r := step cfg s op
    r.1.bank.free cfg.pool + swappedBy (s, op, r.2) ≤ s.bank.free cfg.pool + fundedBy (s, op, r.2) ∧ r.1.bank.Inv := by
  intro r
  rcases step_cases cfg s op with ⟨q, hb, hs⟩ | ⟨e, hb, hs⟩
  swap
  · have h1 : r = (s, .failed e) := hs
    rw [h1]
    refine ⟨?_, hi⟩
    cases op <;> exact Nat.le_refl _
  have hr : r = q := hs
  cases op <;> simp only [body] at hb
  case swap w v =>
    obtain ⟨⟨s', d⟩, h1, h2⟩ := map_ok hb
    unfold swap at h1
    split at h1
    · cases h1
    rename_i x hx
    split at h1
    · cases h1
    dsimp only at h1
    obtain ⟨b, h3, h4⟩ := map_ok h1
    cases h4
    have ht := liftBank_ok h3
    have hm := Bank.transfer_move ht (fun e => hf e.symm)
    rw [hr, ← h2]
    refine ⟨?_, Bank.transfer_inv hi ht⟩
    have h5 := hm.1
    have h6 := hm.2.2.2.1
    show b.free cfg.pool + _ ≤ s.bank.free cfg.pool + 0
    simp only [swappedBy]
    omega
  case addPool root v =>
    obtain ⟨s', h1, h2⟩ := map_ok hb
    unfold addPool at h1
    split at h1
    · cases h1
    cases h1
    rw [hr, ← h2]
    refine ⟨?_, Bank.depositCreating_inv hi _ _⟩
    have h3 := Bank.depositCreating_free hi cfg.pool v
    have h4 : s.bank.minted cfg.pool v ≤ v := by unfold Bank.minted; split <;> omega
    show (s.bank.depositCreating cfg.pool v).free cfg.pool + 0 ≤ s.bank.free cfg.pool + v
    omega
  case external dt b x n p =>
    cases hb
    rw [hr]
    exact ⟨hf.2, hf.1⟩
  case init =>
    cases hb
    rw [hr]
    have : (blockInit cfg s).1.bank = s.bank := by
      unfold blockInit
      split
      · rfl
      · unfold reward
        split
        · rfl
        · dsimp only
          rw [bank_sub, bank_remove]
    dsimp only
    rw [this]
    exact ⟨Nat.le_refl _, hi⟩
  case setOffline f => cases hb; rw [hr]; exact ⟨Nat.le_refl _, hi⟩
  case addStakerNft w a i =>
    obtain ⟨s', h1, h2⟩ := map_ok hb
    unfold addStakerNft at h1
    split at h1
    · cases h1
    split at h1
    · cases h1
    split at h1
    · cases h1
    cases h1
    rw [hr, ← h2]
    exact ⟨Nat.le_refl _, hi⟩
  case bridgeBurn w src v =>
    obtain ⟨s', h1, h2⟩ := map_ok hb
    unfold bridgeBurn at h1
    split at h1
    · cases h1
    obtain ⟨x, h3, h4⟩ := map_ok h1
    rw [hr, ← h2, ← h4]
    exact ⟨Nat.le_refl _, hi⟩
  case bridgeMint w src v =>
    obtain ⟨s', h1, h2⟩ := map_ok hb
    unfold bridgeMint at h1
    split at h1
    · cases h1
    obtain ⟨x, h3, h4⟩ := map_ok h1
    rw [hr, ← h2, ← h4]
    exact ⟨Nat.le_refl _, hi⟩
  all_goals
    obtain ⟨s', h1, h2⟩ := map_ok hb
    simp only [addStaker, setPeriod, setTarget, setBase, setRate] at h1
    split at h1
    · cases h1
    cases h1
    rw [hr, ← h2]
    exact ⟨Nat.le_refl _, hi⟩

/-- All swaps together pay no more DPR than the pool had and root has put in, less what is left there. -/
theorem C152_pool (cfg : Cfg) (ops : List Op) : ∀ s : State, s.bank.Inv → (∀ e ∈ (run cfg s ops).2, PoolApart cfg e) →
    let r := run cfg s ops
    r.1.bank.free cfg.pool + (r.2.map swappedBy).sum ≤ s.bank.free cfg.pool + (r.2.map fundedBy).sum := by
  induction ops with
  | nil => intro s _ _; exact Nat.le_refl _
  | cons op ops ih =>
    intro s hi hf
    simp only [run] at hf
    obtain ⟨h1, h2⟩ := pool_step cfg s op (hf _ List.mem_cons_self) hi
    have h3 := ih _ h2 fun e he => hf e (List.mem_cons_of_mem _ he)
    simp only [run, List.map_cons, List.sum_cons] at h3 ⊢
    omega

theorem exBank_inv : exBank.Inv := by
  refine ⟨by decide, by decide +kernel, ?_⟩
  intro a x h
  simp only [exBank, FMap.get_insert] at h
  split at h
  · cases h
    show ¬ (1000 < 1 ∧ 0 = 0)
    omega
  · cases h

/-- On a history: the pool has 1000, root adds 50, 5 swaps 301 and 20 ADSC for 150 and 10 DPR. -/
example :
    let s := genesis exCfg exBank exAsset2 100
    let ops : List Op := [.addPool true 50, .swap 5 301, .addPool false 70, .swap 5 20, .swap 6 20]
    let r := run exCfg s ops
    s.bank.Inv ∧ (∀ e ∈ r.2, PoolApart exCfg e) ∧ (s.bank.free 99, r.1.bank.free 99, (r.2.map swappedBy).sum, (r.2.map fundedBy).sum) = (1000, 890, 160, 50) := by
  intro s ops r
  refine ⟨exBank_inv, ?_, by decide +kernel⟩
  intro e he
  simp only [r, ops, run, List.mem_cons, List.not_mem_nil, or_false] at he
  rcases he with rfl | rfl | rfl | rfl | rfl <;> try trivial
  · show 5 ≠ 99; decide
  · show 5 ≠ 99; decide
  · show 6 ≠ 99; decide

end Verif.Adsc
