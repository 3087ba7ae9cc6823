import Verif.AdscSplit

/-
Property C154: ADSC leave an account by its own swaps and over the bridge only. No new definitions of the code.
-/

namespace Verif.Adsc

/-- Events which may take ADSC from `a`: its own swap, a transfer over the bridge which names it, and what its holder does outside the
pallet. -/
def takesFrom (a : AccId) : State × Op × Out → Bool
  | (_, .swap w _, .swapped _) => decide (w = a)
  | (_, .bridgeBurn _ src _, .done) => decide (src = a)
  | (s, .external _ _ x _ _, _) => decide (x.bal a < s.asset.bal a)
  | _ => false

/-- ADSC which a swap brings to `a`, that is, to the pool. -/
def broughtTo (cfg : Cfg) (a : AccId) : State × Op × Out → Nat
  | (_, .swap _ v, .swapped _) => if a = cfg.pool then v else 0
  | _ => 0

theorem keep_mint {x x' : Asset} {a b : AccId} {v : Balance} (h : x.mint b v = .ok x') : x.bal a ≤ x'.bal a := by
  obtain ⟨h1, h2, -⟩ := Asset.mint_exact h
  by_cases he : a = b
  · subst he; omega
  · rw [h2 a he]; exact Nat.le_refl _

theorem keep_visit (cfg : Cfg) (period : Nat) (c : Scan) (b : AccId) (left : Nat) (a : AccId) :
    c.asset.bal a ≤ (visit cfg period c b left).asset.bal a := by
  unfold visit
  dsimp only
  split
  · exact Nat.le_refl _
  · unfold payReward
    dsimp only
    cases hm : c.asset.mint b (Credit.perbillMul left period c.base) with
    | error e => exact Nat.le_refl _
    | ok x =>
      dsimp only
      split <;> exact keep_mint hm

theorem keep_scan (cfg : Cfg) (s : State) (a : AccId) (l : List (AccId × Nat)) :
    ∀ (n : Nat) (c : Scan), c.asset.bal a ≤ (scan cfg s l n c).asset.bal a := by
  induction l with
  | nil => intro n c; exact Nat.le_refl _
  | cons e l ih =>
    intro n c
    obtain ⟨b, left⟩ := e
    unfold scan
    split
    · exact ih n c
    · dsimp only
      split
      · exact keep_visit cfg s.period c b left a
      · exact Nat.le_trans (keep_visit cfg s.period c b left a) (ih _ _)

theorem keep_step (cfg : Cfg) (a : AccId) (s : State) (op : Op) (hf : takesFrom a (s, op, (step cfg s op).2) = false) :
    let r := step cfg s op
    s.asset.bal a + broughtTo cfg a (s, op, r.2) ≤ r.1.asset.bal a := by
  intro r
  rcases step_cases cfg s op with ⟨q, hb, hs⟩ | ⟨e, hb, hs⟩
  swap
  · have h1 : r = (s, .failed e) := hs
    rw [h1]
    cases op <;> exact Nat.le_refl _
  have hr : r = q := hs
  rw [hs] at hf
  cases op <;> simp only [body] at hb
  case bridgeBurn w src v =>
    obtain ⟨s', h1, h2⟩ := map_ok hb
    unfold bridgeBurn at h1
    split at h1
    · cases h1
    obtain ⟨x, h3, h4⟩ := map_ok h1
    obtain ⟨-, h5, -, h6, -⟩ := Asset.burn_exact (liftAsset_ok h3)
    rw [← h2] at hf
    rw [hr, ← h2, ← h4]
    show s.asset.bal a + 0 ≤ x.bal a
    rw [h6 a fun e => of_decide_eq_false hf e.symm]
    exact Nat.le_refl _
  case bridgeMint w dst v =>
    obtain ⟨s', h1, h2⟩ := map_ok hb
    unfold bridgeMint at h1
    split at h1
    · cases h1
    obtain ⟨x, h3, h4⟩ := map_ok h1
    rw [hr, ← h2, ← h4]
    exact keep_mint (liftAsset_ok h3)
  case swap w v =>
    obtain ⟨⟨s', d⟩, h1, h2⟩ := map_ok hb
    unfold swap at h1
    split at h1
    · cases h1
    rename_i x hx
    split at h1
    · cases h1
    dsimp only at h1
    obtain ⟨b, h3, h4⟩ := map_ok h1
    cases h4
    rw [← h2] at hf
    rw [hr, ← h2]
    have hwa : w ≠ a := of_decide_eq_false hf
    show s.asset.bal a + (if a = cfg.pool then v else 0) ≤ x.bal a
    by_cases hp : a = cfg.pool
    · rw [if_pos hp]
      subst hp
      obtain ⟨g1, g2, g3, g4, -⟩ := Asset.transfer_exact (liftAsset_ok hx) hwa
      by_cases h0 : v = 0
      · rw [g2 h0, h0]
        exact Nat.le_refl _
      · have := (g3 (Nat.pos_of_ne_zero h0)).2
        omega
    · rw [if_neg hp]
      by_cases hw : w = cfg.pool
      · rw [hw] at hx
        rw [Asset.transfer_self (liftAsset_ok hx)]
        exact Nat.le_refl _
      · obtain ⟨g1, g2, g3, g4, -⟩ := Asset.transfer_exact (liftAsset_ok hx) hw
        rw [g4 a (fun e => hwa e.symm) hp]
        exact Nat.le_refl _
  case init =>
    cases hb
    rw [hr]
    show s.asset.bal a ≤ (blockInit cfg s).1.asset.bal a
    unfold blockInit
    split
    · exact Nat.le_refl _
    · unfold reward
      split
      · exact Nat.le_refl _
      · dsimp only
        rw [asset_sub, asset_remove]
        dsimp only
        rename_i k _
        exact keep_scan cfg s a ((sortByKey cfg.key s.stakers.entries).filter fun e => decide (k < cfg.key e.1)) s.perBlock
          ⟨s.asset, s.minted, s.base, s.target, none, [], [], []⟩
  case external dt b x n p =>
    cases hb
    rw [hr]
    exact Nat.not_lt.1 (of_decide_eq_false hf)
  case setOffline f => cases hb; rw [hr]; exact Nat.le_refl _
  case addStakerNft w a i =>
    obtain ⟨s', h1, h2⟩ := map_ok hb
    unfold addStakerNft at h1
    split at h1
    · cases h1
    split at h1
    · cases h1
    split at h1
    · cases h1
    cases h1
    rw [hr, ← h2]
    exact Nat.le_refl _
  all_goals
    obtain ⟨s', h1, h2⟩ := map_ok hb
    simp only [addStaker, setPeriod, setTarget, setBase, setRate, addPool] at h1
    split at h1
    · cases h1
    cases h1
    rw [hr, ← h2]
    exact Nat.le_refl _

/-- As long as an account does not swap, is not named in a transfer over the bridge and does not spend elsewhere, it keeps all its ADSC,
whatever others do; the pool keeps all the ADSC swapped into it besides. -/
theorem C154_keep (cfg : Cfg) (a : AccId) (ops : List Op) : ∀ s : State, (∀ e ∈ (run cfg s ops).2, takesFrom a e = false) →
    let r := run cfg s ops
    s.asset.bal a + (r.2.map (broughtTo cfg a)).sum ≤ r.1.asset.bal a := by
  induction ops with
  | nil => intro s _; exact Nat.le_refl _
  | cons op ops ih =>
    intro s hf
    simp only [run] at hf
    have h1 := keep_step cfg a s op (hf _ List.mem_cons_self)
    have h2 := ih _ fun e he => hf e (List.mem_cons_of_mem _ he)
    simp only [run, List.map_cons, List.sum_cons] at h2 ⊢
    dsimp only at h1
    omega

/-- On a history: 5 swaps 301 and 20 of its ADSC, the pool (99) keeps all 321. -/
example :
    let s := genesis exCfg exBank exAsset2 100
    let ops : List Op := [.addPool true 50, .swap 5 301, .setRate 9 (1, 7), .swap 5 20]
    let r := run exCfg s ops
    (∀ e ∈ r.2, takesFrom 99 e = false) ∧
    (s.asset.bal 99, (r.2.map (broughtTo exCfg 99)).sum, r.1.asset.bal 99, r.1.asset.bal 5) = (0, 321, 321, 79) := by
  decide +kernel

end Verif.Adsc
