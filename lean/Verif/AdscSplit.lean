import Verif.AdscSupply

/-
Property C153: splitting a swap gains nothing and costs at most the rounding; and the recorded total of the pool (C152). No new definitions of the code.
-/

namespace Verif.Adsc

theorem rate_remove (l : List AccId) : ∀ s : State, (l.foldl removeStaker s).rate = s.rate := by
  induction l with
  | nil => intro s; rfl
  | cons a l ih =>
    intro s
    rw [List.foldl_cons, ih]
    unfold removeStaker
    dsimp only
    split
    · rfl
    · split <;> rfl

theorem rate_sub (l : List AccId) : ∀ s : State, (l.foldl subDay s).rate = s.rate := by
  induction l with
  | nil => intro s; rfl
  | cons a l ih =>
    intro s
    rw [List.foldl_cons, ih]
    unfold subDay
    split <;> rfl

/-- The event is an accepted change of the exchange rate. -/
def changesRate : State × Op × Out → Bool
  | (_, .setRate _ _, .done) => true
  | _ => false

/-- DPR paid to `a` by a swap. -/
def gotBy (a : AccId) : State × Op × Out → Nat
  | (_, .swap w _, .swapped d) => if w = a then d else 0
  | _ => 0

/-- ADSC swapped by `a`. -/
def givenBy (a : AccId) : State × Op × Out → Nat
  | (_, .swap w v, .swapped _) => if w = a then v else 0
  | _ => 0

/-- Number of swaps by `a`. -/
def swapsBy (a : AccId) : State × Op × Out → Nat
  | (_, .swap w _, .swapped _) => if w = a then 1 else 0
  | _ => 0

/-- A call other than an accepted change of the exchange rate leaves the rate. -/
theorem rate_step (cfg : Cfg) (s : State) (op : Op) (hc : changesRate (s, op, (step cfg s op).2) = false) :
    (step cfg s op).1.rate = s.rate := by
  rcases step_cases cfg s op with ⟨q, hb, hs⟩ | ⟨e, hb, hs⟩
  swap
  · rw [hs]
  rw [hs] at hc ⊢
  cases op <;> simp only [body] at hb
  case swap w v =>
    obtain ⟨⟨s', d⟩, h1, h2⟩ := map_ok hb
    unfold swap at h1
    split at h1
    · cases h1
    split at h1
    · cases h1
    dsimp only at h1
    obtain ⟨b, h3, h4⟩ := map_ok h1
    cases h4
    rw [← h2]
  case setRate w r =>
    obtain ⟨s', h1, h2⟩ := map_ok hb
    rw [← h2] at hc
    cases hc
  case external dt b x n p => cases hb; rfl
  case init =>
    cases hb
    show (blockInit cfg s).1.rate = s.rate
    unfold blockInit
    split
    · rfl
    · unfold reward
      split
      · rfl
      · dsimp only
        rw [rate_sub, rate_remove]
  case setOffline f => cases hb; rfl
  case addStakerNft w a i =>
    obtain ⟨s', h1, h2⟩ := map_ok hb
    unfold addStakerNft at h1
    split at h1
    · cases h1
    split at h1
    · cases h1
    split at h1
    · cases h1
    cases h1
    rw [← h2]
  case bridgeBurn w src v =>
    obtain ⟨s', h1, h2⟩ := map_ok hb
    unfold bridgeBurn at h1
    split at h1
    · cases h1
    obtain ⟨x, h3, h4⟩ := map_ok h1
    rw [← h2, ← h4]
  case bridgeMint w src v =>
    obtain ⟨s', h1, h2⟩ := map_ok hb
    unfold bridgeMint at h1
    split at h1
    · cases h1
    obtain ⟨x, h3, h4⟩ := map_ok h1
    rw [← h2, ← h4]
  all_goals
    obtain ⟨s', h1, h2⟩ := map_ok hb
    simp only [addStaker, setPeriod, setTarget, setBase, addPool] at h1
    split at h1
    · cases h1
    cases h1
    rw [← h2]

/-- What a swap pays, at the rate of the moment. -/
theorem swapped_amount {cfg : Cfg} {s : State} {w : AccId} {v d : Balance} (h : (step cfg s (.swap w v)).2 = .swapped d) :
    0 < s.rate.1 ∧ d = min (v * s.rate.2) (2 ^ 128 - 1) / s.rate.1 := by
  rcases step_cases cfg s (.swap w v) with ⟨q, hb, hs⟩ | ⟨e, hb, hs⟩
  · simp only [body] at hb
    obtain ⟨⟨s', d'⟩, h1, h2⟩ := map_ok hb
    unfold swap at h1
    split at h1
    · cases h1
    split at h1
    · cases h1
    rename_i h0
    dsimp only at h1
    obtain ⟨b, h3, h4⟩ := map_ok h1
    cases h4
    rw [hs, ← h2] at h
    cases h
    exact ⟨Nat.pos_of_ne_zero h0, rfl⟩
  · rw [hs] at h; cases h

theorem split_step (cfg : Cfg) (a : AccId) (s : State) (op : Op) :
    let e := (s, op, (step cfg s op).2)
    gotBy a e * s.rate.1 ≤ givenBy a e * s.rate.2 ∧
    (givenBy a e * s.rate.2 < 2 ^ 128 → givenBy a e * s.rate.2 ≤ gotBy a e * s.rate.1 + swapsBy a e * (s.rate.1 - 1)) := by
  intro e
  cases ho : (step cfg s op).2
  case swapped d =>
    cases op
    case swap w v =>
      obtain ⟨h0, hd⟩ := swapped_amount ho
      have he : e = (s, .swap w v, .swapped d) := by simp only [e, ho]
      rw [he]
      simp only [gotBy, givenBy, swapsBy]
      by_cases hw : w = a
      · simp only [hw, if_true]
        have h1 := Nat.div_mul_le_self (min (v * s.rate.2) (2 ^ 128 - 1)) s.rate.1
        rw [← hd] at h1
        refine ⟨by omega, fun hv => ?_⟩
        have h2 : min (v * s.rate.2) (2 ^ 128 - 1) = v * s.rate.2 := by omega
        rw [h2] at hd
        have h3 := Nat.div_add_mod (v * s.rate.2) s.rate.1
        have h4 := Nat.mod_lt (v * s.rate.2) h0
        rw [← hd, Nat.mul_comm] at h3
        omega
      · simp [hw]
    all_goals
      have h1 : gotBy a e = 0 := by simp only [e, ho]; rfl
      have h2 : givenBy a e = 0 := by simp only [e, ho]; rfl
      simp [h1, h2]
  all_goals
    have h1 : gotBy a e = 0 := by simp only [e, ho]; cases op <;> rfl
    have h2 : givenBy a e = 0 := by simp only [e, ho]; cases op <;> rfl
    simp [h1, h2]

/-- While the exchange rate `(r₁, r₂)` is not changed, an account gets for all its swaps together no more than a single swap of the whole
amount is worth, and, if no amount leaves the range of 128 bits, less by under `r₁` parts of a unit for each of its swaps. -/
theorem C153_split (cfg : Cfg) (a : AccId) (ops : List Op) : ∀ s : State, (∀ e ∈ (run cfg s ops).2, changesRate e = false) →
    let t := (run cfg s ops).2
    let paid := (t.map (gotBy a)).sum
    let given := (t.map (givenBy a)).sum
    paid * s.rate.1 ≤ given * s.rate.2 ∧ (0 < s.rate.1 → paid ≤ given * s.rate.2 / s.rate.1) ∧
    (given * s.rate.2 < 2 ^ 128 → given * s.rate.2 ≤ paid * s.rate.1 + (t.map (swapsBy a)).sum * (s.rate.1 - 1)) := by
  suffices H : ∀ s : State, (∀ e ∈ (run cfg s ops).2, changesRate e = false) →
      let t := (run cfg s ops).2
      let paid := (t.map (gotBy a)).sum
      let given := (t.map (givenBy a)).sum
      paid * s.rate.1 ≤ given * s.rate.2 ∧
      (given * s.rate.2 < 2 ^ 128 → given * s.rate.2 ≤ paid * s.rate.1 + (t.map (swapsBy a)).sum * (s.rate.1 - 1)) by
    intro s hc
    obtain ⟨h1, h2⟩ := H s hc
    exact ⟨h1, fun h0 => (Nat.le_div_iff_mul_le h0).2 h1, h2⟩
  induction ops with
  | nil => intro s _; simp [run]
  | cons op ops ih =>
    intro s hc
    simp only [run] at hc
    have hr := rate_step cfg s op (hc _ List.mem_cons_self)
    obtain ⟨h1, h2⟩ := ih _ fun e he => hc e (List.mem_cons_of_mem _ he)
    obtain ⟨h3, h4⟩ := split_step cfg a s op
    rw [hr] at h1 h2
    simp only [run, List.map_cons, List.sum_cons, Nat.add_mul]
    refine ⟨by omega, fun hb => ?_⟩
    have h5 := h2 (by omega)
    have h6 := h4 (by omega)
    omega

/-- On a history at the rate 2:1: account 5 swaps 301 and 21 ADSC for 150 and 10 DPR; the whole would be worth 161. -/
example :
    let s := genesis exCfg exBank exAsset2 100
    let ops : List Op := [.addPool true 50, .swap 5 301, .setRate 9 (1, 7), .swap 5 21, .swap 6 20]
    let t := (run exCfg s ops).2
    (∀ e ∈ t, changesRate e = false) ∧
    (s.rate, (t.map (gotBy 5)).sum, (t.map (givenBy 5)).sum, (t.map (swapsBy 5)).sum) = ((2, 1), 160, 322, 2) := by
  decide +kernel

/-! ### The recorded total of the pool (C152) -/

theorem total_remove (l : List AccId) : ∀ s : State, (l.foldl removeStaker s).poolTotal = s.poolTotal := by
  induction l with
  | nil => intro s; rfl
  | cons a l ih =>
    intro s
    rw [List.foldl_cons, ih]
    unfold removeStaker
    dsimp only
    split
    · rfl
    · split <;> rfl

theorem total_sub (l : List AccId) : ∀ s : State, (l.foldl subDay s).poolTotal = s.poolTotal := by
  induction l with
  | nil => intro s; rfl
  | cons a l ih =>
    intro s
    rw [List.foldl_cons, ih]
    unfold subDay
    split <;> rfl

theorem total_step (cfg : Cfg) (s : State) (op : Op) :
    (step cfg s op).1.poolTotal = s.poolTotal + fundedBy (s, op, (step cfg s op).2) := by
  rcases step_cases cfg s op with ⟨q, hb, hs⟩ | ⟨e, hb, hs⟩
  swap
  · rw [hs]
    cases op <;> rfl
  rw [hs]
  cases op <;> simp only [body] at hb
  case swap w v =>
    obtain ⟨⟨s', d⟩, h1, h2⟩ := map_ok hb
    unfold swap at h1
    split at h1
    · cases h1
    split at h1
    · cases h1
    dsimp only at h1
    obtain ⟨b, h3, h4⟩ := map_ok h1
    cases h4
    rw [← h2]
    rfl
  case external dt b x n p => cases hb; rfl
  case init =>
    cases hb
    show (blockInit cfg s).1.poolTotal = s.poolTotal
    unfold blockInit
    split
    · rfl
    · unfold reward
      split
      · rfl
      · dsimp only
        rw [total_sub, total_remove]
  case setOffline f => cases hb; rfl
  case addStakerNft w a i =>
    obtain ⟨s', h1, h2⟩ := map_ok hb
    unfold addStakerNft at h1
    split at h1
    · cases h1
    split at h1
    · cases h1
    split at h1
    · cases h1
    cases h1
    rw [← h2]
    rfl
  case bridgeBurn w src v =>
    obtain ⟨s', h1, h2⟩ := map_ok hb
    unfold bridgeBurn at h1
    split at h1
    · cases h1
    obtain ⟨x, h3, h4⟩ := map_ok h1
    rw [← h2, ← h4]
    rfl
  case bridgeMint w src v =>
    obtain ⟨s', h1, h2⟩ := map_ok hb
    unfold bridgeMint at h1
    split at h1
    · cases h1
    obtain ⟨x, h3, h4⟩ := map_ok h1
    rw [← h2, ← h4]
    rfl
  all_goals
    obtain ⟨s', h1, h2⟩ := map_ok hb
    simp only [addStaker, setPeriod, setTarget, setBase, setRate, addPool] at h1
    split at h1
    · cases h1
    cases h1
    rw [← h2]
    rfl

/-- The recorded total of the pool is the sum of what root has put in. -/
theorem C152_total (cfg : Cfg) (ops : List Op) : ∀ s : State,
    (run cfg s ops).1.poolTotal = s.poolTotal + ((run cfg s ops).2.map fundedBy).sum := by
  induction ops with
  | nil => intro s; rfl
  | cons op ops ih =>
    intro s
    have h1 := ih (step cfg s op).1
    have h2 := total_step cfg s op
    simp only [run, List.map_cons, List.sum_cons]
    omega

/-- Root puts in 50 and 8; the attempt of another account with 70 does not count. -/
example :
    let s := genesis exCfg exBank exAsset2 100
    (run exCfg s [.addPool true 50, .swap 5 301, .addPool false 70, .addPool true 8]).1.poolTotal = s.poolTotal + 58 := by
  decide +kernel

end Verif.Adsc
