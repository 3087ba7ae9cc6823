import Verif.Basic

/-
The price of gas: how the base fee of Ethereum transactions follows the load of the chain.

pallet-base-fee is a library (a fork of Frontier, runtime/Cargo.toml:121, not part of the repository); `usageOf` and `finalize` follow its
version of polkadot-v1.1.0 and are part of the trusted base. Of the repository: the thresholds and defaults of runtime/src/lib.rs:1424-1451,
the size of a block (240-268), the gas of a block (1354-1363) and who the fee calculator is (1385).
-/

namespace Verif.BaseFee

/-- Number of values of `U256`. -/
def big : Nat := 2 ^ 256

/-- Parameters of the pallet, runtime/src/lib.rs:1427-1451; shares in parts per million. -/
structure Cfg where
  /-- `max_block.ref_time()` -/
  maxWeight : Nat
  lower : Nat
  ideal : Nat
  upper : Nat
  /-- `DefaultBaseFeePerGas` -/
  default : Nat
  /-- `DefaultElasticity` -/
  elasticity : Nat

/-- The runtime: `MAXIMUM_BLOCK_WEIGHT` (runtime/src/lib.rs:240-242, 256-261) and the values of runtime/src/lib.rs:1429-1444. -/
def runtime : Cfg := ⟨2 * 1000000000000, 0, 500000, 1000000, 1000000000, 125000⟩

/-- Storage of the pallet, runtime/src/lib.rs:1446-1451. -/
structure State where
  fee : Nat
  elasticity : Nat
deriving DecidableEq, Repr

/-- `GenesisConfig::default()` of the pallet, cli/src/chain_spec.rs:357. -/
def genesis (cfg : Cfg) : State := ⟨cfg.default, cfg.elasticity⟩

/-- Quotient rounded up. -/
def divUp (a b : Nat) : Nat := (a + b - 1) / b

/-- `Permill::from_rational` (library sp-arithmetic, used on runtime/src/lib.rs:240-268): everything above one is one; numbers above a
million are first divided by a common factor. -/
def fromRational (p q : Nat) : Nat :=
  if q = 0 ∨ q < p then 1000000
  else
    let factor := max (divUp q 1000000) 1
    p / factor * 1000000 / (q / factor)

/-- The share of the block that was used, on the scale from the lower to the upper threshold: the first part of `on_finalize` (library,
thresholds of runtime/src/lib.rs:1434-1444). -/
def usageOf (cfg : Cfg) (weight : Nat) : Nat :=
  let used := max cfg.lower (min (fromRational weight cfg.maxWeight) cfg.upper)
  fromRational (used - cfg.lower) (cfg.upper - cfg.lower)

/-- The part of the elasticity that is applied: `Elasticity * Permill::from_parts(2 * distance)` (library, runtime/src/lib.rs:1430). -/
def coef (elasticity distance : Nat) : Nat := elasticity * min (2 * distance) 1000000 / 1000000

/-- The least fee, `DefaultBaseFeePerGas * Threshold::ideal()` (library, runtime/src/lib.rs:1429, 1438-1440). -/
def lowest (cfg : Cfg) : Nat := cfg.default * cfg.ideal / 1000000

/-- `on_finalize` (library, runtime/src/lib.rs:1446-1451): the fee of the next block from the weight of this one. A product that does not
fit into 256 bits changes nothing. -/
def finalize (cfg : Cfg) (s : State) (weight : Nat) : State :=
  if s.elasticity = 0 then s
  else
    let u := usageOf cfg weight
    if cfg.ideal < u then
      let c := coef s.elasticity (u - cfg.ideal)
      if big ≤ s.fee * c then s else { s with fee := min (s.fee + s.fee * c / 1000000) (big - 1) }
    else if u < cfg.ideal then
      let c := coef s.elasticity (cfg.ideal - u)
      if big ≤ s.fee * c then s
      else
        let down := s.fee - s.fee * c / 1000000
        { s with fee := if lowest cfg ≤ down then down else lowest cfg }
    else s

inductive Op where
  /-- a block with this weight ends -/
  | block (weight : Nat)
  /-- `set_base_fee_per_gas` -/
  | setFee (root : Bool) (fee : Nat)
  /-- `set_elasticity` -/
  | setElasticity (root : Bool) (ppm : Nat)

/-- One event; the two calls need root (library, call index 82 of runtime/src/lib.rs:1615). -/
def step (cfg : Cfg) (s : State) : Op → State
  | .block w => finalize cfg s w
  | .setFee root f => if root then { s with fee := f } else s
  | .setElasticity root e => if root then { s with elasticity := e } else s

/-- A history. -/
def run (cfg : Cfg) (s : State) : List Op → State
  | [] => s
  | o :: os => run cfg (step cfg s o) os

/-- Not a call of root. -/
def Plain : Op → Prop
  | .block _ => True
  | .setFee root _ => root = false
  | .setElasticity root _ => root = false

/-- `weight_per_gas(BLOCK_GAS_LIMIT, NORMAL_DISPATCH_RATIO, WEIGHT_MILLISECS_PER_BLOCK)` (library fp-evm, runtime/src/lib.rs:1354-1362,
`NORMAL_DISPATCH_RATIO` at 238): the weight of one unit of gas. -/
def weightPerGas : Nat := 75 * (2000 * 1000000000) / 100 / 75000000

/-! ### The share used, exactly -/

theorem usage_runtime (w : Nat) : usageOf runtime w = min (w / 2000000) 1000000 := by
  have hf : ∀ p : Nat, p ≤ 1000000 → fromRational p 1000000 = p := by
    intro p hp
    unfold fromRational divUp
    rw [if_neg (by omega)]
    simp
  have hm : fromRational w 2000000000000 = min (w / 2000000) 1000000 := by
    unfold fromRational divUp
    split
    · omega
    · simp; omega
  show fromRational (max 0 (min (fromRational w 2000000000000) 1000000) - 0) (1000000 - 0) = _
  rw [hm, hf _ (by omega)]
  omega

theorem lowest_runtime : lowest runtime = 500000000 := by decide

theorem coef_runtime (d : Nat) (hd : d ≤ 500000) : coef 125000 d = d / 4 := by
  unfold coef
  omega

/-- Its cases with the numbers of the runtime. -/
theorem finalize_eq (f w : Nat) :
    (finalize runtime ⟨f, 125000⟩ w) =
      if 500000 < usageOf runtime w then
        if big ≤ f * coef 125000 (usageOf runtime w - 500000) then ⟨f, 125000⟩
        else ⟨min (f + f * coef 125000 (usageOf runtime w - 500000) / 1000000) (big - 1), 125000⟩
      else if usageOf runtime w < 500000 then
        if big ≤ f * coef 125000 (500000 - usageOf runtime w) then ⟨f, 125000⟩
        else ⟨max 500000000 (f - f * coef 125000 (500000 - usageOf runtime w) / 1000000), 125000⟩
      else ⟨f, 125000⟩ := by
  unfold finalize
  rw [lowest_runtime]
  generalize usageOf runtime w = u
  have hi : runtime.ideal = 500000 := rfl
  simp only [hi]
  rw [if_neg (by omega)]
  have hm : ∀ x : Nat, (if 500000000 ≤ x then x else 500000000) = max 500000000 x := by intro x; split <;> omega
  simp only [hm]

/-- The fee after a block in plain numbers: `u` is the used share of the block in parts per million. -/
theorem finalize_runtime (f w : Nat) (hf : f * 125000 < big) (hl : 500000000 ≤ f) :
    let u := min (w / 2000000) 1000000
    finalize runtime ⟨f, 125000⟩ w =
      ⟨if 500000 ≤ u then f + f * ((u - 500000) / 4) / 1000000
        else max 500000000 (f - f * ((500000 - u) / 4) / 1000000), 125000⟩ := by
  intro u
  have hu : usageOf runtime w = u := usage_runtime w
  have hu1 : u ≤ 1000000 := Nat.min_le_right _ _
  rw [finalize_eq, hu]
  clear_value u
  rcases Nat.lt_trichotomy u 500000 with h | h | h
  · rw [if_neg (by omega), if_pos h, coef_runtime _ (by omega), if_neg (c := 500000 ≤ u) (by omega)]
    have hle : f * ((500000 - u) / 4) ≤ f * 125000 := Nat.mul_le_mul_left _ (by omega)
    rw [if_neg (by omega)]
  · subst h
    rw [if_neg (by omega), if_neg (by omega), if_pos (by omega)]
    simp
  · rw [if_pos h, coef_runtime _ (by omega), if_pos (c := 500000 ≤ u) (by omega)]
    have hle : f * ((u - 500000) / 4) ≤ f * 125000 := Nat.mul_le_mul_left _ (by omega)
    rw [if_neg (by omega)]
    generalize f * ((u - 500000) / 4) = x at hle
    congr 1
    omega

/-! ### Bounds in every history -/

theorem coef_le {e d : Nat} (he : e = 125000) : coef e d ≤ 125000 := by
  subst he
  unfold coef
  omega

/-- What holds before and after every block when root does not interfere: the default elasticity, a fee of at least half a gwei that fits
into 256 bits. -/
def Sound (s : State) : Prop := s.elasticity = 125000 ∧ 500000000 ≤ s.fee ∧ s.fee < big

theorem plain_step (o : Op) (h : Plain o) (s : State) (hs : Sound s) : Sound (step runtime s o) := by
  cases o with
  | block w =>
    obtain ⟨f, e⟩ := s
    obtain ⟨he, hl, hb⟩ := hs
    simp only at he hl hb
    subst he
    have hb1 : 500000000 < big := by decide
    simp only [step]
    rw [finalize_eq]
    unfold Sound
    split
    · split
      · exact ⟨rfl, hl, hb⟩
      · generalize f * coef 125000 (usageOf runtime w - 500000) / 1000000 = x
        refine ⟨rfl, ?_, ?_⟩ <;> dsimp only <;> omega
    · split
      · split
        · exact ⟨rfl, hl, hb⟩
        · generalize f * coef 125000 (500000 - usageOf runtime w) / 1000000 = x
          refine ⟨rfl, ?_, ?_⟩ <;> dsimp only <;> omega
      · exact ⟨rfl, hl, hb⟩
  | setFee r f => simp only [Plain] at h; subst h; exact hs
  | setElasticity r f => simp only [Plain] at h; subst h; exact hs

theorem plain_run (ops : List Op) (h : ∀ o ∈ ops, Plain o) (s : State) (hs : Sound s) : Sound (run runtime s ops) := by
  induction ops generalizing s with
  | nil => exact hs
  | cons o os ih =>
    exact ih (fun x hx => h x (List.mem_cons_of_mem _ hx)) _ (plain_step o (h o (List.mem_cons_self ..)) s hs)

theorem genesis_sound : Sound (genesis runtime) := by
  refine ⟨rfl, ?_, ?_⟩ <;> decide

theorem sound_eq {s : State} (h : Sound s) : s = ⟨s.fee, 125000⟩ := by
  obtain ⟨f, e⟩ := s
  obtain ⟨he, _⟩ := h
  simp only at he
  rw [he]

/-- C135 (the price of the next block): from genesis on, as long as root does not interfere, the base fee is at least half a gwei and
each block changes it exactly so: with the share `u` of the block used, in parts per million, it rises above one half by a quarter of the
excess, and falls below one half by a quarter of what is missing, but not under half a gwei. -/
theorem C135_exact (ops : List Op) (h : ∀ o ∈ ops, Plain o) (w : Nat) :
    let s := run runtime (genesis runtime) ops
    let u := min (w / 2000000) 1000000
    500000000 ≤ s.fee ∧
    (s.fee * 125000 < 2 ^ 256 →
      (step runtime s (.block w)).fee =
        if 500000 ≤ u then s.fee + s.fee * ((u - 500000) / 4) / 1000000
        else max 500000000 (s.fee - s.fee * ((500000 - u) / 4) / 1000000)) := by
  intro s u
  have hs : Sound s := plain_run ops h (genesis runtime) genesis_sound
  refine ⟨hs.2.1, fun hf => ?_⟩
  show (finalize runtime s w).fee = _
  rw [sound_eq hs, finalize_runtime s.fee w hf hs.2.1]

/-- A block changes the fee by at most an eighth, in both directions. -/
theorem change_bound (f w : Nat) (hl : 500000000 ≤ f) (hb : f < big) :
    (finalize runtime ⟨f, 125000⟩ w).fee * 8 ≤ f * 9 ∧ f * 7 ≤ (finalize runtime ⟨f, 125000⟩ w).fee * 8 := by
  have hu1 : usageOf runtime w ≤ 1000000 := by rw [usage_runtime]; omega
  rw [finalize_eq]
  generalize usageOf runtime w = u at hu1
  by_cases h : 500000 < u
  · rw [if_pos h, coef_runtime _ (by omega)]
    have hle : f * ((u - 500000) / 4) ≤ f * 125000 := Nat.mul_le_mul_left _ (by omega)
    generalize f * ((u - 500000) / 4) = x at hle
    split
    · refine ⟨?_, ?_⟩ <;> dsimp only <;> omega
    · refine ⟨?_, ?_⟩ <;> dsimp only <;> omega
  · rw [if_neg h]
    split
    · rw [coef_runtime _ (by omega)]
      have hle : f * ((500000 - u) / 4) ≤ f * 125000 := Nat.mul_le_mul_left _ (by omega)
      generalize f * ((500000 - u) / 4) = x at hle
      split
      · refine ⟨?_, ?_⟩ <;> dsimp only <;> omega
      · refine ⟨?_, ?_⟩ <;> dsimp only <;> omega
    · refine ⟨?_, ?_⟩ <;> dsimp only <;> omega

/-- C135 (bounded steps): one block changes the price by at most an eighth, whatever its weight and however large the price; `n` blocks
raise it by at most the `n`-th power of nine eighths. -/
theorem C135_step (ops : List Op) (h : ∀ o ∈ ops, Plain o) :
    let s := run runtime (genesis runtime) ops
    (∀ w, (step runtime s (.block w)).fee * 8 ≤ s.fee * 9 ∧ s.fee * 7 ≤ (step runtime s (.block w)).fee * 8) ∧
    s.fee * 8 ^ ops.length ≤ 1000000000 * 9 ^ ops.length := by
  refine ⟨fun w => ?_, ?_⟩
  · have hs := plain_run ops h (genesis runtime) genesis_sound
    show (finalize runtime _ w).fee * 8 ≤ _ ∧ _ ≤ (finalize runtime _ w).fee * 8
    have := change_bound (run runtime (genesis runtime) ops).fee w hs.2.1 hs.2.2
    rw [← sound_eq hs] at this
    exact this
  · have key : ∀ (ops : List Op), (∀ o ∈ ops, Plain o) → ∀ s, Sound s →
        (run runtime s ops).fee * 8 ^ ops.length ≤ s.fee * 9 ^ ops.length := by
      intro ops
      induction ops with
      | nil => intro _ s _; simp [run]
      | cons o os ih =>
        intro h s hs
        have h1 := plain_step o (h o (List.mem_cons_self ..)) s hs
        have h2 := ih (fun x hx => h x (List.mem_cons_of_mem _ hx)) _ h1
        have h3 : (step runtime s o).fee * 8 ≤ s.fee * 9 := by
          cases o with
          | block w =>
            have := (change_bound s.fee w hs.2.1 hs.2.2).1
            rw [← sound_eq hs] at this
            exact this
          | setFee r f => have := h _ (List.mem_cons_self ..); simp only [Plain] at this; subst this; show s.fee * 8 ≤ s.fee * 9; omega
          | setElasticity r f =>
            have := h _ (List.mem_cons_self ..); simp only [Plain] at this; subst this; show s.fee * 8 ≤ s.fee * 9; omega
        simp only [run, List.length_cons, Nat.pow_succ]
        calc (run runtime (step runtime s o) os).fee * (8 ^ os.length * 8)
            = (run runtime (step runtime s o) os).fee * 8 ^ os.length * 8 := by rw [Nat.mul_assoc]
          _ ≤ (step runtime s o).fee * 9 ^ os.length * 8 := Nat.mul_le_mul_right _ h2
          _ = (step runtime s o).fee * 8 * 9 ^ os.length := by rw [Nat.mul_assoc, Nat.mul_comm (9 ^ _), ← Nat.mul_assoc]
          _ ≤ s.fee * 9 * 9 ^ os.length := Nat.mul_le_mul_right _ h3
          _ = s.fee * (9 ^ os.length * 9) := by rw [Nat.mul_assoc, Nat.mul_comm 9]
    exact key ops h (genesis runtime) genesis_sound

/-- C135 (which way): at prices that fit, the price rises exactly after blocks that are more than half full (by eight million units of
weight of the two million million, the precision of the shares) and falls exactly after blocks less than half full, unless it is already
the least one. A block whose gas is used up raises it by at least a sixteenth. -/
theorem C135_direction (ops : List Op) (h : ∀ o ∈ ops, Plain o) (w : Nat) :
    let s := run runtime (genesis runtime) ops
    let f' := (step runtime s (.block w)).fee
    s.fee * 125000 < 2 ^ 256 →
      (s.fee < f' ↔ 1000008000000 ≤ w) ∧
      (f' < s.fee ↔ w < 999994000000 ∧ s.fee ≠ 500000000) ∧
      (weightPerGas * 75000000 ≤ w → s.fee * 17 ≤ f' * 16 + 15) := by
  intro s f' hf
  obtain ⟨hl, hx⟩ := C135_exact ops h w
  have hx' : f' = _ := hx hf
  have hw : weightPerGas = 20000 := by decide
  rw [hw]
  clear_value f'
  have hl' : 500000000 ≤ s.fee := hl
  change f' = if 500000 ≤ min (w / 2000000) 1000000 then s.fee + s.fee * ((min (w / 2000000) 1000000 - 500000) / 4) / 1000000
    else max 500000000 (s.fee - s.fee * ((500000 - min (w / 2000000) 1000000) / 4) / 1000000) at hx'
  generalize s.fee = f at *
  by_cases hu : 500000 ≤ min (w / 2000000) 1000000
  · rw [if_pos hu] at hx'
    have hk0 : (min (w / 2000000) 1000000 - 500000) / 4 = 0 ↔ w < 1000008000000 := by omega
    have hk1 : 1500000000000 ≤ w → 62500 ≤ (min (w / 2000000) 1000000 - 500000) / 4 := by omega
    have hw1 : 1000000000000 ≤ w := by omega
    generalize (min (w / 2000000) 1000000 - 500000) / 4 = k at *
    have hm : k ≠ 0 → f ≤ f * k := fun h0 => Nat.le_mul_of_pos_right _ (by omega)
    have hm0 : k = 0 → f * k = 0 := fun h0 => by rw [h0, Nat.mul_zero]
    have hm1 : 62500 ≤ k → f * 62500 ≤ f * k := fun h0 => Nat.mul_le_mul_left _ h0
    generalize f * k = x at *
    refine ⟨?_, ?_, ?_⟩
    · by_cases h0 : k = 0
      · have := hm0 h0; have := hk0.1 h0; omega
      · have := hm h0; have : ¬ w < 1000008000000 := fun h => h0 (hk0.2 h); omega
    · omega
    · intro h
      have := hm1 (hk1 (by omega))
      omega
  · rw [if_neg hu] at hx'
    have hk0 : (500000 - min (w / 2000000) 1000000) / 4 = 0 ↔ 999994000000 ≤ w := by omega
    have hw1 : w < 1000000000000 := by omega
    generalize (500000 - min (w / 2000000) 1000000) / 4 = k at *
    have hm : k ≠ 0 → f ≤ f * k := fun h0 => Nat.le_mul_of_pos_right _ (by omega)
    have hm0 : k = 0 → f * k = 0 := fun h0 => by rw [h0, Nat.mul_zero]
    generalize f * k = x at *
    refine ⟨?_, ?_, ?_⟩
    · omega
    · by_cases h0 : k = 0
      · have := hm0 h0; have := hk0.1 h0; omega
      · have := hm h0; have : ¬ 999994000000 ≤ w := fun h => h0 (hk0.2 h); omega
    · intro h; omega

/-! ### Back to the least price -/

/-- One block at most a quarter full takes a sixteenth off, or the price is the least one. -/
theorem quiet_step (f w : Nat) (hf : f * 125000 < big) (hl : 500000000 ≤ f) (hw : w ≤ 500000000000) :
    let f' := (finalize runtime ⟨f, 125000⟩ w).fee
    f' ≤ f ∧ (f' = 500000000 ∨ (f' - 15) * 16 ≤ (f - 15) * 15) := by
  intro f'
  have h : f' = _ := congrArg State.fee (finalize_runtime f w hf hl)
  clear_value f'
  have hu : min (w / 2000000) 1000000 ≤ 250000 := by omega
  generalize min (w / 2000000) 1000000 = u at *
  rw [if_neg (by omega)] at h
  have hk : 62500 ≤ (500000 - u) / 4 := by omega
  have hx : f * 62500 ≤ f * ((500000 - u) / 4) := Nat.mul_le_mul_left _ hk
  generalize f * ((500000 - u) / 4) = x at *
  dsimp only at h
  omega

/-- C135 (the price comes down again): after `n` blocks that are at most a quarter full the price is half a gwei, if `n` is so large that
`(15/16)^n` times the present price is below half a gwei. -/
theorem C135_recovers (ops : List Op) (h : ∀ o ∈ ops, Plain o) (ws : List Nat) (hw : ∀ w ∈ ws, w ≤ 500000000000) :
    let s := run runtime (genesis runtime) ops
    s.fee * 125000 < 2 ^ 256 → s.fee * 15 ^ ws.length ≤ 499999985 * 16 ^ ws.length →
      (run runtime s (ws.map .block)).fee = 500000000 := by
  intro s hf hn
  have hs : Sound s := plain_run ops h (genesis runtime) genesis_sound
  clear_value s
  have key : ∀ (ws : List Nat), (∀ w ∈ ws, w ≤ 500000000000) → ∀ s, Sound s → s.fee * 125000 < big →
      (run runtime s (ws.map .block)).fee ≤ s.fee ∧
      ((run runtime s (ws.map .block)).fee = 500000000 ∨
        ((run runtime s (ws.map .block)).fee - 15) * 16 ^ ws.length ≤ (s.fee - 15) * 15 ^ ws.length) := by
    intro ws
    induction ws with
    | nil => intro _ s _ _; exact ⟨Nat.le_refl _, Or.inr (Nat.le_refl _)⟩
    | cons w ws ih =>
      intro hw s hs hf
      obtain ⟨h1, h2⟩ := quiet_step s.fee w hf hs.2.1 (hw w (List.mem_cons_self ..))
      rw [← sound_eq hs] at h1 h2
      have hs1 := plain_step (.block w) trivial s hs
      obtain ⟨h3, h4⟩ := ih (fun x hx => hw x (List.mem_cons_of_mem _ hx)) _ hs1
        (Nat.lt_of_le_of_lt (Nat.mul_le_mul_right _ h1) hf)
      have hlast := plain_run (ws.map .block) (by intro o ho; obtain ⟨w, _, rfl⟩ := List.mem_map.1 ho; trivial) _ hs1
      simp only [List.map_cons, run]
      refine ⟨Nat.le_trans h3 h1, ?_⟩
      have e : (step runtime s (.block w)).fee = (finalize runtime s w).fee := rfl
      rcases h2 with h2 | h2
      · left
        have := hlast.2.1
        rw [e, h2] at h3
        omega
      · rcases h4 with h4 | h4
        · exact Or.inl h4
        · right
          rw [List.length_cons, Nat.pow_succ, Nat.pow_succ]
          rw [e] at h4
          calc ((run runtime (step runtime s (.block w)) (ws.map .block)).fee - 15) * (16 ^ ws.length * 16)
              = ((run runtime (step runtime s (.block w)) (ws.map .block)).fee - 15) * 16 ^ ws.length * 16 := by rw [Nat.mul_assoc]
            _ ≤ ((finalize runtime s w).fee - 15) * 15 ^ ws.length * 16 := Nat.mul_le_mul_right _ h4
            _ = ((finalize runtime s w).fee - 15) * 16 * 15 ^ ws.length := by
              rw [Nat.mul_assoc, Nat.mul_comm (15 ^ _), ← Nat.mul_assoc]
            _ ≤ (s.fee - 15) * 15 * 15 ^ ws.length := Nat.mul_le_mul_right _ h2
            _ = (s.fee - 15) * (15 ^ ws.length * 15) := by rw [Nat.mul_assoc, Nat.mul_comm 15]
  obtain ⟨_, h1⟩ := key ws hw s hs hf
  rcases h1 with h1 | h1
  · exact h1
  have hlow := (plain_run (ws.map .block) (by intro o ho; obtain ⟨w, _, rfl⟩ := List.mem_map.1 ho; trivial) s hs).2.1
  have h2 : (s.fee - 15) * 15 ^ ws.length < s.fee * 15 ^ ws.length :=
    Nat.mul_lt_mul_of_pos_right (by have := hs.2.1; omega) (Nat.pow_pos (by omega))
  have h3 : ((run runtime s (ws.map .block)).fee - 15) * 16 ^ ws.length < 499999985 * 16 ^ ws.length := by omega
  have h4 := Nat.lt_of_mul_lt_mul_right h3
  omega

/-- C135 (only root): calls by anybody else change nothing; root sets what it names. -/
theorem C135_root (s : State) (x : Nat) :
    step runtime s (.setFee false x) = s ∧ step runtime s (.setElasticity false x) = s ∧
    step runtime s (.setFee true x) = ⟨x, s.elasticity⟩ ∧ step runtime s (.setElasticity true x) = ⟨s.fee, x⟩ :=
  ⟨rfl, rfl, rfl, rfl⟩

/-- The bound on the price is needed: above `2^256 / 125000` an empty block no longer lowers it, however many follow. -/
theorem C135_stuck (n : Nat) :
    let s : State := ⟨2 ^ 240, 125000⟩
    Sound s ∧ run runtime s (List.replicate n (.block 0)) = s := by
  intro s
  refine ⟨⟨rfl, by decide +kernel, by decide +kernel⟩, ?_⟩
  have h : step runtime s (.block 0) = s := by decide +kernel
  induction n with
  | zero => rfl
  | succ n ih => rw [List.replicate_succ]; simp only [run]; rw [h]; exact ih

/-- Three blocks, full, half full and empty: 1 gwei, 1.125, 1.125, 0.984375; 40 quiet blocks later the least price. -/
example :
    (run runtime (genesis runtime) [.block 2000000000000]).fee = 1125000000 ∧
    (run runtime (genesis runtime) [.block 2000000000000, .block 1000000000000]).fee = 1125000000 ∧
    (run runtime (genesis runtime) [.block 2000000000000, .block 1000000000000, .block 0]).fee = 984375000 ∧
    (run runtime (genesis runtime) [.block 1500000000000]).fee = 1062500000 ∧
    1000000000 * 125000 < 2 ^ 256 ∧ 1000000000 * 15 ^ 40 ≤ 499999985 * 16 ^ 40 ∧
    (run runtime (genesis runtime) ((List.replicate 40 500000000000).map .block)).fee = 500000000 := by
  decide +kernel

end Verif.BaseFee
