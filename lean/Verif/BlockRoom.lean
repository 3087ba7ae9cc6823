import Verif.Basic

/-
Room in a block: which extrinsics fit, how much computing time the transactions of a block can take, and how much gas.

Of the repository: the limits of runtime/src/lib.rs:233-273, the gas of a block (1355-1363), that `CheckWeight` is one of the checks of
every extrinsic (1665-1674) and that Ethereum transactions are checked with their weight and length (1762-1786). Trusted base (libraries
of polkadot-v1.1.0, not part of the repository): the builder of limits, `CheckWeight` of frame-system, the conversion of gas to weight of
pallet-evm and `weight_per_gas` of fp-evm. The weight of an empty extrinsic and of an empty block are measured constants of the library
and parameters here.
-/

namespace Verif.BlockRoom

/-- The greatest `u64`. -/
def top : Nat := 2 ^ 64 - 1

/-- `Weight`: computing time in picoseconds and size of the proof (library, used at runtime/src/lib.rs:240-242). -/
structure Weight where
  time : Nat
  proof : Nat
deriving DecidableEq, Repr

/-- `saturating_add` (library). -/
def Weight.add (a b : Weight) : Weight := ⟨min (a.time + b.time) top, min (a.proof + b.proof) top⟩

/-- `saturating_sub` (library). -/
def Weight.sub (a b : Weight) : Weight := ⟨a.time - b.time, a.proof - b.proof⟩

/-- `checked_add` (library). -/
def Weight.cadd (a b : Weight) : Option Weight :=
  if a.time + b.time ≤ top ∧ a.proof + b.proof ≤ top then some ⟨a.time + b.time, a.proof + b.proof⟩ else none

/-- `min` (library). -/
def Weight.least (a b : Weight) : Weight := ⟨min a.time b.time, min a.proof b.proof⟩

/-- `any_gt` (library). -/
def Weight.anyGt (a b : Weight) : Bool := decide (b.time < a.time ∨ b.proof < a.proof)

/-- `Perbill * u64`, rounded to the nearest, downwards in the middle (library, used at runtime/src/lib.rs:257, 264). -/
def perbill (parts n : Nat) : Nat := (2 * parts * n + 999999999) / 2000000000

/-- `Perbill * Weight`. -/
def Weight.share (parts : Nat) (w : Weight) : Weight := ⟨perbill parts w.time, perbill parts w.proof⟩

/-- `DispatchClass` (library). -/
inductive Class where
  | normal
  | operational
  | mandatory
deriving DecidableEq, Repr

/-- `WeightsPerClass` (library). -/
structure PerClass where
  base : Weight
  maxExtrinsic : Option Weight
  maxTotal : Option Weight
  reserved : Option Weight

/-- `BlockWeights` and `BlockLength` (library). -/
structure Limits where
  maxBlock : Weight
  normal : PerClass
  operational : PerClass
  mandatory : PerClass
  maxLen : Class → Nat

/-- The limits of a class. -/
def Limits.get (l : Limits) : Class → PerClass
  | .normal => l.normal
  | .operational => l.operational
  | .mandatory => l.mandatory

/-- `MAXIMUM_BLOCK_WEIGHT`, runtime/src/lib.rs:240-242: two seconds, any size of proof. -/
def maximum : Weight := ⟨2 * 1000000000000, top⟩

/-- `NORMAL_DISPATCH_RATIO * MAXIMUM_BLOCK_WEIGHT`, runtime/src/lib.rs:238, 257: 75 percent. -/
def normalTotal : Weight := maximum.share 750000000

/-- `AVERAGE_ON_INITIALIZE_RATIO` of a block, runtime/src/lib.rs:235, 267: ten percent. -/
def initWeight : Weight := maximum.share 100000000

/-- The greatest weight of a single extrinsic as `build` computes it from the total of the class (library, runtime/src/lib.rs:267-268). -/
def single (total base : Weight) : Weight := (total.sub initWeight).sub base

/-- `RuntimeBlockWeights` and `RuntimeBlockLength`, runtime/src/lib.rs:249-268; `base` is `ExtrinsicBaseWeight` (254). What is not set
there is none for mandatory and zero for other extrinsics (`BlockWeights::builder`, library). -/
def limits (base : Weight) : Limits :=
  { maxBlock := maximum
    normal := ⟨base, some (single normalTotal base), some normalTotal, some ⟨0, 0⟩⟩
    operational := ⟨base, some (single maximum base), some maximum, some (maximum.sub normalTotal)⟩
    mandatory := ⟨base, none, none, none⟩
    maxLen := fun
      | .normal => perbill 750000000 (5 * 1024 * 1024)
      | _ => 5 * 1024 * 1024 }

/-- What has been used of the block being built: `BlockWeight` and `AllExtrinsicsLen` of frame-system (library, limits at
runtime/src/lib.rs:277-278). -/
structure State where
  normal : Weight := ⟨0, 0⟩
  operational : Weight := ⟨0, 0⟩
  mandatory : Weight := ⟨0, 0⟩
  len : Nat := 0
deriving DecidableEq, Repr

/-- The weight used by a class. -/
def State.get (s : State) : Class → Weight
  | .normal => s.normal
  | .operational => s.operational
  | .mandatory => s.mandatory

/-- Sets the weight used by a class. -/
def State.set (s : State) (c : Class) (w : Weight) : State :=
  match c with
  | .normal => { s with normal := w }
  | .operational => { s with operational := w }
  | .mandatory => { s with mandatory := w }

/-- `ConsumedWeight::total` (library). -/
def State.total (s : State) : Weight := (s.normal.add s.operational).add s.mandatory

/-- `check_block_length` of `CheckWeight` (library, runtime/src/lib.rs:1672): the length after the extrinsic. -/
def checkLength (l : Limits) (s : State) (c : Class) (len : Nat) : Option Nat :=
  let next := min (s.len + len % 2 ^ 32) (2 ^ 32 - 1)
  if l.maxLen c < next then none else some next

/-- `check_extrinsic_weight` of `CheckWeight` (library, runtime/src/lib.rs:1672). -/
def checkExtrinsic (l : Limits) (c : Class) (w : Weight) : Bool :=
  match (l.get c).maxExtrinsic with
  | some m => !(w.anyGt m)
  | none => true

/-- `calculate_consumed_weight` (library, runtime/src/lib.rs:1672): what is used with the extrinsic, if there is room. -/
def consume (l : Limits) (s : State) (c : Class) (w : Weight) : Option State :=
  let p := l.get c
  let e := w.add p.base
  let added : Option Weight :=
    if p.maxTotal.isNone && p.reserved.isNone then some ((s.get c).add e) else (s.get c).cadd e
  match added with
  | none => none
  | some u =>
    let s' := s.set c u
    if (match p.maxTotal with | some m => u.anyGt m | none => false) then none
    else if s'.total.anyGt l.maxBlock && (match p.reserved with | some r => u.anyGt r | none => false) then none
    else some s'

/-- `do_pre_dispatch` of `CheckWeight` (library, runtime/src/lib.rs:1672): done for every extrinsic of a block before it is executed. -/
def preDispatch (l : Limits) (s : State) (c : Class) (w : Weight) (len : Nat) : Option State :=
  match checkLength l s c len with
  | none => none
  | some n =>
    match consume l s c w with
    | none => none
    | some s' => if checkExtrinsic l c w then some { s' with len := n } else none

/-- `do_validate` of `CheckWeight` (library, runtime/src/lib.rs:1672), with which the pool decides whether to keep a transaction; nothing
is used of the next block yet. -/
def validate (l : Limits) (c : Class) (w : Weight) (len : Nat) : Bool :=
  (checkLength l {} c len).isSome && checkExtrinsic l c w

/-- `post_dispatch` of `CheckWeight` (library, runtime/src/lib.rs:1672): what was announced and not needed is given back. -/
def postDispatch (s : State) (c : Class) (w : Weight) (actual : Option Weight) : State :=
  match actual with
  | none => s
  | some a => s.set c ((s.get c).sub (w.sub (a.least w)))

/-- `BLOCK_GAS_LIMIT`, runtime/src/lib.rs:1354. -/
def blockGas : Nat := 75000000

/-- `WeightPerGas`, runtime/src/lib.rs:1356, 1362 (`weight_per_gas` of fp-evm, library): the time for normal extrinsics by the gas. -/
def weightPerGas : Nat := perbill 750000000 (1000000000 * 2000) / blockGas

/-- `GasLimitPovSizeRatio`, runtime/src/lib.rs:1355, 1360. -/
def povRatio : Nat := blockGas / (5 * 1024 * 1024)

/-- `FixedGasWeightMapping::gas_to_weight` without the base weight (library, runtime/src/lib.rs:1386): the weight announced for an
Ethereum transaction. -/
def gasWeight (base : Weight) (gas : Nat) : Weight := ⟨min (weightPerGas * gas) top - base.time, gas / povRatio⟩

/-- What happens while a block is built. -/
inductive Op where
  /-- weight of hooks, registered as mandatory (library; `base_block` at runtime/src/lib.rs:252 and the hooks of the pallets) -/
  | hook (w : Weight)
  /-- an extrinsic with the weight announced, its length and the weight it turns out to have -/
  | xt (c : Class) (w : Weight) (len : Nat) (actual : Option Weight)
  /-- an Ethereum transaction with its gas limit, the gas it uses, its length, and whether the difference is given back (library) -/
  | eth (limit used len : Nat) (refund : Bool)
deriving DecidableEq, Repr

/-- Whether the extrinsic gets into the block. -/
inductive Out where
  | included
  | refused
  | done
deriving DecidableEq, Repr

/-- An extrinsic: `CheckedExtrinsic::apply`, with `CheckWeight` before and after (runtime/src/lib.rs:1665-1682). One for which there is
no room is left out of the block. -/
def extrinsic (l : Limits) (s : State) (c : Class) (w : Weight) (len : Nat) (actual : Option Weight) : State × Out :=
  match preDispatch l s c w len with
  | none => (s, .refused)
  | some s' => (postDispatch s' c w actual, .included)

/-- One step of building a block, runtime/src/lib.rs:1696-1703, 1774-1786. -/
def step (base : Weight) (s : State) : Op → State × Out
  | .hook w => (s.set .mandatory (s.mandatory.add w), .done)
  | .xt c w len actual => extrinsic (limits base) s c w len actual
  | .eth limit used len refund =>
    extrinsic (limits base) s .normal (gasWeight base limit) len (if refund then some (gasWeight base used) else none)

/-- A block. -/
def run (base : Weight) (s : State) : List Op → State × List (Op × Out)
  | [] => (s, [])
  | op :: ops =>
    let t := step base s op
    let r := run base t.1 ops
    (r.1, (op, t.2) :: r.2)

/-! ### Reading a block -/

/-- The time which an extrinsic of the block takes: its own and that of an empty one, none for what was left out. -/
def timeOf (base : Weight) (c : Class) : Op × Out → Nat
  | (.xt c' w _ actual, .included) =>
    if c' = c then (match actual with | some a => min a.time w.time | none => w.time) + base.time else 0
  | (.eth limit used _ refund, .included) =>
    if c = .normal then
      (if refund then min (gasWeight base used).time (gasWeight base limit).time else (gasWeight base limit).time) + base.time
    else 0
  | _ => 0

/-- The gas which an Ethereum transaction of the block uses. -/
def gasOf : Op × Out → Nat
  | (.eth _ used _ _, .included) => used
  | _ => 0

/-- The length of an extrinsic of the block which is not a normal one. -/
def otherLen : Op × Out → Nat
  | (.xt c _ len _, .included) => if c = .normal then 0 else len
  | _ => 0

/-- The length of an extrinsic of the block. -/
def lenOf : Op × Out → Nat
  | (.xt _ _ len _, .included) => len
  | (.eth _ _ len _, .included) => len
  | _ => 0

/-- Sum over the block. -/
def sum (f : Op × Out → Nat) : List (Op × Out) → Nat
  | [] => 0
  | e :: l => f e + sum f l

theorem normalTotal_eq : normalTotal = ⟨1500000000000, 13835058055282163711⟩ := by decide +kernel
theorem initWeight_eq : initWeight = ⟨200000000000, 1844674407370955161⟩ := by decide +kernel
theorem maximum_eq : maximum = ⟨2000000000000, 18446744073709551615⟩ := by decide +kernel
theorem top_eq : top = 18446744073709551615 := by decide +kernel
theorem perGas_eq : weightPerGas = 20000 := by decide +kernel
theorem pov_eq : povRatio = 14 := by decide +kernel
theorem normalLen_eq : perbill 750000000 (5 * 1024 * 1024) = 3932160 := by decide +kernel


/-! ### What a step does -/

theorem consume_normal {base : Weight} {s s' : State} {w : Weight} (h : consume (limits base) s .normal w = some s') :
    s' = { s with normal := s'.normal } ∧ s'.normal.time = s.normal.time + (w.time + base.time) ∧
    s'.normal.time ≤ 1500000000000 ∧ (s'.normal.time + s.operational.time + s.mandatory.time ≤ 2000000000000 ∨ s'.normal.time = 0) := by
  simp only [consume, limits, Limits.get, State.get, State.set, Option.isNone_some, Bool.false_and, Bool.false_eq_true, if_false] at h
  cases hu : Weight.cadd s.normal (w.add base) with
  | none => rw [hu] at h; cases h
  | some u =>
    rw [hu] at h
    unfold Weight.cadd at hu
    split at hu
    · rename_i hle
      cases hu
      simp only [Weight.add, normalTotal_eq, maximum_eq, Weight.anyGt, State.total, top_eq] at h hle
      split at h
      · cases h
      · rename_i h1
        split at h
        · cases h
        · rename_i h2
          cases h
          simp only [decide_eq_true_eq, Bool.and_eq_true, not_and, not_or, Nat.not_lt] at h1 h2
          refine ⟨rfl, ?_, h1.1, ?_⟩
          · show s.normal.time + min (w.time + base.time) 18446744073709551615 = _
            omega
          · show s.normal.time + min (w.time + base.time) 18446744073709551615 + s.operational.time + s.mandatory.time ≤ _ ∨
              s.normal.time + min (w.time + base.time) 18446744073709551615 = 0
            by_cases hz : s.normal.time + min (w.time + base.time) 18446744073709551615 = 0
            · exact Or.inr hz
            · left
              refine Classical.byContradiction fun hc => ?_
              have := h2 (by left; omega)
              omega
    · cases hu

theorem consume_operational {base : Weight} {s s' : State} {w : Weight} (h : consume (limits base) s .operational w = some s') :
    s' = { s with operational := s'.operational } ∧ s'.operational.time = s.operational.time + (w.time + base.time) ∧
    s'.operational.time ≤ 2000000000000 ∧
    (s.normal.time + s'.operational.time + s.mandatory.time ≤ 2000000000000 ∨ s'.operational.time ≤ 500000000000) := by
  simp only [consume, limits, Limits.get, State.get, State.set, Option.isNone_some, Bool.false_and, Bool.false_eq_true, if_false] at h
  cases hu : Weight.cadd s.operational (w.add base) with
  | none => rw [hu] at h; cases h
  | some u =>
    rw [hu] at h
    unfold Weight.cadd at hu
    split at hu
    · rename_i hle
      cases hu
      simp only [Weight.add, normalTotal_eq, maximum_eq, Weight.anyGt, State.total, top_eq, Weight.sub] at h hle
      split at h
      · cases h
      · rename_i h1
        split at h
        · cases h
        · rename_i h2
          cases h
          simp only [decide_eq_true_eq, Bool.and_eq_true, not_and, not_or, Nat.not_lt] at h1 h2
          refine ⟨rfl, ?_, h1.1, ?_⟩
          · show s.operational.time + min (w.time + base.time) 18446744073709551615 = _
            omega
          · show s.normal.time + (s.operational.time + min (w.time + base.time) 18446744073709551615) + s.mandatory.time ≤ _ ∨
              s.operational.time + min (w.time + base.time) 18446744073709551615 ≤ _
            by_cases hz : s.operational.time + min (w.time + base.time) 18446744073709551615 ≤ 500000000000
            · exact Or.inr hz
            · left
              refine Classical.byContradiction fun hc => ?_
              have := h2 (by left; omega)
              omega
    · cases hu

theorem consume_mandatory {base : Weight} {s s' : State} {w : Weight} (h : consume (limits base) s .mandatory w = some s') :
    s' = { s with mandatory := s'.mandatory } := by
  simp only [consume, limits, Limits.get, State.get, State.set, Option.isNone_none, Bool.and_true, if_true] at h
  simp only [Bool.false_eq_true, if_false, Bool.and_false] at h
  cases h
  rfl

theorem preDispatch_some {l : Limits} {s s' : State} {c : Class} {w : Weight} {len : Nat} (h : preDispatch l s c w len = some s') :
    ∃ n t, checkLength l s c len = some n ∧ consume l s c w = some t ∧ checkExtrinsic l c w = true ∧ s' = { t with len := n } := by
  unfold preDispatch at h
  split at h
  · cases h
  · rename_i n hn
    split at h
    · cases h
    · rename_i t ht
      split at h
      · rename_i hc
        cases h
        exact ⟨n, t, hn, ht, hc, rfl⟩
      · cases h

/-- What the block has used in time, and that the parts of the transactions stay within their limits. -/
structure Inv (base : Weight) (s : State) (tr : List (Op × Out)) : Prop where
  normal : s.normal.time = sum (timeOf base .normal) tr
  operational : s.operational.time = sum (timeOf base .operational) tr
  normal_le : s.normal.time ≤ 1500000000000
  both_le : s.normal.time + s.operational.time ≤ 2000000000000
  len_le : s.len ≤ 3932160 + sum otherLen tr
  len_max : s.len ≤ 5242880
  len : (∀ e ∈ tr, lenOf e < 2 ^ 32) → s.len = sum lenOf tr

theorem sum_snoc (f : Op × Out → Nat) (tr : List (Op × Out)) (e : Op × Out) : sum f (tr ++ [e]) = sum f tr + f e := by
  induction tr with
  | nil => simp [sum]
  | cons x l ih => simp only [List.cons_append, sum, ih]; omega

theorem checkLength_some {base : Weight} {s : State} {c : Class} {len n : Nat} (h : checkLength (limits base) s c len = some n) :
    n = s.len + len % 2 ^ 32 ∧ n ≤ 5242880 ∧ (c = .normal → n ≤ 3932160) := by
  unfold checkLength at h
  dsimp only at h
  split at h
  · cases h
  · rename_i hl
    cases h
    cases c <;> simp only [limits, normalLen_eq] at hl <;> refine ⟨by omega, by omega, fun hc => ?_⟩
    · omega
    · cases hc
    · cases hc

/-- An extrinsic that gets in keeps the invariant. -/
theorem extrinsic_inv {base : Weight} {s : State} {tr : List (Op × Out)} (hi : Inv base s tr) (c : Class) (w : Weight) (len : Nat)
    (actual : Option Weight) (op : Op)
    (h1 : ∀ c', timeOf base c' (op, .included) =
      if c = c' then (match actual with | some a => min a.time w.time | none => w.time) + base.time else 0)
    (h2 : otherLen (op, .included) = if c = .normal then 0 else len) (h3 : lenOf (op, .included) = len)
    (h0 : ∀ c', timeOf base c' (op, .refused) = 0) (h4 : otherLen (op, .refused) = 0) (h5 : lenOf (op, .refused) = 0) :
    Inv base (extrinsic (limits base) s c w len actual).1 (tr ++ [(op, (extrinsic (limits base) s c w len actual).2)]) := by
  unfold extrinsic
  cases hp : preDispatch (limits base) s c w len with
  | none =>
    refine ⟨?_, ?_, hi.normal_le, hi.both_le, ?_, hi.len_max, ?_⟩
    · rw [sum_snoc, h0]; exact hi.normal
    · rw [sum_snoc, h0]; exact hi.operational
    · rw [sum_snoc, h4]; exact hi.len_le
    · intro h
      rw [sum_snoc, h5]
      exact hi.len fun e he => h e (List.mem_append_left _ he)
  | some s' =>
    obtain ⟨n, t, g1, g2, g3, rfl⟩ := preDispatch_some hp
    obtain ⟨k1, k2, k3⟩ := checkLength_some g1
    have hlen : ({ t with len := n } : State).len = n := rfl
    have hpost : ∀ x : State, (postDispatch x c w actual).len = x.len := by
      intro x
      unfold postDispatch
      cases actual with
      | none => rfl
      | some a => cases c <;> rfl
    have hl1 : (postDispatch { t with len := n } c w actual).len ≤ 3932160 + sum otherLen (tr ++ [(op, .included)]) := by
      rw [hpost, sum_snoc, h2]
      show n ≤ _
      have := hi.len_le
      have := Nat.mod_le len (2 ^ 32)
      by_cases hc : c = .normal
      · rw [if_pos hc]; have := k3 hc; omega
      · rw [if_neg hc]; omega
    have hl2 : (postDispatch { t with len := n } c w actual).len ≤ 5242880 := by rw [hpost]; exact k2
    have hl3 : (∀ e ∈ tr ++ [(op, Out.included)], lenOf e < 2 ^ 32) →
        (postDispatch { t with len := n } c w actual).len = sum lenOf (tr ++ [(op, .included)]) := by
      intro h
      rw [hpost, sum_snoc, h3]
      show n = _
      have e1 := hi.len fun e he => h e (List.mem_append_left _ he)
      have e2 := h (op, .included) (List.mem_append_right _ (List.mem_singleton.2 rfl))
      rw [h3] at e2
      rw [k1, e1, Nat.mod_eq_of_lt e2]
    have ha := hi.normal
    have hb := hi.operational
    have hn := hi.normal_le
    have hbb := hi.both_le
    cases c with
    | normal =>
      obtain ⟨q1, q2, q3, q4⟩ := consume_normal g2
      have o1 : t.operational = s.operational := by rw [q1]
      refine ⟨?_, ?_, ?_, ?_, hl1, hl2, hl3⟩
      all_goals (try rw [sum_snoc, h1])
      all_goals
        cases actual with
        | none => simp only [postDispatch, if_true, reduceCtorEq, if_false, o1]; omega
        | some a => simp only [postDispatch, State.set, State.get, Weight.sub, Weight.least, if_true, reduceCtorEq, if_false, o1]; omega
    | operational =>
      obtain ⟨q1, q2, q3, q4⟩ := consume_operational g2
      have o1 : t.normal = s.normal := by rw [q1]
      refine ⟨?_, ?_, ?_, ?_, hl1, hl2, hl3⟩
      all_goals (try rw [sum_snoc, h1])
      all_goals
        cases actual with
        | none => simp only [postDispatch, if_true, reduceCtorEq, if_false, o1]; omega
        | some a => simp only [postDispatch, State.set, State.get, Weight.sub, Weight.least, if_true, reduceCtorEq, if_false, o1]; omega
    | mandatory =>
      have q1 := consume_mandatory g2
      have o1 : t.normal = s.normal := by rw [q1]
      have o2 : t.operational = s.operational := by rw [q1]
      refine ⟨?_, ?_, ?_, ?_, hl1, hl2, hl3⟩
      all_goals (try rw [sum_snoc, h1])
      all_goals
        cases actual with
        | none => simp only [postDispatch, reduceCtorEq, if_false, o1, o2]; omega
        | some a => simp only [postDispatch, State.set, State.get, Weight.sub, Weight.least, reduceCtorEq, if_false, o1, o2]; omega

theorem step_inv {base : Weight} {s : State} {tr : List (Op × Out)} (hi : Inv base s tr) (op : Op) :
    Inv base (step base s op).1 (tr ++ [(op, (step base s op).2)]) := by
  cases op with
  | hook w =>
    refine ⟨?_, ?_, hi.normal_le, hi.both_le, ?_, hi.len_max, ?_⟩
    · rw [sum_snoc]; exact hi.normal
    · rw [sum_snoc]; exact hi.operational
    · rw [sum_snoc]; exact hi.len_le
    · intro h
      rw [sum_snoc]
      exact hi.len fun e he => h e (List.mem_append_left _ he)
  | xt c w len actual =>
    exact extrinsic_inv hi c w len actual _ (fun _ => rfl) rfl rfl (fun _ => rfl) rfl rfl
  | eth limit used len refund =>
    refine extrinsic_inv hi .normal (gasWeight base limit) len _ _ (fun c' => ?_) rfl rfl (fun _ => rfl) rfl rfl
    simp only [timeOf]
    cases c' <;> cases refund <;> simp

theorem run_inv (base : Weight) (ops : List Op) : ∀ (s : State) (tr : List (Op × Out)), Inv base s tr →
    Inv base (run base s ops).1 (tr ++ (run base s ops).2) := by
  induction ops with
  | nil => intro s tr h; rw [run, List.append_nil]; exact h
  | cons op ops ih =>
    intro s tr h
    have := ih _ _ (step_inv h op)
    rw [List.append_assoc] at this
    exact this

theorem inv_at (base : Weight) (ops : List Op) : Inv base (run base {} ops).1 (run base {} ops).2 := by
  have := run_inv base ops {} [] ⟨rfl, rfl, by decide, by decide, by decide, by decide, fun _ => rfl⟩
  rwa [List.nil_append] at this

/-! ### C140 -/

/-- C140. In every block the normal transactions together take at most one and a half seconds, all transactions together at most two
seconds, whatever the hooks take; and the block is at most five megabytes long. -/
theorem C140_limits (base : Weight) (ops : List Op) :
    let tr := (run base {} ops).2
    sum (timeOf base .normal) tr ≤ 1500000000000 ∧
    sum (timeOf base .normal) tr + sum (timeOf base .operational) tr ≤ 2000000000000 ∧
    ((∀ e ∈ tr, lenOf e < 2 ^ 32) → sum lenOf tr ≤ 5 * 1024 * 1024) := by
  have h := inv_at base ops
  refine ⟨?_, ?_, fun hl => ?_⟩
  · rw [← h.normal]; exact h.normal_le
  · rw [← h.normal, ← h.operational]; exact h.both_le
  · rw [← h.len hl]; exact h.len_max

/-- The base weight is small, as the measured constant of the library is (about a ten-thousandth of a second). -/
structure Small (base : Weight) : Prop where
  time : base.time ≤ 100000000000
  proof : base.proof ≤ 1000000000000

theorem consume_eq {l : Limits} {s : State} {c : Class} {w u m r : Weight} (hm : (l.get c).maxTotal = some m)
    (hr : (l.get c).reserved = some r) (ha : (s.get c).cadd (w.add (l.get c).base) = some u) (h1 : u.anyGt m = false)
    (h2 : (s.set c u).total.anyGt l.maxBlock = false ∨ u.anyGt r = false) : consume l s c w = some (s.set c u) := by
  unfold consume
  simp only [hm, hr, ha, h1, Option.isNone_some, Bool.false_and, Bool.false_eq_true, if_false]
  rcases h2 with h2 | h2 <;> simp [h2]

/-- C140. What the pool keeps fits into a block: a transaction it accepts gets into every block of which the hooks have taken at most
ten percent and nothing else has been put into yet. What the pool refuses, never gets into any block. -/
theorem C140_pool {base : Weight} (hb : Small base) (c : Class) (hc : c ≠ .mandatory) (w : Weight) (len : Nat) :
    (validate (limits base) c w len = true → ∀ m : Weight, m.time ≤ 200000000000 → m.proof ≤ 1844674407370955161 →
      (preDispatch (limits base) { mandatory := m } c w len).isSome = true) ∧
    (validate (limits base) c w len = false → ∀ s, preDispatch (limits base) s c w len = none) := by
  refine ⟨fun hv m hm hp => ?_, fun hv s => ?_⟩
  · unfold validate at hv
    rw [Bool.and_eq_true] at hv
    obtain ⟨v1, v2⟩ := hv
    have ht := hb.time
    have hpr := hb.proof
    obtain ⟨n, hn⟩ := Option.isSome_iff_exists.1 v1
    have hn' : checkLength (limits base) { mandatory := m } c len = some n := hn
    have hcons : ∃ t, consume (limits base) { mandatory := m } c w = some t := by
      cases c with
      | mandatory => exact absurd rfl hc
      | normal =>
        simp only [checkExtrinsic, limits, Limits.get, single, Weight.sub, Weight.anyGt, normalTotal_eq, initWeight_eq, Bool.not_eq_true',
          decide_eq_false_iff_not, not_or, Nat.not_lt] at v2
        have e : Weight.cadd ⟨0, 0⟩ (w.add base) = some ⟨w.time + base.time, w.proof + base.proof⟩ := by
          have ha : w.add base = ⟨w.time + base.time, w.proof + base.proof⟩ := by
            simp only [Weight.add, top_eq, Weight.mk.injEq]; omega
          rw [ha]
          unfold Weight.cadd
          rw [if_pos (by simp only [top_eq]; omega)]
          simp
        refine ⟨_, consume_eq rfl rfl e ?_ (Or.inl ?_)⟩
        · simp only [Weight.anyGt, normalTotal_eq, decide_eq_false_iff_not]; omega
        · simp only [State.total, Weight.add, Weight.anyGt, maximum_eq, top_eq, decide_eq_false_iff_not, State.set, State.total, Weight.add, limits, top_eq]; omega
      | operational =>
        simp only [checkExtrinsic, limits, Limits.get, single, Weight.sub, Weight.anyGt, maximum_eq, initWeight_eq, Bool.not_eq_true',
          decide_eq_false_iff_not, not_or, Nat.not_lt] at v2
        have e : Weight.cadd ⟨0, 0⟩ (w.add base) = some ⟨w.time + base.time, w.proof + base.proof⟩ := by
          have ha : w.add base = ⟨w.time + base.time, w.proof + base.proof⟩ := by
            simp only [Weight.add, top_eq, Weight.mk.injEq]; omega
          rw [ha]
          unfold Weight.cadd
          rw [if_pos (by simp only [top_eq]; omega)]
          simp
        refine ⟨_, consume_eq rfl rfl e ?_ (Or.inl ?_)⟩
        · simp only [Weight.anyGt, maximum_eq, decide_eq_false_iff_not]; omega
        · simp only [State.total, Weight.add, Weight.anyGt, maximum_eq, top_eq, decide_eq_false_iff_not, State.set, State.total, Weight.add, limits, top_eq]; omega
    obtain ⟨t, ht'⟩ := hcons
    unfold preDispatch
    rw [hn', ht']
    dsimp only
    rw [if_pos v2]
    rfl
  · cases hp : preDispatch (limits base) s c w len with
    | none => rfl
    | some s' =>
      obtain ⟨n, t, g1, -, g3, -⟩ := preDispatch_some hp
      have hl : (checkLength (limits base) {} c len).isSome = true := by
        obtain ⟨k1, k2, k3⟩ := checkLength_some g1
        unfold checkLength
        dsimp only
        rw [if_neg]
        · rfl
        · show ¬ (limits base).maxLen c < min (0 + len % 2 ^ 32) (2 ^ 32 - 1)
          cases c with
          | normal => have := k3 rfl; simp only [limits, normalLen_eq]; omega
          | operational => simp only [limits]; omega
          | mandatory => simp only [limits]; omega
      unfold validate at hv
      rw [hl, g3] at hv
      cases hv

/-- C140. A quarter of every block is kept for operational calls: however full a block is with normal transactions and hooks, an
operational call gets in if with it the operational calls of the block take at most half a second and (together with what is
mandatory) at most a quarter of the length. -/
theorem C140_operational {base : Weight} (hb : Small base) (ops : List Op) (w : Weight) (len : Nat) :
    let s := (run base {} ops).1
    let tr := (run base {} ops).2
    sum (timeOf base .operational) tr + (w.time + base.time) ≤ 500000000000 →
    s.operational.proof + (w.proof + base.proof) ≤ 4611686018427387904 →
    sum otherLen tr + len ≤ 1310720 →
    (preDispatch (limits base) s .operational w len).isSome = true := by
  intro s tr h1 h2 h3
  have hi := inv_at base ops
  have ht := hb.time
  have hpr := hb.proof
  have h1' : s.operational.time + (w.time + base.time) ≤ 500000000000 := by rw [hi.operational]; exact h1
  have hl := hi.len_le
  have hle : s.len ≤ 3932160 + sum otherLen tr := hl
  have hm := Nat.mod_le len (2 ^ 32)
  have g1 : checkLength (limits base) s .operational len = some (min (s.len + len % 2 ^ 32) (2 ^ 32 - 1)) := by
    unfold checkLength
    dsimp only
    rw [if_neg]
    show ¬ 5 * 1024 * 1024 < _
    omega
  have g2 : ∃ t, consume (limits base) s .operational w = some t := by
    have e : Weight.cadd s.operational (w.add base) =
        some ⟨s.operational.time + (w.time + base.time), s.operational.proof + (w.proof + base.proof)⟩ := by
      have ha : w.add base = ⟨w.time + base.time, w.proof + base.proof⟩ := by
        simp only [Weight.add, top_eq, Weight.mk.injEq]; omega
      rw [ha]
      unfold Weight.cadd
      rw [if_pos (by simp only [top_eq]; omega)]
    refine ⟨_, consume_eq rfl rfl e ?_ (Or.inr ?_)⟩
    · simp only [Weight.anyGt, maximum_eq, decide_eq_false_iff_not]; omega
    · simp only [Weight.sub, Weight.anyGt, maximum_eq, normalTotal_eq, decide_eq_false_iff_not, State.set, State.total, Weight.add, limits, top_eq]; omega
  obtain ⟨t, g2⟩ := g2
  have g3 : checkExtrinsic (limits base) .operational w = true := by
    simp only [checkExtrinsic, limits, Limits.get, single, Weight.sub, Weight.anyGt, maximum_eq, initWeight_eq, Bool.not_eq_true',
      decide_eq_false_iff_not, not_or, Nat.not_lt]
    omega
  unfold preDispatch
  rw [g1, g2]
  dsimp only
  rw [if_pos g3]
  rfl

/-- C140. What is mandatory (the inherents with which every block begins) gets in whatever it takes, if the block does not become too
long. -/
theorem C140_mandatory (base : Weight) (s : State) (w : Weight) (len : Nat) (h : s.len + len ≤ 5 * 1024 * 1024) :
    (preDispatch (limits base) s .mandatory w len).isSome = true := by
  have hm := Nat.mod_le len (2 ^ 32)
  have g1 : checkLength (limits base) s .mandatory len = some (min (s.len + len % 2 ^ 32) (2 ^ 32 - 1)) := by
    unfold checkLength
    dsimp only
    rw [if_neg]
    show ¬ 5 * 1024 * 1024 < _
    omega
  have g2 : ∃ t, consume (limits base) s .mandatory w = some t := by
    simp only [consume, limits, Limits.get, State.get, State.set, Option.isNone_none, Bool.and_true, if_true]
    simp
  obtain ⟨t, g2⟩ := g2
  unfold preDispatch
  rw [g1, g2]
  dsimp only
  rw [if_pos (show checkExtrinsic (limits base) .mandatory w = true from rfl)]
  rfl

/-! ### Gas -/

theorem eth_included {base : Weight} {s : State} {limit used len : Nat} {refund : Bool}
    (h : (step base s (.eth limit used len refund)).2 = .included) :
    (gasWeight base limit).time ≤ 1300000000000 - base.time := by
  simp only [step, extrinsic] at h
  cases hp : preDispatch (limits base) s .normal (gasWeight base limit) len with
  | none => rw [hp] at h; cases h
  | some s' =>
    obtain ⟨n, t, -, -, g3, -⟩ := preDispatch_some hp
    simp only [checkExtrinsic, limits, Limits.get, single, Weight.sub, Weight.anyGt, normalTotal_eq, initWeight_eq, Bool.not_eq_true',
      decide_eq_false_iff_not, not_or, Nat.not_lt] at g3
    omega

theorem gas_time {base : Weight} (ops : List Op) : ∀ (s : State),
    (∀ limit used len refund, Op.eth limit used len refund ∈ ops → used ≤ limit) → base.time ≤ 100000000000 →
    20000 * sum gasOf (run base s ops).2 ≤ sum (timeOf base .normal) (run base s ops).2 := by
  induction ops with
  | nil => intro s _ _; exact Nat.le_refl _
  | cons op ops ih =>
    intro s hu hb
    have h := ih (step base s op).1 (fun a b c d hm => hu a b c d (List.mem_cons_of_mem _ hm)) hb
    simp only [run, sum]
    have : 20000 * gasOf (op, (step base s op).2) ≤ timeOf base .normal (op, (step base s op).2) := by
      cases op with
      | hook w => exact Nat.zero_le _
      | xt c w len actual => exact Nat.zero_le _
      | eth limit used len refund =>
        cases ho : (step base s (.eth limit used len refund)).2 with
        | refused => exact Nat.zero_le _
        | done => exact Nat.zero_le _
        | included =>
          have hw := eth_included ho
          have hlu := hu limit used len refund List.mem_cons_self
          simp only [gasOf, timeOf, if_true, gasWeight, perGas_eq, top_eq] at hw ⊢
          cases refund <;> simp only [Bool.false_eq_true, if_false, if_true] <;> omega
    omega

/-- C140. The Ethereum transactions of a block together never use more gas than the 75 million which the runtime declares as the limit
of a block. -/
theorem C140_gas {base : Weight} (hb : Small base) (ops : List Op)
    (hu : ∀ limit used len refund, Op.eth limit used len refund ∈ ops → used ≤ limit) :
    sum gasOf (run base {} ops).2 ≤ blockGas := by
  have h1 := gas_time ops {} hu hb.time
  have h2 := (C140_limits base ops).1
  show _ ≤ 75000000
  omega

/-- C140. The room for a single one is less: the pool keeps an Ethereum transaction exactly if its gas limit is at most 65 million and
it is not too long. -/
theorem C140_gas_single {base : Weight} (hb : Small base) (gas len : Nat) (hg : gas < 2 ^ 64) (hlen : len < 2 ^ 32) :
    validate (limits base) .normal (gasWeight base gas) len = true ↔ gas ≤ 65000000 ∧ len ≤ 3932160 := by
  have ht := hb.time
  have hpr := hb.proof
  have h1 : (checkLength (limits base) {} .normal len).isSome = true ↔ len ≤ 3932160 := by
    unfold checkLength
    simp only [limits, normalLen_eq, Nat.zero_add, Nat.mod_eq_of_lt hlen]
    split
    · simp; omega
    · simp; omega
  have h2 : checkExtrinsic (limits base) .normal (gasWeight base gas) = true ↔ gas ≤ 65000000 := by
    simp only [checkExtrinsic, limits, Limits.get, single, Weight.sub, Weight.anyGt, normalTotal_eq, initWeight_eq, Bool.not_eq_true',
      decide_eq_false_iff_not, not_or, Nat.not_lt, gasWeight, perGas_eq, pov_eq, top_eq]
    omega
  unfold validate
  rw [Bool.and_eq_true, h1, h2, And.comm]

/-- C140, finding: an Ethereum transaction whose gas limit is between 65 and 75 million, hence within the limit of a block that the
runtime declares and contracts are told, is refused by the pool and gets into no block. -/
theorem C140_gas_gap {base : Weight} (hb : Small base) (gas len : Nat) (h1 : 65000000 < gas) (h2 : gas ≤ blockGas) (hlen : len < 2 ^ 32) :
    validate (limits base) .normal (gasWeight base gas) len = false ∧
    ∀ s used refund, (step base s (.eth gas used len refund)).2 = .refused := by
  have hg : gas < 2 ^ 64 := Nat.lt_of_le_of_lt h2 (by decide)
  have hv : validate (limits base) .normal (gasWeight base gas) len = false := by
    cases hx : validate (limits base) .normal (gasWeight base gas) len with
    | false => rfl
    | true => have := ((C140_gas_single hb gas len hg hlen).1 hx).1; omega
  refine ⟨hv, fun s used refund => ?_⟩
  simp only [step, extrinsic, (C140_pool hb .normal (by decide) (gasWeight base gas) len).2 hv s]

/-! ### Example -/

/-- The base weight of an extrinsic as measured: about a tenth of a millisecond. -/
def exBase : Weight := ⟨100000000, 0⟩

theorem exSmall : Small exBase := ⟨by decide, by decide⟩

/-- The hooks take a tenth of a second, an Ethereum transaction uses 30 of its 60 million gas and gets the rest back, another one finds
no room for 60 million, one of 30 million does; then there is room for an operational call of 0.4 seconds, but for no second one. -/
def exOps : List Op :=
  [.hook ⟨100000000000, 5⟩, .xt .mandatory ⟨1000, 0⟩ 20 none, .eth 60000000 30000000 900 true, .eth 60000000 50000000 900 true,
   .eth 30000000 30000000 900 false, .xt .normal ⟨400000000000, 7⟩ 100 none, .hook ⟨900000000000, 0⟩, .xt .operational ⟨400000000000, 3⟩ 200 none,
   .xt .operational ⟨400000000000, 3⟩ 200 none, .xt .normal ⟨1, 1⟩ 1 none]

example :
    let r := run exBase {} exOps
    r.2.map Prod.snd = [.done, .included, .included, .refused, .included, .refused, .done, .included, .refused, .refused] ∧
    sum gasOf r.2 = 60000000 ∧ sum (timeOf exBase .normal) r.2 = 1200000000000 ∧ sum (timeOf exBase .operational) r.2 = 400100000000 ∧
    sum lenOf r.2 = 2020 ∧ sum otherLen r.2 = 220 := by
  decide +kernel

/-- The hypotheses are met. -/
example := C140_gas exSmall exOps (by intro a b c d h; simp [exOps] at h; omega)
example : (preDispatch (limits exBase) (run exBase {} (exOps.take 7)).1 .operational ⟨400000000000, 3⟩ 200).isSome = true :=
  C140_operational exSmall (exOps.take 7) ⟨400000000000, 3⟩ 200 (by decide +kernel) (by decide +kernel) (by decide +kernel)
example := (C140_pool exSmall .normal (by decide) ⟨1200000000000, 3⟩ 200).1 (by decide +kernel) ⟨1000, 0⟩ (by decide) (by decide)
example := C140_gas_gap exSmall 70000000 900 (by decide) (by decide) (by decide)

end Verif.BlockRoom
