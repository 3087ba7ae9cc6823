import Verif.SessionProperties
import Verif.Bytes

/-
Who made a block, for the era points of the staking pallet and for the Ethereum view of the block (property C143):
`FindAuthorEvm` (runtime/src/lib.rs:1365-1382), the authorship pallet as configured (lib.rs:567-570), and the order of
the hooks (lib.rs:1551-1624, 1696-1703): the author is noted before the session pallet changes the validators, the
Ethereum view is made after that.

Parameters: the index of the author in the digest (`pallet_babe`, upstream) and the table of the paired addresses
(`EthAddresses` of the EVM fork, not in the repository; zero: not paired). Accounts are 32-byte strings as numbers,
addresses 20-byte strings as numbers.
-/

namespace Verif.BlockAuthor

open Verif Session

/-- `FindAccountFromAuthorIndex` (upstream `pallet_session`), runtime/src/lib.rs:568, 1371. -/
def findAccount (validators : List AccId) (idx : Option Nat) : Option AccId := idx.bind fun i => validators[i]?

/-- Bytes 4 to 24 of an account, lib.rs:1375. -/
def slice (x : AccId) : Nat := ofBE (((toBE 32 x).drop 4).take 20)

/-- `FindAuthorEvm::find_author`, lib.rs:1367-1381. -/
def findAuthorEvm (validators : List AccId) (eth : AccId → Nat) (idx : Option Nat) : Option Nat :=
  (findAccount validators idx).bind fun x => if eth x = 0 then some (slice x) else some (eth x)

/-- `on_initialize` of the authorship pallet (upstream) with `Staking` as handler, lib.rs:567-570: `note_author`. -/
def noteAuthor (s : State) (idx : Option Nat) : State :=
  match findAccount s.validators idx with
  | some v => Session.author s v
  | none => s

/-- The hooks at the begin of a block, in the order of lib.rs:1564-1568: the author is noted, then the session pallet
rotates if the session is over. -/
def begin_ (cfg : Cfg) (s : State) (idx : Option Nat) (rot : Option (List AccId × (AccId → Bool))) : State :=
  match rot with
  | some (order, keys) => rotate cfg (noteAuthor s idx) order keys
  | none => noteAuthor s idx

/-- The beneficiary in the Ethereum view of the block, asked for when transactions are executed and when the block is
closed (lib.rs:1398, 2157-2159). -/
def beneficiary (cfg : Cfg) (s : State) (eth : AccId → Nat) (idx : Option Nat) (rot : Option (List AccId × (AccId → Bool))) : Option Nat :=
  findAuthorEvm (begin_ cfg s idx rot).validators eth idx

/-! ### The address of an account -/

theorem toLE_take (k : Nat) : ∀ (n x : Nat), k ≤ n → (toLE n x).take k = toLE k x := by
  induction k with
  | zero => intro n x _; rfl
  | succ k ih =>
    intro n x h
    obtain ⟨m, rfl⟩ : ∃ m, n = m + 1 := ⟨n - 1, by omega⟩
    simp only [toLE, List.take_succ_cons]
    rw [ih m _ (by omega)]

theorem toLE_drop (k : Nat) : ∀ (n x : Nat), k ≤ n → (toLE n x).drop k = toLE (n - k) (x / 256 ^ k) := by
  induction k with
  | zero => intro n x _; simp
  | succ k ih =>
    intro n x h
    obtain ⟨m, rfl⟩ : ∃ m, n = m + 1 := ⟨n - 1, by omega⟩
    simp only [toLE, List.drop_succ_cons]
    rw [ih m _ (by omega), Nat.div_div_eq_div_mul, Nat.pow_succ, Nat.mul_comm 256, show m + 1 - (k + 1) = m - k by omega]

theorem ofLE_mod (n : Nat) : ∀ x, ofLE (toLE n x) = x % 256 ^ n := by
  induction n with
  | zero => intro x; simp [toLE, ofLE, Nat.mod_one]
  | succ n ih =>
    intro x
    simp only [toLE, ofLE]
    rw [ih, Nat.pow_succ, Nat.mul_comm (256 ^ n), Nat.mod_mul]

theorem slice_eq (x : AccId) : slice x = x / 256 ^ 8 % 256 ^ 20 := by
  unfold slice ofBE toBE
  rw [List.drop_reverse, List.take_reverse, List.reverse_reverse]
  simp only [toLE_length, List.length_take]
  rw [toLE_take _ _ _ (by omega), show 32 - 4 = 28 from rfl, show min 28 32 - 20 = 8 from rfl, toLE_drop _ _ _ (by omega), show 28 - 8 = 20 from rfl, ofLE_mod]

/-- The address shown for an account: the one it is paired with, else 20 bytes out of the middle of the account. -/
def address (eth : AccId → Nat) (x : AccId) : Nat := if eth x = 0 then x / 256 ^ 8 % 256 ^ 20 else eth x

theorem findAuthorEvm_eq (vs : List AccId) (eth : AccId → Nat) (idx : Option Nat) :
    findAuthorEvm vs eth idx = (findAccount vs idx).map (address eth) := by
  unfold findAuthorEvm
  cases findAccount vs idx with
  | none => rfl
  | some x =>
    simp only [Option.bind_some, Option.map_some, address, slice_eq]
    split <;> rfl

/-! ### Points -/

theorem points_author (s : State) (e : Nat) (b : Bool) (ha : s.active = some (e, b)) (v w : AccId) :
    pointsOf (Session.author s v) e w = pointsOf s e w + if w = v then 20 else 0 := by
  unfold Session.author
  rw [ha]
  simp only [pointsOf, Delegation.addPoints, FMap.get_insert_self, Option.getD_some, FMap.get_insert]
  split
  · rename_i h; subst h; rfl
  · rfl

/-- C143, for blocks in which the session does not change. Full statement: in every block the beneficiary of the Ethereum
view is the address of the validator which gets the points of the block. In a block without a change of session there is
a beneficiary if and only if some validator in charge gets points; this is one validator, it gets 20 points, nobody else
gets any, and the beneficiary is its address. Missing: blocks in which the session changes, see `C143_rotation_differs`. -/
theorem C143_same_partial (cfg : Cfg) (s : State) (eth : AccId → Nat) (idx : Option Nat) (e : Nat) (b : Bool) (ha : s.active = some (e, b)) :
    let t := begin_ cfg s idx none
    (∀ p, beneficiary cfg s eth idx none = some p →
      ∃ v ∈ s.validators, p = address eth v ∧ pointsOf t e v = pointsOf s e v + 20 ∧ ∀ w, w ≠ v → pointsOf t e w = pointsOf s e w) ∧
    (beneficiary cfg s eth idx none = none → ∀ w, pointsOf t e w = pointsOf s e w) := by
  intro t
  have hv : t.validators = s.validators := by
    show (noteAuthor s idx).validators = _
    unfold noteAuthor Session.author
    split
    · split <;> rfl
    · rfl
  have hb : beneficiary cfg s eth idx none = (findAccount s.validators idx).map (address eth) := by
    show findAuthorEvm t.validators eth idx = _
    rw [findAuthorEvm_eq, hv]
  have ht : t = noteAuthor s idx := rfl
  rw [hb, ht]
  unfold noteAuthor
  cases hf : findAccount s.validators idx with
  | none => exact ⟨fun p h => (nomatch h), fun _ _ => rfl⟩
  | some v =>
    refine ⟨fun p hp => ⟨v, ?_, (Option.some.inj hp).symm, ?_, fun w hw => ?_⟩, fun h => (nomatch h)⟩
    · unfold findAccount at hf
      cases idx with
      | none => cases hf
      | some i => exact List.mem_of_getElem? hf
    · show pointsOf (Session.author s v) e v = _
      rw [points_author s e b ha, if_pos rfl]
    · show pointsOf (Session.author s v) e w = _
      rw [points_author s e b ha, if_neg hw]
      rfl

theorem rotate_validators (cfg : Cfg) (s : State) (o : List AccId) (keys : AccId → Bool) : (rotate cfg s o keys).validators = s.queued := by
  have h1 : ∀ (t : State) (i : Nat), (newSession cfg t i o).1.validators = t.validators := by
    intro t i
    unfold newSession newEra
    split <;> rfl
  have h2 : ∀ (t : State) (i : Nat), (startSession cfg t i).validators = t.validators := by
    intro t i
    unfold startSession startEra
    split
    · rfl
    · split <;> rfl
  show (newSession cfg _ _ o).1.validators = _
  rw [h1, h2]

/-- What happens in a block in which the session changes: the points still go by the validators which were in charge
before, to the era that was active before; the beneficiary goes by those which are in charge from this block on. -/
theorem C143_rotation (cfg : Cfg) (s : State) (o : List AccId) (keys : AccId → Bool) (eth : AccId → Nat) (idx : Nat) :
    beneficiary cfg s eth (some idx) (some (o, keys)) = s.queued[idx]?.map (address eth) ∧
    begin_ cfg s (some idx) (some (o, keys)) =
      match s.validators[idx]? with
      | some v => step cfg (step cfg s (.author v)) (.rotate o keys)
      | none => step cfg s (.rotate o keys) := by
  have hq : (noteAuthor s (some idx)).queued = s.queued := by
    unfold noteAuthor Session.author
    split
    · split <;> rfl
    · rfl
  refine ⟨?_, ?_⟩
  · show findAuthorEvm (rotate cfg (noteAuthor s (some idx)) o keys).validators eth (some idx) = _
    rw [rotate_validators, findAuthorEvm_eq, hq]
    rfl
  · show rotate cfg (noteAuthor s (some idx)) o keys = _
    unfold noteAuthor
    simp only [findAccount, Option.bind_some]
    cases s.validators[idx]? <;> rfl

/-- Finding: with a change of validators the two differ. Validator 1 was in charge and gets the points of the block, and
validator 2, in charge from now on, is the beneficiary of the Ethereum view. -/
theorem C143_rotation_differs : ∃ ops : List Op, (∀ op ∈ ops, op.keeps) ∧
    let s := (hist exCfg exDel .notForcing [1, 2] [1] ops).1
    let t := begin_ exCfg s (some 0) (some ([1, 2], allKeys))
    s.active = some (0, true) ∧ pointsOf s 0 1 = 120 ∧ pointsOf t 0 1 = 140 ∧ pointsOf t 0 2 = pointsOf s 0 2 ∧ pointsOf t 1 2 = 0 ∧
    beneficiary exCfg s (fun a => 100 + a) (some 0) (some ([1, 2], allKeys)) = some 102 := by
  refine ⟨exSession 1 ++ exSession 1 ++ (exSession 1).dropLast, ?_, ?_⟩
  · decide +kernel
  · decide +kernel

/-- C143. The address shown for a validator: if it has paired an address, this one. If not, two accounts are shown as
the same beneficiary exactly if they agree in their bytes 4 to 24. -/
theorem C143_address (vs : List AccId) (eth : AccId → Nat) (i j : Nat) (x y : AccId) (hx : vs[i]? = some x) (hy : vs[j]? = some y) :
    (eth x ≠ 0 → findAuthorEvm vs eth (some i) = some (eth x)) ∧
    (eth x = 0 → eth y = 0 → (findAuthorEvm vs eth (some i) = findAuthorEvm vs eth (some j) ↔ x / 256 ^ 8 % 256 ^ 20 = y / 256 ^ 8 % 256 ^ 20)) ∧
    (eth x ≠ 0 → eth y ≠ 0 → (∀ a b, eth a = eth b → eth a ≠ 0 → a = b) → findAuthorEvm vs eth (some i) = findAuthorEvm vs eth (some j) → x = y) := by
  have ex : findAuthorEvm vs eth (some i) = some (address eth x) := by rw [findAuthorEvm_eq]; show (vs[i]?).map _ = _; rw [hx]; rfl
  have ey : findAuthorEvm vs eth (some j) = some (address eth y) := by rw [findAuthorEvm_eq]; show (vs[j]?).map _ = _; rw [hy]; rfl
  rw [ex, ey]
  refine ⟨fun h => by rw [address, if_neg h], fun h1 h2 => ?_, fun h1 h2 hi h => ?_⟩
  · rw [address, address, if_pos h1, if_pos h2, Option.some.injEq]
  · rw [address, address, if_neg h1, if_neg h2] at h
    exact hi x y (Option.some.inj h) h1

/-- Finding: every account which is not paired is shown under an address which belongs to other accounts as well: for each
account there is another one with the same beneficiary. -/
theorem C143_shared (x : AccId) (hx : x < 256 ^ 32) :
    ∃ y, y ≠ x ∧ y < 256 ^ 32 ∧ ∀ eth : AccId → Nat, eth x = 0 → eth y = 0 →
      findAuthorEvm [x, y] eth (some 0) = findAuthorEvm [x, y] eth (some 1) := by
  refine ⟨if x % 256 = 0 then x + 1 else x - 1, ?_, ?_, fun eth h1 h2 => ?_⟩
  · split <;> omega
  · split <;> omega
  · rw [findAuthorEvm_eq, findAuthorEvm_eq]
    show some (address eth x) = some (address eth _)
    rw [address, address, if_pos h1, if_pos h2]
    congr 2
    split <;> omega

/-! ### Examples -/

/-- A block by validator 1 of [1], without a change of session: the hypothesis of `C143_same_partial` is met. -/
example :
    let s := (hist exCfg exDel .notForcing [1, 2] [1] (exSession 1)).1
    let t := begin_ exCfg s (some 0) none
    s.active = some (0, true) ∧ pointsOf s 0 1 = 40 ∧ pointsOf t 0 1 = 60 ∧ beneficiary exCfg s (fun a => 100 + a) (some 0) none = some 101 ∧
    beneficiary exCfg s (fun _ => 0) (some 0) none = some 0 ∧ beneficiary exCfg s (fun _ => 0) (some 7) none = none := by
  decide +kernel

/-- Bytes 4 to 24 of the account with the bytes 1, 2, ..., 32 are 5, ..., 24. -/
example : slice (ofBE (List.range' 1 32)) = ofBE (List.range' 5 20) ∧
    findAuthorEvm [7, ofBE (List.range' 1 32)] (fun a => if a = 7 then 99 else 0) (some 1) = some (ofBE (List.range' 5 20)) ∧
    findAuthorEvm [7, ofBE (List.range' 1 32)] (fun a => if a = 7 then 99 else 0) (some 0) = some 99 := by
  decide +kernel

/-- Two accounts which differ in their last byte only. -/
example : findAuthorEvm [256 ^ 20 + 1, 256 ^ 20 + 2] (fun _ => 0) (some 0) = findAuthorEvm [256 ^ 20 + 1, 256 ^ 20 + 2] (fun _ => 0) (some 1) ∧
    findAuthorEvm [256 ^ 20 + 1, 2 * 256 ^ 20] (fun _ => 0) (some 0) ≠ findAuthorEvm [256 ^ 20 + 1, 2 * 256 ^ 20] (fun _ => 0) (some 1) := by
  decide +kernel

end Verif.BlockAuthor
