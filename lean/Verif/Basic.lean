/-
Finite maps used to model FRAME storage maps (`StorageMap`, `StorageDoubleMap`).

A storage map of the chain is a finite partial function from keys to values.  It is modelled by an
association list without duplicate keys.  Only `get`, `insert`, `erase`, sums over all entries and
iteration are used.  The order of `entries` is an artefact of the model: in the chain iteration runs
in the order of the hashed keys, so wherever the code iterates over a map and the order can matter,
the model takes the order as an explicit argument.
-/

namespace Verif

/-- Account ids (`AccountId32`) are modelled by natural numbers; only equality and the linear order
are used. -/
notation "AccId" => Nat

/-- Token amounts (`Balance = u128`, primitives/src/lib.rs) as unbounded naturals. -/
notation "Balance" => Nat

/-- Model of a FRAME `StorageMap`: association list with distinct keys. -/
structure FMap (κ : Type) (α : Type) where
  entries : List (κ × α)
  nodup : (entries.map Prod.fst).Nodup

namespace FMap

variable {κ : Type} {α : Type} [DecidableEq κ]
set_option linter.unusedSectionVars false

/-- Lookup in an association list. -/
def lget : List (κ × α) → κ → Option α
  | [], _ => none
  | (k', v) :: t, k => if k' = k then some v else lget t k

/-- `StorageMap::get` with `OptionQuery`. -/
def get (m : FMap κ α) (k : κ) : Option α := lget m.entries k

/-- The empty storage map. -/
def empty : FMap κ α := ⟨[], by simp⟩

instance : EmptyCollection (FMap κ α) := ⟨empty⟩
instance : Inhabited (FMap κ α) := ⟨empty⟩

theorem nodup_filter (l : List (κ × α)) (h : (l.map Prod.fst).Nodup) (p : κ × α → Bool) :
    ((l.filter p).map Prod.fst).Nodup :=
  List.Sublist.nodup (List.Sublist.map _ List.filter_sublist) h

/-- `StorageMap::remove`. -/
def erase (m : FMap κ α) (k : κ) : FMap κ α :=
  ⟨m.entries.filter (fun e => decide (e.1 ≠ k)), nodup_filter _ m.nodup _⟩

/-- `StorageMap::insert`. -/
def insert (m : FMap κ α) (k : κ) (v : α) : FMap κ α :=
  ⟨(k, v) :: (m.erase k).entries, by
    simp only [List.map_cons, List.nodup_cons]
    refine ⟨?_, (m.erase k).nodup⟩
    simp [erase]⟩

/-- Write an optional value: `some` inserts, `none` removes. -/
def set (m : FMap κ α) (k : κ) : Option α → FMap κ α
  | some v => m.insert k v
  | none => m.erase k

/-- `StorageMap::contains_key`. -/
def contains (m : FMap κ α) (k : κ) : Bool := (m.get k).isSome

/-- All keys. -/
def keys (m : FMap κ α) : List κ := m.entries.map Prod.fst

/-- Sum of a quantity over all entries. -/
def sum (m : FMap κ α) (f : κ → α → Nat) : Nat := (m.entries.map (fun e => f e.1 e.2)).sum

/-- Value contributed by key `k`. -/
def at? (m : FMap κ α) (f : κ → α → Nat) (k : κ) : Nat :=
  match m.get k with
  | some v => f k v
  | none => 0

@[simp] theorem get_empty (k : κ) : (∅ : FMap κ α).get k = none := rfl
@[simp] theorem get_empty' (k : κ) : (empty : FMap κ α).get k = none := rfl
@[simp] theorem sum_empty (f : κ → α → Nat) : (∅ : FMap κ α).sum f = 0 := rfl

theorem lget_filter_ne (l : List (κ × α)) (k k' : κ) :
    lget (l.filter (fun e => decide (e.1 ≠ k))) k' = if k' = k then none else lget l k' := by
  induction l with
  | nil => simp [lget]
  | cons e t ih =>
    obtain ⟨a, v⟩ := e
    by_cases h : a = k
    · subst h
      simp only [ne_eq, not_true, decide_false, Bool.false_eq_true, not_false_eq_true,
        List.filter_cons_of_neg, lget]
      rw [ih]
      by_cases h2 : k' = a
      · simp [h2]
      · simp [h2, Ne.symm h2]
    · simp only [ne_eq, h, not_false_eq_true, decide_true, List.filter_cons_of_pos, lget]
      rw [ih]
      by_cases h2 : a = k'
      · subst h2; simp [h]
      · simp [h2]

theorem get_erase (m : FMap κ α) (k k' : κ) :
    (m.erase k).get k' = if k' = k then none else m.get k' := lget_filter_ne _ _ _

theorem get_insert (m : FMap κ α) (k k' : κ) (v : α) :
    (m.insert k v).get k' = if k' = k then some v else m.get k' := by
  unfold get insert
  simp only [lget]
  by_cases h : k = k'
  · simp [h]
  · have : k' ≠ k := fun e => h e.symm
    simp only [h, if_false, this]
    have := get_erase m k k'
    unfold get at this
    rw [this]; simp [Ne.symm h]

@[simp] theorem get_insert_self (m : FMap κ α) (k : κ) (v : α) : (m.insert k v).get k = some v := by
  simp [get_insert]

@[simp] theorem get_erase_self (m : FMap κ α) (k : κ) : (m.erase k).get k = none := by
  simp [get_erase]

theorem get_insert_ne (m : FMap κ α) {k k' : κ} (v : α) (h : k' ≠ k) :
    (m.insert k v).get k' = m.get k' := by simp [get_insert, h]

theorem get_erase_ne (m : FMap κ α) {k k' : κ} (h : k' ≠ k) :
    (m.erase k).get k' = m.get k' := by simp [get_erase, h]

theorem get_set (m : FMap κ α) (k k' : κ) (v : Option α) :
    (m.set k v).get k' = if k' = k then v else m.get k' := by
  cases v with
  | none => exact get_erase m k k'
  | some v => exact get_insert m k k' v

theorem lget_mem {l : List (κ × α)} {k : κ} {v : α} (h : lget l k = some v) : (k, v) ∈ l := by
  induction l with
  | nil => simp [lget] at h
  | cons e t ih =>
    obtain ⟨a, w⟩ := e
    simp only [lget] at h
    by_cases h2 : a = k
    · simp [h2] at h; simp [h2, h]
    · simp [h2] at h; simp [ih h]

theorem lget_of_mem {l : List (κ × α)} (hn : (l.map Prod.fst).Nodup) {k : κ} {v : α}
    (h : (k, v) ∈ l) : lget l k = some v := by
  induction l with
  | nil => simp at h
  | cons e t ih =>
    obtain ⟨a, w⟩ := e
    simp only [List.map_cons, List.nodup_cons] at hn
    simp only [List.mem_cons, Prod.mk.injEq] at h
    simp only [lget]
    rcases h with ⟨rfl, rfl⟩ | h
    · simp
    · have : a ≠ k := by
        rintro rfl
        exact hn.1 (List.mem_map.2 ⟨_, h, rfl⟩)
      simp [this, ih hn.2 h]

theorem mem_entries_iff (m : FMap κ α) (k : κ) (v : α) :
    (k, v) ∈ m.entries ↔ m.get k = some v :=
  ⟨lget_of_mem m.nodup, lget_mem⟩

theorem mem_keys_iff (m : FMap κ α) (k : κ) : k ∈ m.keys ↔ ∃ v, m.get k = some v := by
  unfold keys
  constructor
  · intro h
    obtain ⟨⟨a, v⟩, hm, rfl⟩ := List.mem_map.1 h
    exact ⟨v, (m.mem_entries_iff _ _).1 hm⟩
  · rintro ⟨v, h⟩
    exact List.mem_map.2 ⟨(k, v), (m.mem_entries_iff _ _).2 h, rfl⟩

theorem contains_iff (m : FMap κ α) (k : κ) : m.contains k = true ↔ ∃ v, m.get k = some v := by
  unfold contains; rw [Option.isSome_iff_exists]

/-- Sum over a filtered list plus the removed part. -/
theorem lsum_filter_ne (l : List (κ × α)) (hn : (l.map Prod.fst).Nodup) (k : κ)
    (f : κ → α → Nat) :
    ((l.filter (fun e => decide (e.1 ≠ k))).map (fun e => f e.1 e.2)).sum
      + (match lget l k with | some v => f k v | none => 0)
      = (l.map (fun e => f e.1 e.2)).sum := by
  induction l with
  | nil => simp [lget]
  | cons e t ih =>
    obtain ⟨a, v⟩ := e
    simp only [List.map_cons, List.nodup_cons] at hn
    have ih := ih hn.2
    by_cases h : a = k
    · subst h
      have hnone : lget t a = none := by
        cases hg : lget t a with
        | none => rfl
        | some w => exact absurd (List.mem_map.2 ⟨_, lget_mem hg, rfl⟩) hn.1
      simp only [hnone] at ih
      simp only [ne_eq, not_true, decide_false, Bool.false_eq_true, not_false_eq_true,
        List.filter_cons_of_neg, lget, if_true, List.map_cons, List.sum_cons]
      simp only [ne_eq] at ih
      omega
    · simp only [ne_eq, h, not_false_eq_true, decide_true, List.filter_cons_of_pos, lget,
        List.map_cons, List.sum_cons, if_false]
      simp only [ne_eq] at ih
      omega

theorem sum_erase (m : FMap κ α) (k : κ) (f : κ → α → Nat) :
    (m.erase k).sum f + m.at? f k = m.sum f := lsum_filter_ne _ m.nodup k f

theorem sum_insert (m : FMap κ α) (k : κ) (v : α) (f : κ → α → Nat) :
    (m.insert k v).sum f + m.at? f k = m.sum f + f k v := by
  have := sum_erase m k f
  unfold sum insert at *
  simp only [List.map_cons, List.sum_cons]
  omega

theorem at?_some {m : FMap κ α} {k : κ} {v : α} (h : m.get k = some v) (f : κ → α → Nat) :
    m.at? f k = f k v := by simp [at?, h]

theorem at?_none {m : FMap κ α} {k : κ} (h : m.get k = none) (f : κ → α → Nat) :
    m.at? f k = 0 := by simp [at?, h]

theorem at?_le_sum (m : FMap κ α) (k : κ) (f : κ → α → Nat) : m.at? f k ≤ m.sum f := by
  have := sum_erase m k f; omega

theorem sum_congr (m : FMap κ α) (f g : κ → α → Nat)
    (h : ∀ k v, m.get k = some v → f k v = g k v) : m.sum f = m.sum g := by
  unfold sum
  congr 1
  apply List.map_congr_left
  intro e he
  exact h e.1 e.2 ((m.mem_entries_iff _ _).1 he)

theorem sum_eq_zero (m : FMap κ α) (f : κ → α → Nat)
    (h : ∀ k v, m.get k = some v → f k v = 0) : m.sum f = 0 := by
  rw [sum_congr m f (fun _ _ => 0) h]
  unfold sum
  generalize m.entries = l
  induction l with
  | nil => rfl
  | cons e t ih => simpa using ih

theorem sum_le_sum (m : FMap κ α) (f g : κ → α → Nat)
    (h : ∀ k v, m.get k = some v → f k v ≤ g k v) : m.sum f ≤ m.sum g := by
  unfold sum
  have h' : ∀ e ∈ m.entries, f e.1 e.2 ≤ g e.1 e.2 :=
    fun e he => h e.1 e.2 ((m.mem_entries_iff _ _).1 he)
  generalize m.entries = l at h'
  induction l with
  | nil => simp
  | cons e t ih =>
    simp only [List.map_cons, List.sum_cons]
    have h1 := h' e (by simp)
    have h2 := ih (fun e he => h' e (by simp [he]))
    omega

/-- Two maps with the same lookups have the same sums. -/
theorem sum_ext (m n : FMap κ α) (h : ∀ k, m.get k = n.get k) (f : κ → α → Nat) :
    m.sum f = n.sum f := by
  obtain ⟨l, hl⟩ := m
  induction l generalizing n with
  | nil =>
    have : n.entries = [] := by
      rcases hn : n.entries with _ | ⟨⟨a, v⟩, t⟩
      · rfl
      · have h1 := h a
        unfold get at h1
        rw [hn] at h1
        simp [lget] at h1
    simp [sum, this]
  | cons e t ih =>
    obtain ⟨a, v⟩ := e
    have hl' := hl
    simp only [List.map_cons, List.nodup_cons] at hl'
    have hna : n.get a = some v := by
      rw [← h a]; simp [get, lget]
    have h2 := ih (n.erase a) hl'.2 (by
      intro k
      rw [get_erase]
      by_cases hk : k = a
      · subst hk
        simp only [if_true]
        cases hg : lget t k with
        | none => exact hg
        | some w => exact absurd (List.mem_map.2 ⟨_, lget_mem hg, rfl⟩) hl'.1
      · simp only [hk, if_false]
        rw [← h k]
        simp [get, lget, Ne.symm hk])
    have h3 := sum_erase n a f
    rw [at?_some hna f] at h3
    rw [← h3, ← h2]
    simp [sum, Nat.add_comm]

end FMap

/-- Number of elements of a list satisfying `p`, as a readable counting specification. -/
def countP {α : Type} (p : α → Bool) (l : List α) : Nat := (l.filter p).length

/-- Round-half-down division, the rounding used by `Perbill * x` / `Percent * x`
(`Rounding::NearestPrefDown`, sp_arithmetic per_things.rs `rational_mul_correction`):
nearest integer to `a / b`, ties towards zero. -/
def divNearestDown (a b : Nat) : Nat :=
  if 2 * (a % b) > b then a / b + 1 else a / b

/-- Saturating subtraction on `u128`/`u64`/`u32` is truncated subtraction on naturals. -/
abbrev satSub (a b : Nat) : Nat := a - b

theorem divNearestDown_bounds (a b : Nat) (hb : 0 < b) :
    2 * a ≤ 2 * (b * divNearestDown a b) + b ∧ 2 * (b * divNearestDown a b) < 2 * a + b := by
  unfold divNearestDown
  have h1 := Nat.div_add_mod a b
  have h2 := Nat.mod_lt a hb
  split
  · rw [Nat.mul_add]; omega
  · omega

theorem divNearestDown_zero (b : Nat) : divNearestDown 0 b = 0 := by
  simp [divNearestDown]

/-- A part of at most one is at most the whole. -/
theorem divNearestDown_le (x p b : Nat) (hb : 0 < b) (hp : p ≤ b) :
    divNearestDown (x * p) b ≤ x := by
  have := (divNearestDown_bounds (x * p) b hb).2
  have h2 : x * p ≤ x * b := Nat.mul_le_mul_left x hp
  refine Nat.le_of_not_lt fun hc => ?_
  have h3 : x + 1 ≤ divNearestDown (x * p) b := by omega
  have h4 : b * (x + 1) ≤ b * divNearestDown (x * p) b := Nat.mul_le_mul_left b h3
  rw [Nat.mul_add, Nat.mul_comm b x] at h4
  omega

theorem divNearestDown_mono {x y b : Nat} (h : x ≤ y) : divNearestDown x b ≤ divNearestDown y b := by
  unfold divNearestDown
  have hd := Nat.div_le_div_right (c := b) h
  have hx := Nat.div_add_mod x b
  have hy := Nat.div_add_mod y b
  by_cases he : x / b = y / b
  · rw [he] at hx ⊢
    have : x % b ≤ y % b := by omega
    split <;> split <;> omega
  · split <;> split <;> omega

end Verif
