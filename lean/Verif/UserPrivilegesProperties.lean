import Verif.UserPrivileges

/-
Properties C10 - C12 of the privilege table.
-/

namespace Verif.UserPrivileges

/-! ### Specification: two relations -/

/-- Abstract privilege table: who holds what. -/
structure Table where
  user : AccId → Privilege → Bool
  evm : Nat → Privilege → Bool

/-- Who may edit EVM address privileges. -/
def Table.mayEvm (t : Table) : Origin → Bool
  | .root => false
  | .signed a => t.user a .evmAddressSetter

/-- What a call should do to the table: only the force origin edits account privileges, only holders
of the EVM address setter privilege edit EVM privileges; a grant adds one pair, a revoke removes
one pair, a clear removes all pairs of one holder. -/
def Table.apply (force : Origin → Bool) (t : Table) (o : Origin) (op : Op) : Table :=
  match op with
  | .setUser w p =>
    if force o then { t with user := fun a q => t.user a q || (a == w && q == p) } else t
  | .unsetUser w p =>
    if force o then { t with user := fun a q => t.user a q && !(a == w && q == p) } else t
  | .clearUser w =>
    if force o then { t with user := fun a q => t.user a q && !(a == w) } else t
  | .setEvm w p =>
    if t.mayEvm o then { t with evm := fun a q => t.evm a q || (a == w && q == p) } else t
  | .unsetEvm w p =>
    if t.mayEvm o then { t with evm := fun a q => t.evm a q && !(a == w && q == p) } else t
  | .clearEvm w =>
    if t.mayEvm o then { t with evm := fun a q => t.evm a q && !(a == w) } else t

/-- A history of calls on the abstract table. -/
def Table.applyAll (force : Origin → Bool) (t : Table) : List (Origin × Op) → Table
  | [] => t
  | c :: cs => Table.applyAll force (t.apply force c.1 c.2) cs

/-- What the chain answers to privilege queries. -/
def answers (s : State) : Table := ⟨hasPrivilege s, hasEvmPrivilege s⟩

/-! ### Bit lemmas -/

theorem Privilege.bit_inj {p q : Privilege} (h : p.bit = q.bit) : p = q := by
  revert h; cases p <;> cases q <;> decide

theorem Privilege.bit_lt (p : Privilege) : p.bit < 64 := by cases p <;> decide

theorem flag_get (p : Privilege) (i : Nat) : (flag p).getLsbD i = decide (i = p.bit) := by
  have hp := p.bit_lt
  unfold flag
  rw [BitVec.getLsbD_shiftLeft]
  by_cases h : i = p.bit
  · subst h; simp [hp]
  · rw [BitVec.getLsbD_one]
    by_cases h2 : i < p.bit
    · simp [h2, h]
    · have h3 : i - p.bit ≠ 0 := by omega
      simp [h, h3]

theorem containsFlag_eq (f : Flags) (p : Privilege) : containsFlag f p = f.getLsbD p.bit := by
  have hp := p.bit_lt
  unfold containsFlag
  cases hb : f.getLsbD p.bit with
  | true =>
    rw [beq_iff_eq]
    apply BitVec.eq_of_getLsbD_eq
    intro i _
    rw [BitVec.getLsbD_and, flag_get]
    by_cases h : i = p.bit
    · subst h; simp [hb]
    · simp [h]
  | false =>
    rw [beq_eq_false_iff_ne]
    intro h
    have := congrArg (fun x => BitVec.getLsbD x p.bit) h
    simp [BitVec.getLsbD_and, flag_get, hb] at this

theorem contains_flag (p q : Privilege) : containsFlag (flag p) q = (q == p) := by
  rw [containsFlag_eq, flag_get]
  by_cases h : q = p
  · subst h; simp
  · have : q.bit ≠ p.bit := fun e => h (Privilege.bit_inj e)
    simp [this, h]

theorem contains_or (f : Flags) (p q : Privilege) :
    containsFlag (f ||| flag p) q = (containsFlag f q || (q == p)) := by
  rw [containsFlag_eq, BitVec.getLsbD_or, ← containsFlag_eq, ← containsFlag_eq, contains_flag]

theorem contains_remove (f : Flags) (p q : Privilege) :
    containsFlag (removeFlag f p) q = (containsFlag f q && !(q == p)) := by
  unfold removeFlag
  rw [containsFlag_eq, BitVec.getLsbD_and, BitVec.getLsbD_not, ← containsFlag_eq, ← containsFlag_eq,
    contains_flag]
  simp [q.bit_lt]

/-! ### C10 -/

theorem answers_step (force : Origin → Bool) (s : State) (o : Origin) (op : Op) :
    answers (step force s (o, op)) = (answers s).apply force o op := by
  cases op with
  | setUser w p =>
    simp only [step, dispatch, Table.apply]
    cases force o
    · rfl
    simp only [Bool.not_true, Bool.false_eq_true, if_false, if_true, answers, Table.mk.injEq]
    refine ⟨?_, rfl⟩
    funext a q
    simp only [hasPrivilege, FMap.get_insert]
    by_cases h : a = w
    · subst h
      simp only [if_true, granted]
      cases hg : s.users.get a with
      | none => simp [contains_flag]
      | some f => simp [contains_or]
    · simp [h]
  | unsetUser w p =>
    simp only [step, dispatch, Table.apply]
    cases force o
    · rfl
    simp only [Bool.not_true, Bool.false_eq_true, if_false, if_true]
    cases hg : s.users.get w with
    | none =>
      simp only [answers, Table.mk.injEq, and_true]
      funext a q
      by_cases h : a = w
      · subst h; simp [hasPrivilege, hg]
      · simp [h]
    | some f =>
      simp only [answers, Table.mk.injEq]
      refine ⟨?_, rfl⟩
      funext a q
      simp only [hasPrivilege, FMap.get_insert]
      by_cases h : a = w
      · subst h; simp [hg, contains_remove]
      · simp [h]
  | clearUser w =>
    simp only [step, dispatch, Table.apply]
    cases force o
    · rfl
    simp only [Bool.not_true, Bool.false_eq_true, if_false, if_true, answers, Table.mk.injEq]
    refine ⟨?_, rfl⟩
    funext a q
    simp only [hasPrivilege, FMap.get_erase]
    by_cases h : a = w
    · subst h; simp
    · simp [h]
  | setEvm w p =>
    cases o with
    | root => rfl
    | signed a =>
    simp only [step, dispatch, Table.apply, evmCheck]
    have : (answers s).mayEvm (.signed a) = hasPrivilege s a .evmAddressSetter := rfl
    rw [this]
    cases hasPrivilege s a .evmAddressSetter
    · rfl
    simp only [if_true, answers, Table.mk.injEq]
    refine ⟨rfl, ?_⟩
    funext a q
    simp only [hasEvmPrivilege, FMap.get_insert]
    by_cases h : a = w
    · subst h
      simp only [if_true, granted]
      cases hg : s.evms.get a with
      | none => simp [contains_flag]
      | some f => simp [contains_or]
    · simp [h]
  | unsetEvm w p =>
    cases o with
    | root => rfl
    | signed a =>
    simp only [step, dispatch, Table.apply, evmCheck]
    have : (answers s).mayEvm (.signed a) = hasPrivilege s a .evmAddressSetter := rfl
    rw [this]
    cases hasPrivilege s a .evmAddressSetter
    · rfl
    simp only [if_true]
    cases hg : s.evms.get w with
    | none =>
      simp only [answers, Table.mk.injEq, true_and]
      funext a q
      by_cases h : a = w
      · subst h; simp [hasEvmPrivilege, hg]
      · simp [h]
    | some f =>
      simp only [answers, Table.mk.injEq]
      refine ⟨rfl, ?_⟩
      funext a q
      simp only [hasEvmPrivilege, FMap.get_insert]
      by_cases h : a = w
      · subst h; simp [hg, contains_remove]
      · simp [h]
  | clearEvm w =>
    cases o with
    | root => rfl
    | signed a =>
    simp only [step, dispatch, Table.apply, evmCheck]
    have : (answers s).mayEvm (.signed a) = hasPrivilege s a .evmAddressSetter := rfl
    rw [this]
    cases hasPrivilege s a .evmAddressSetter
    · rfl
    simp only [if_true, answers, Table.mk.injEq]
    refine ⟨rfl, ?_⟩
    funext a q
    simp only [hasEvmPrivilege, FMap.get_erase]
    by_cases h : a = w
    · subst h; simp
    · simp [h]

/-- **C10**: the bit-flag storage answers every privilege query like the abstract table, after every
history of calls by arbitrary origins, whatever the force-origin check is. -/
theorem C10_privileges_refine_table (force : Origin → Bool) (s : State)
    (cs : List (Origin × Op)) :
    answers (run force s cs) = (answers s).applyAll force cs := by
  induction cs generalizing s with
  | nil => rfl
  | cons c cs ih =>
    simp only [run, Table.applyAll]
    rw [ih, ← answers_step]

/-- **C10** (grants): starting from empty storage, whoever holds an account privilege got it by a
grant of exactly this privilege through the force origin. -/
theorem C10_only_force_origin_grants (force : Origin → Bool) (cs : List (Origin × Op)) (a : AccId)
    (p : Privilege) (h : hasPrivilege (run force {} cs) a p = true) :
    ∃ o, (o, Op.setUser a p) ∈ cs ∧ force o = true := by
  have key : ∀ (cs : List (Origin × Op)) (t : Table), (t.applyAll force cs).user a p = true →
      t.user a p = true ∨ ∃ o, (o, Op.setUser a p) ∈ cs ∧ force o = true := by
    intro cs
    induction cs with
    | nil => intro t h; exact Or.inl h
    | cons c cs ih =>
      obtain ⟨o, op⟩ := c
      intro t h
      rcases ih _ h with h1 | ⟨o', h1, h2⟩
      · simp only [Table.apply] at h1
        cases op with
        | setUser w q =>
          simp only at h1
          by_cases hf : force o = true
          · simp only [hf, if_true, Bool.or_eq_true, Bool.and_eq_true, beq_iff_eq] at h1
            rcases h1 with h1 | ⟨rfl, rfl⟩
            · exact Or.inl h1
            · exact Or.inr ⟨o, by simp, hf⟩
          · simp only [hf] at h1; exact Or.inl h1
        | unsetUser w q =>
          simp only at h1
          split at h1
          · simp only [Bool.and_eq_true] at h1; exact Or.inl h1.1
          · exact Or.inl h1
        | clearUser w =>
          simp only at h1
          split at h1
          · simp only [Bool.and_eq_true] at h1; exact Or.inl h1.1
          · exact Or.inl h1
        | setEvm w q => simp only at h1; split at h1 <;> exact Or.inl h1
        | unsetEvm w q => simp only at h1; split at h1 <;> exact Or.inl h1
        | clearEvm w => simp only at h1; split at h1 <;> exact Or.inl h1
      · exact Or.inr ⟨o', by simp [h1], h2⟩
  have hr := C10_privileges_refine_table force {} cs
  have : ((answers {}).applyAll force cs).user a p = true := by rw [← hr]; exact h
  rcases key cs _ this with h1 | h1
  · simp [answers, hasPrivilege] at h1
  · exact h1

/-- When a call is accepted. -/
def permitted (force : Origin → Bool) (s : State) (o : Origin) : Op → Prop
  | .setUser _ _ => force o = true
  | .unsetUser w _ => force o = true ∧ s.users.get w ≠ none
  | .clearUser _ => force o = true
  | .setEvm _ _ => ∃ a, o = .signed a ∧ hasPrivilege s a .evmAddressSetter = true
  | .unsetEvm w _ => (∃ a, o = .signed a ∧ hasPrivilege s a .evmAddressSetter = true) ∧ s.evms.get w ≠ none
  | .clearEvm _ => ∃ a, o = .signed a ∧ hasPrivilege s a .evmAddressSetter = true

/-- **C10** (acceptance): the calls about accounts are accepted from the force origin and nobody else, the calls
about EVM addresses from holders of the setter privilege and nobody else (also not from root); a privilege can only be
withdrawn from somebody who has an entry. -/
theorem C10_accepted (force : Origin → Bool) (s : State) (o : Origin) (op : Op) :
    (∃ t, dispatch force s o op = .ok t) ↔ permitted force s o op := by
  have he : evmCheck s o = none ↔ ∃ a, o = .signed a ∧ hasPrivilege s a .evmAddressSetter = true := by
    cases o with
    | root => simp [evmCheck]
    | signed a => cases h : hasPrivilege s a .evmAddressSetter <;> simp [evmCheck, h]
  cases op with
  | setUser w p => cases h : force o <;> simp [dispatch, permitted, h]
  | unsetUser w p => cases h : force o <;> cases hg : s.users.get w <;> simp [dispatch, permitted, h, hg]
  | clearUser w => cases h : force o <;> simp [dispatch, permitted, h]
  | setEvm w p =>
    simp only [permitted]
    rw [← he]
    cases h : evmCheck s o <;> simp [dispatch, h]
  | unsetEvm w p =>
    simp only [permitted]
    rw [← he]
    cases h : evmCheck s o <;> cases hg : s.evms.get w <;> simp [dispatch, h, hg]
  | clearEvm w =>
    simp only [permitted]
    rw [← he]
    cases h : evmCheck s o <;> simp [dispatch, h]

/-- Grant two, revoke one, an unauthorised grant in between, and an EVM grant by the setter. -/
example : let s := run (· == .root) {} [(.root, .setUser 5 .evmAddressSetter),
      (.root, .setUser 5 .tipPayer), (.signed 6, .setUser 6 .npowMint),
      (.root, .unsetUser 5 .tipPayer), (.signed 5, .setEvm 77 .evmCreditOperation)]
    hasPrivilege s 5 .evmAddressSetter = true ∧ hasPrivilege s 5 .tipPayer = false ∧
    hasPrivilege s 6 .npowMint = false ∧ hasEvmPrivilege s 77 .evmCreditOperation = true := by
  decide

/-! ### C11 -/

/-- The flag word of a set of privileges given as a membership test. -/
def wordOf (m : Privilege → Bool) : Flags :=
  [Privilege.lockerMember, .releaseSetter, .evmAddressSetter, .evmCreditOperation, .npowMint,
   .creditAdmin, .tipPayer, .bridgeAdmin, .oracleWorker, .deviceAdmin, .blackListAdmin,
   .adstAdmin].foldl (fun f p => if m p then f ||| flag p else f) 0#64

theorem allBits_get (i : Nat) : allBits.getLsbD i = decide (i < 12) := by
  by_cases h : i < 64
  · have : ∀ i, i < 64 → allBits.getLsbD i = decide (i < 12) := by decide
    exact this i h
  · rw [BitVec.getLsbD_of_ge _ _ (by omega)]
    simp; omega

theorem inAll_iff (w : Flags) :
    (w &&& ~~~ allBits == 0#64) = true ↔ ∀ i, 12 ≤ i → w.getLsbD i = false := by
  rw [beq_iff_eq]
  constructor
  · intro h i hi
    by_cases hi2 : i < 64
    · have := congrArg (fun x => BitVec.getLsbD x i) h
      simp only [BitVec.getLsbD_and, BitVec.getLsbD_not, allBits_get, BitVec.getLsbD_zero] at this
      simpa [hi2, show ¬ i < 12 by omega] using this
    · exact BitVec.getLsbD_of_ge _ _ (by omega)
  · intro h
    apply BitVec.eq_of_getLsbD_eq
    intro i hi
    simp only [BitVec.getLsbD_and, BitVec.getLsbD_not, allBits_get, BitVec.getLsbD_zero]
    by_cases h12 : i < 12
    · simp [h12]
    · simp [h i (by omega)]

/-- **C11** (a): decoding an encoded privilege set gives it back and consumes exactly its bytes. -/
theorem C11_decode_encode (f : Flags) (rest : List Nat) (h : ∀ i, 12 ≤ i → f.getLsbD i = false) :
    decode (encode f ++ rest) = some (f, rest) := by
  unfold decode encode
  have hl : (toLE 8 f.toNat ++ rest).length = 8 + rest.length := by simp
  rw [if_neg (by omega)]
  have ht : (toLE 8 f.toNat ++ rest).take 8 = toLE 8 f.toNat := by
    rw [List.take_append_of_le_length (by simp)]
    rw [List.take_of_length_le (by simp)]
  have hd : (toLE 8 f.toNat ++ rest).drop 8 = rest := by
    rw [List.drop_append_of_le_length (by simp)]
    rw [List.drop_of_length_le (by simp)]; rfl
  rw [ht, hd, ofLE_toLE 8 f.toNat (by have := f.isLt; simpa using this)]
  simp only [BitVec.ofNat_toNat, BitVec.setWidth_eq]
  rw [if_pos ((inAll_iff f).2 h)]

/-- **C11** (b): decoding succeeds exactly on inputs with at least eight bytes whose little-endian
word uses only the twelve defined bits. -/
theorem C11_decode_succeeds_iff (input : List Nat) :
    (decode input).isSome = true ↔ 8 ≤ input.length ∧
      ∀ i, 12 ≤ i → (BitVec.ofNat 64 (ofLE (input.take 8))).getLsbD i = false := by
  unfold decode
  by_cases hl : input.length < 8
  · rw [if_pos hl]; simp; omega
  · rw [if_neg hl]
    simp only
    rw [← inAll_iff]
    split
    · rename_i h; simp [h]; omega
    · rename_i h; simp [h]

/-- **C11** (c): every set of privileges is representable, and membership queries on its decoded
encoding are the original memberships. -/
theorem C11_sets_survive (m : Privilege → Bool) :
    ∃ f, decode (encode (wordOf m)) = some (f, []) ∧ ∀ p, containsFlag f p = m p := by
  have hc : ∀ p, containsFlag (wordOf m) p = m p := by
    have add : ∀ (f : Flags) (p q : Privilege), containsFlag (if m p then f ||| flag p else f) q
        = (containsFlag f q || (m p && decide (q = p))) := by
      intro f p q
      have : (q == p) = decide (q = p) := rfl
      cases m p <;> simp [contains_or, this]
    intro p
    unfold wordOf
    simp only [List.foldl_cons, List.foldl_nil, add]
    have z : containsFlag 0#64 p = false := by rw [containsFlag_eq]; simp
    rw [z]
    cases p <;> simp
  have hb : ∀ i, 12 ≤ i → (wordOf m).getLsbD i = false := by
    have add : ∀ (f : Flags) (p : Privilege), (∀ i, 12 ≤ i → f.getLsbD i = false) →
        ∀ i, 12 ≤ i → (if m p then f ||| flag p else f).getLsbD i = false := by
      intro f p h i hi
      split
      · rw [BitVec.getLsbD_or, h i hi, flag_get]
        have : p.bit < 12 := by cases p <;> decide
        simp; omega
      · exact h i hi
    unfold wordOf
    simp only [List.foldl_cons, List.foldl_nil]
    iterate 12 apply add
    simp
  refine ⟨wordOf m, ?_, hc⟩
  have := C11_decode_encode (wordOf m) [] hb
  simpa using this

example : decode (encode (wordOf (· == .adstAdmin))) = some (2048#64, []) ∧
    decode [0, 16, 0, 0, 0, 0, 0, 0] = none := by decide

/-! ### C12 -/

/-- **C12 is false of the code**: the migration overwrites. An account that is both release setter
and (listed) locker loses the locker privilege it has just been given, and an account holding
another privilege before the second migration step loses it. -/
theorem C12_migration_loses_privileges :
    (∃ s l a p, hasPrivilege s a p = true ∧ hasPrivilege (migrate s l) a p = false ∧
      s.version = some .v1) ∧
    (∃ l a, hasPrivilege (migrate {} l) a .lockerMember = false ∧
      l.lockers = some [a] ∧ l.setter = some a) := by
  refine ⟨⟨{ users := FMap.empty.insert 5 (flag .lockerMember), version := some .v1 },
    ⟨none, none, some 5, none⟩, 5, .lockerMember, by decide, by decide, rfl⟩,
    ⟨⟨some [5], some 5, none, none⟩, 5, by decide, rfl, rfl⟩⟩

theorem get_overwrite_ne (m : FMap AccId Flags) (a : Option AccId) (p : Privilege) (x : AccId)
    (h : a ≠ some x) : (overwrite m a p).get x = m.get x := by
  unfold overwrite
  cases a with
  | none => rfl
  | some a => exact FMap.get_insert_ne _ _ (fun e => h (by rw [e]))

theorem get_lockers_ne (l : List AccId) (m : FMap AccId Flags) (x : AccId) (h : x ∉ l) :
    (l.foldl (fun m a => m.insert a (flag .lockerMember)) m).get x = m.get x := by
  induction l generalizing m with
  | nil => rfl
  | cons a l ih =>
    simp only [List.mem_cons, not_or] at h
    simp only [List.foldl_cons]
    rw [ih _ h.2, FMap.get_insert_ne _ _ h.1]

/-- **C12** (partial): the migration keeps all privileges of every account that is not named by the
legacy storage items it converts, keeps all EVM privileges, and is the identity at the final
version. Missing: accounts named there lose what they held (`C12_migration_loses_privileges`). -/
theorem C12_migration_keeps_others_partial (s : State) (l : Legacy) (a : AccId)
    (h1 : a ∉ l.lockers.getD []) (h2 : l.setter ≠ some a) (h3 : l.tipPayer ≠ some a)
    (h4 : l.creditAdmin ≠ some a) (p : Privilege) :
    hasPrivilege (migrate s l) a p = hasPrivilege s a p ∧
    (∀ e, hasEvmPrivilege (migrate s l) e p = hasEvmPrivilege s e p) ∧
    (s.version = some .v2 → migrate s l = s) := by
  unfold migrate
  cases hv : s.version with
  | none =>
    simp only [hasPrivilege, hasEvmPrivilege, get_overwrite_ne _ _ _ _ h2, get_lockers_ne _ _ _ h1,
      true_and, implies_true]
    intro h; cases h
  | some v =>
    cases v with
    | v1 =>
      simp only [hasPrivilege, hasEvmPrivilege, get_overwrite_ne _ _ _ _ h4,
        get_overwrite_ne _ _ _ _ h3, true_and, implies_true]
      intro h; cases h
    | v2 => simp

example : hasPrivilege (migrate { users := FMap.empty.insert 6 (flag .npowMint) }
    ⟨some [5, 7], some 8, none, none⟩) 6 .npowMint = true := by decide

theorem get_lockers (l : List AccId) (m : FMap AccId Flags) (x : AccId) :
    (l.foldl (fun m a => m.insert a (flag .lockerMember)) m).get x =
      if x ∈ l then some (flag .lockerMember) else m.get x := by
  induction l generalizing m with
  | nil => simp
  | cons a l ih =>
    simp only [List.foldl_cons]
    rw [ih]
    by_cases hx : x ∈ l
    · simp [hx]
    · by_cases ha : x = a
      · subst ha; simp [hx, FMap.get_insert_self]
      · simp [hx, ha, FMap.get_insert_ne _ _ ha]

theorem get_overwrite (m : FMap AccId Flags) (a : Option AccId) (p : Privilege) (x : AccId) :
    (overwrite m a p).get x = if a = some x then some (flag p) else m.get x := by
  split
  · rename_i h; subst h; exact FMap.get_insert_self _ _ _
  · rename_i h; exact get_overwrite_ne _ _ _ _ h

/-- What the upgrade with number `n` (the first is 0) makes of the privilege `q` of an account which has it or not
before: the first one converts the locker members and the release setter, the second one the payer of tips and the
administrator of credit, an account found twice keeps what is found last, and nothing else changes. -/
def afterUpgrade (n : Nat) (l : Legacy) (a : AccId) (q : Privilege) (before : Bool) : Bool :=
  if n = 0 then
    if l.setter = some a then q == .releaseSetter
    else if a ∈ l.lockers.getD [] then q == .lockerMember
    else before
  else if n = 1 then
    if l.creditAdmin = some a then q == .creditAdmin
    else if l.tipPayer = some a then q == .tipPayer
    else before
  else before

/-- Number of upgrades seen. -/
def upgrades : Option Releases → Nat
  | none => 0
  | some .v1 => 1
  | some .v2 => 2

theorem has_flag (p q : Privilege) : containsFlag (flag p) q = (q == p) := by
  cases p <;> cases q <;> decide

/-- **C12**, exactly: what each upgrade does to every account, that no privilege of an EVM address changes, and
that each of the two conversions happens once. -/
theorem C12_migration (s : State) (l : Legacy) :
    (∀ a q, hasPrivilege (migrate s l) a q = afterUpgrade (upgrades s.version) l a q (hasPrivilege s a q)) ∧
    (migrate s l).evms = s.evms ∧
    upgrades (migrate s l).version = min 2 (upgrades s.version + 1) := by
  unfold migrate
  cases hv : s.version with
  | none =>
    refine ⟨fun a q => ?_, rfl, rfl⟩
    simp only [hasPrivilege, get_overwrite, get_lockers, afterUpgrade, upgrades, if_pos]
    by_cases h1 : l.setter = some a
    · simp only [if_pos h1, has_flag]
    · by_cases h2 : a ∈ l.lockers.getD []
      · simp only [if_neg h1, if_pos h2, has_flag]
      · simp only [if_neg h1, if_neg h2]
  | some v =>
    cases v with
    | v1 =>
      refine ⟨fun a q => ?_, rfl, rfl⟩
      simp only [hasPrivilege, get_overwrite, afterUpgrade, upgrades, if_pos]
      by_cases h1 : l.creditAdmin = some a
      · simp [if_pos h1, has_flag]
      · by_cases h2 : l.tipPayer = some a
        · simp [if_neg h1, if_pos h2, has_flag]
        · simp [if_neg h1, if_neg h2]
    | v2 => exact ⟨fun a q => by simp [afterUpgrade, upgrades], rfl, by simp [upgrades, hv]⟩

/-- Two upgrades of a chain on which 5 is a locker member and 6 pays tips. -/
example : let s := migrate (migrate {} ⟨some [5], none, none, none⟩) ⟨none, none, some 6, none⟩
    hasPrivilege s 5 .lockerMember = true ∧ hasPrivilege s 6 .tipPayer = true ∧
    hasPrivilege s 6 .lockerMember = false ∧ upgrades s.version = 2 := by decide

end Verif.UserPrivileges
