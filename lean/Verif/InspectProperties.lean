import Verif.Inspect

/-!
# C116: the inspector shows the block and the extrinsic asked for
-/

namespace Verif.Inspect

open Verif

/-! ### Specification -/

/-- `c` is the hexadecimal digit of value `n`, in either case. -/
def Nibble (n : Nat) (c : Char) : Prop :=
  "0123456789abcdef".toList[n]? = some c ∨ "0123456789ABCDEF".toList[n]? = some c

/-- `s` spells the bytes `b`, two hexadecimal digits for each. -/
def Spells : List Nat → List Char → Prop
  | [], [] => True
  | b :: bs, c :: d :: s => Nibble (b / 16) c ∧ Nibble (b % 16) d ∧ Spells bs s
  | _, _ => False

instance (n : Nat) (c : Char) : Decidable (Nibble n c) := inferInstanceAs (Decidable (_ ∨ _))

instance decSpells : (b : List Nat) → (s : List Char) → Decidable (Spells b s)
  | [], [] => isTrue trivial
  | b :: bs, c :: d :: s => @instDecidableAnd _ _ _ (@instDecidableAnd _ _ _ (decSpells bs s))
  | [], _ :: _ => isFalse fun h => h
  | _ :: _, [] => isFalse fun h => h
  | _ :: _, [_] => isFalse fun h => h

/-- A decimal numeral. -/
def IsNum (s : List Char) : Prop := s ≠ [] ∧ ∀ c ∈ s, c.isDigit = true

instance (s : List Char) : Decidable (IsNum s) := inferInstanceAs (Decidable (_ ∧ _))

/-- The value of a decimal numeral. -/
def decimal : List Char → Nat
  | [] => 0
  | c :: s => (c.toNat - 48) * 10 ^ s.length + decimal s

variable {Hdr Ext : Type}

/-- The database holds the block `x` under the hash `h`. -/
def Holds (ch : Access Hdr Ext) (h : List Nat) (x : Hdr × List Ext) : Prop :=
  ch.body h = some (some x.2) ∧ ch.header h = some (some x.1)

/-! ### Lemmas -/

theorem nibble_lt {n : Nat} {c : Char} (h : Nibble n c) : n < 16 := by
  rcases h with h | h
  · exact (List.getElem?_eq_some_iff.1 h).1
  · exact (List.getElem?_eq_some_iff.1 h).1

theorem nibble_val {n : Nat} {c : Char} (h : Nibble n c) :
    hexVal c = some n ∧ isSpace c = false ∧ c ≠ 'x' ∧ c ≠ '+' := by
  have hn := nibble_lt h
  rcases n with _ | _ | _ | _ | _ | _ | _ | _ | _ | _ | _ | _ | _ | _ | _ | _ | n
  case succ.succ.succ.succ.succ.succ.succ.succ.succ.succ.succ.succ.succ.succ.succ.succ => omega
  all_goals (rcases h with h | h <;> (cases h; decide))

theorem digit_val {c : Char} (h : c.isDigit = true) :
    hexVal c = some (c.toNat - 48) ∧ isSpace c = false ∧ c ≠ 'x' ∧ c ≠ '+' ∧ c ≠ '.' ∧ c ≠ ':' ∧ c ≠ ' ' ∧
      48 ≤ c.toNat ∧ c.toNat ≤ 57 := by
  have hd : 48 ≤ c.toNat ∧ c.toNat ≤ 57 := by
    unfold Char.isDigit at h
    simp only [Bool.and_eq_true, decide_eq_true_eq] at h
    exact ⟨h.1, h.2⟩
  have ne : ∀ d : Char, ¬ (48 ≤ d.toNat ∧ d.toNat ≤ 57) → c ≠ d := fun d hn e => hn (e ▸ hd)
  have hs : isSpace c = false := by
    simp only [isSpace, Bool.or_eq_false_iff, beq_eq_false_iff_ne]
    exact ⟨⟨⟨ne _ (by decide), ne _ (by decide)⟩, ne _ (by decide)⟩, ne _ (by decide)⟩
  exact ⟨by rw [hexVal, if_pos hd], hs, ne _ (by decide), ne _ (by decide), ne _ (by decide), ne _ (by decide),
    ne _ (by decide), hd.1, hd.2⟩

theorem strip_eq {s : List Char} (h : ∀ c ∈ s, c ≠ 'x') : strip0x s = s := by
  unfold strip0x
  split
  · exact absurd rfl (h 'x' (by simp))
  · rfl

theorem mem_strip {s : List Char} {c : Char} (h : c ∈ s) (h0 : c ≠ '0') (hx : c ≠ 'x') : c ∈ strip0x s := by
  unfold strip0x
  split
  · simp only [List.mem_cons] at h
    rcases h with h | h | h
    · exact absurd h h0
    · exact absurd h hx
    · exact h
  · exact h

theorem spells_chars {b : List Nat} {s : List Char} (h : Spells b s) : ∀ c ∈ s, ∃ n, Nibble n c := by
  induction b generalizing s with
  | nil => cases s with
    | nil => intro c hc; cases hc
    | cons => exact absurd h (by simp [Spells])
  | cons b bs ih =>
    match s, h with
    | c :: d :: s, h =>
      intro e he
      simp only [List.mem_cons] at he
      rcases he with he | he | he
      · exact ⟨_, he ▸ h.1⟩
      · exact ⟨_, he ▸ h.2.1⟩
      · exact ih h.2.2 e he

theorem spells_length {b : List Nat} {s : List Char} (h : Spells b s) : s.length = 2 * b.length := by
  induction b generalizing s with
  | nil => cases s with
    | nil => rfl
    | cons => exact absurd h (by simp [Spells])
  | cons b bs ih =>
    match s, h with
    | c :: d :: s, h =>
      have := ih h.2.2
      simp only [List.length_cons]; omega

theorem spells_loop {b : List Nat} {s : List Char} (h : Spells b s) (buf : Nat) (out : List Nat) :
    hexLoop s 0 buf out = some (out ++ b) := by
  induction b generalizing s buf out with
  | nil => cases s with
    | nil => simp [hexLoop]
    | cons => exact absurd h (by simp [Spells])
  | cons b bs ih =>
    match s, h with
    | c :: d :: s, h =>
      obtain ⟨v1, s1, -⟩ := nibble_val h.1
      obtain ⟨v2, s2, -⟩ := nibble_val h.2.1
      have l1 := nibble_lt h.1
      have e : ((buf * 16 + b / 16) % 256 * 16 + b % 16) % 256 = b := by omega
      simp only [hexLoop, v1, s1, v2, s2, Bool.false_eq_true, if_false, if_true, Nat.zero_ne_one, e]
      rw [ih h.2.2]
      simp

theorem spells_fromHex {b : List Nat} {s : List Char} (h : Spells b s) :
    fromHex s = some b ∧ fromHex ('0' :: 'x' :: s) = some b := by
  have hx : strip0x s = s := strip_eq fun c hc e => by
    obtain ⟨n, hn⟩ := spells_chars h c hc
    exact (nibble_val hn).2.2.1 e
  have key : (hexLoop s (s.length % 2) 0 []).map (fun out => out ++ List.replicate ((s.length + 1) / 2 - out.length) 0) = some b := by
    have e : s.length % 2 = 0 := by rw [spells_length h]; omega
    rw [e, spells_loop h]
    have e2 : (s.length + 1) / 2 - b.length = 0 := by rw [spells_length h]; omega
    simp [e2]
  constructor
  · unfold fromHex
    simp only [hx]
    exact key
  · exact key

theorem spells_pairs {b : List Nat} {s : List Char} (h : Spells b s) :
    ∃ ds, (s.filter fun c => !isSpace c).mapM hexVal = some ds ∧ pairs ds = some b := by
  induction b generalizing s with
  | nil => cases s with
    | nil => exact ⟨[], rfl, rfl⟩
    | cons => exact absurd h (by simp [Spells])
  | cons b bs ih =>
    match s, h with
    | c :: d :: s, h =>
      obtain ⟨ds, h1, h2⟩ := ih h.2.2
      obtain ⟨v1, s1, -⟩ := nibble_val h.1
      obtain ⟨v2, s2, -⟩ := nibble_val h.2.1
      refine ⟨b / 16 :: b % 16 :: ds, ?_, ?_⟩
      · simp [List.filter_cons, s1, s2, v1, v2, h1]
      · have e : b / 16 * 16 + b % 16 = b := by omega
        simp [pairs, h2, e]

theorem spells_hash {b : List Nat} {s : List Char} (h : Spells b s) :
    (parseHash s = if b.length = 32 then some b else none) ∧
    (parseHash ('0' :: 'x' :: s) = if b.length = 32 then some b else none) := by
  have hx : strip0x s = s := strip_eq fun c hc e => by
    obtain ⟨n, hn⟩ := spells_chars h c hc
    exact (nibble_val hn).2.2.1 e
  obtain ⟨ds, h1, h2⟩ := spells_pairs h
  constructor
  · simp only [parseHash, hx, h1, h2]
  · simp only [parseHash, strip0x, h1, h2]

theorem pairs_length {ds bs : List Nat} (h : pairs ds = some bs) : ds.length = 2 * bs.length := by
  induction ds using pairs.induct generalizing bs with
  | case1 => cases h; rfl
  | case2 => cases h
  | case3 a b s ih =>
    simp only [pairs, Option.map_eq_some_iff] at h
    obtain ⟨r, hr, rfl⟩ := h
    have := ih hr
    simp only [List.length_cons]; omega

theorem num_digits {s : List Char} (h : ∀ c ∈ s, c.isDigit = true) :
    ∃ ds : List Nat, (s.filter fun c => !isSpace c).mapM hexVal = some ds ∧ ds.length = s.length := by
  induction s with
  | nil => exact ⟨[], rfl, rfl⟩
  | cons c s ih =>
    obtain ⟨ds, h1, h2⟩ := ih fun d hd => h d (by simp [hd])
    obtain ⟨v, sp, -⟩ := digit_val (h c (by simp))
    refine ⟨(c.toNat - 48) :: ds, ?_, by simp [h2]⟩
    simp [List.filter_cons, sp, v, h1]

/-- A numeral which has not 64 digits is no hash. -/
theorem num_hash {s : List Char} (h : ∀ c ∈ s, c.isDigit = true) (hl : s.length ≠ 64) : parseHash s = none := by
  have hx : strip0x s = s := strip_eq fun c hc => (digit_val (h c hc)).2.2.1
  obtain ⟨ds, h1, h2⟩ := num_digits h
  simp only [parseHash, hx, h1]
  cases hp : pairs ds with
  | none => rfl
  | some bs =>
    have := pairs_length hp
    simp only
    rw [if_neg (by omega)]

theorem numLoop_eq {bound : Nat} {s : List Char} (h : ∀ c ∈ s, c.isDigit = true) (acc : Nat) (ha : acc < bound) :
    numLoop bound s acc = if acc * 10 ^ s.length + decimal s < bound then some (acc * 10 ^ s.length + decimal s) else none := by
  induction s generalizing acc with
  | nil => simp [numLoop, decimal, ha]
  | cons c s ih =>
    obtain ⟨-, -, -, -, -, -, -, d1, d2⟩ := digit_val (h c (by simp))
    have e : acc * 10 ^ (c :: s).length + decimal (c :: s) = (acc * 10 + (c.toNat - 48)) * 10 ^ s.length + decimal s := by
      simp only [List.length_cons, decimal, Nat.pow_succ, Nat.add_mul, Nat.mul_assoc, Nat.add_assoc, Nat.mul_comm 10]
    rw [e]
    have hp : 0 < 10 ^ s.length := Nat.pow_pos (by decide)
    have hge : acc * 10 + (c.toNat - 48) ≤ (acc * 10 + (c.toNat - 48)) * 10 ^ s.length := Nat.le_mul_of_pos_right _ hp
    simp only [numLoop, d1, d2, and_self, if_true]
    by_cases h1 : acc * 10 + (c.toNat - 48) < bound
    · rw [if_pos (by omega), if_pos h1]
      exact ih (fun d hd => h d (by simp [hd])) _ h1
    · rw [if_neg (by omega : ¬ (acc * 10 + (c.toNat - 48)) * 10 ^ s.length + decimal s < bound)]
      split
      · rfl
      · rfl

theorem parseNum_eq {bound : Nat} (hb : 0 < bound) {s : List Char} (h : IsNum s) :
    parseNum bound s = if decimal s < bound then some (decimal s) else none := by
  obtain ⟨hn, hd⟩ := h
  have e : parseNum bound s = numLoop bound s 0 := by
    unfold parseNum
    split
    · exact absurd rfl hn
    · exact absurd rfl (digit_val (hd '+' (by simp))).2.2.2.1
    · exact absurd rfl (digit_val (hd '+' (by simp))).2.2.2.1
    · rfl
  rw [e, numLoop_eq hd 0 hb]
  simp

theorem hexLoop_bad {s : List Char} {c : Char} (hc : c ∈ s) (hs : isSpace c = false) (hv : hexVal c = none) (m buf : Nat)
    (out : List Nat) : hexLoop s m buf out = none := by
  induction s generalizing m buf out with
  | nil => cases hc
  | cons d s ih =>
    simp only [List.mem_cons] at hc
    rcases hc with rfl | hc
    · simp [hexLoop, hs, hv]
    · simp only [hexLoop]
      split
      · exact ih hc _ _ _
      · cases hexVal d with
        | none => rfl
        | some v =>
          simp only
          split <;> exact ih hc _ _ _

theorem fromHex_bad {s : List Char} {c : Char} (hc : c ∈ s) (hs : isSpace c = false) (hv : hexVal c = none) (h0 : c ≠ '0')
    (hx : c ≠ 'x') : fromHex s = none := by
  unfold fromHex
  simp only [hexLoop_bad (mem_strip hc h0 hx) hs hv, Option.map_none]

def isSep (c : Char) : Bool := c == '.' || c == ':' || c == ' '

theorem split_none {s : List Char} (h : ∀ c ∈ s, isSep c = false) : splitAddr s = (s, []) := by
  induction s with
  | nil => rfl
  | cons c s ih =>
    have hc := h c (by simp)
    unfold isSep at hc
    simp only [splitAddr, hc, ih fun d hd => h d (by simp [hd]), Bool.false_eq_true, if_false]

theorem split_at {s t : List Char} {c : Char} (h : ∀ c ∈ s, isSep c = false) (hc : isSep c = true) :
    splitAddr (s ++ c :: t) = (s, (splitAddr t).1 :: (splitAddr t).2) := by
  induction s with
  | nil =>
    unfold isSep at hc
    simp only [List.nil_append, splitAddr, hc, if_true]
  | cons d s ih =>
    have hd := h d (by simp)
    unfold isSep at hd
    simp only [List.cons_append, splitAddr, hd, ih fun e he => h e (by simp [he]), Bool.false_eq_true, if_false]

theorem num_sep {s : List Char} (h : ∀ c ∈ s, c.isDigit = true) : ∀ c ∈ s, isSep c = false := by
  intro c hc
  obtain ⟨-, -, -, -, h1, h2, h3, -⟩ := digit_val (h c hc)
  simp [isSep, h1, h2, h3]

theorem nibble_sep {n : Nat} {c : Char} (h : Nibble n c) : isSep c = false := by
  cases hc : isSep c with
  | false => rfl
  | true =>
    have hv := (nibble_val h).1
    have hs := (nibble_val h).2.1
    simp only [isSep, Bool.or_eq_true, beq_iff_eq] at hc
    rcases hc with (rfl | rfl) | rfl
    · cases hv
    · cases hv
    · cases hs

/-- Block and index, separated by a colon or a full stop. -/
theorem parse_pair {b i t : List Char} {c : Char} (hb : ∀ c ∈ b, isSep c = false) (hi : IsNum i) (hc : c = ':' ∨ c = '.')
    (ht : t = [] ∨ ∃ d u, t = d :: u ∧ isSep d = true) :
    parseExtrinsic (b ++ c :: (i ++ t)) =
      match parseBlock b with
      | none => none
      | some a => if decimal i < 2 ^ 64 then some (.block a (decimal i)) else none := by
  have hsep : isSep c = true := by rcases hc with rfl | rfl <;> decide
  have hx : fromHex (b ++ c :: (i ++ t)) = none := by
    refine fromHex_bad (c := c) (by simp) ?_ ?_ ?_ ?_ <;> (rcases hc with rfl | rfl <;> decide)
  have hs : ∃ r, splitAddr (i ++ t) = (i, r) := by
    rcases ht with rfl | ⟨d, u, rfl, hd⟩
    · exact ⟨_, by rw [List.append_nil]; exact split_none (num_sep hi.2)⟩
    · exact ⟨_, split_at (num_sep hi.2) hd⟩
  obtain ⟨r, hs⟩ := hs
  unfold parseExtrinsic
  rw [hx, split_at hb hsep, hs]
  cases parseBlock b with
  | none => rfl
  | some a =>
    simp only
    rw [parseNum_eq (by decide) hi]
    split <;> rfl

theorem blockOf_iff (ch : Access Hdr Ext) (h : List Nat) (x : Hdr × List Ext) : blockOf ch h = .ok x ↔ Holds ch h x := by
  unfold blockOf Holds
  cases hb : ch.body h with
  | none => simp
  | some b =>
    cases b with
    | none => simp
    | some b =>
      cases hh : ch.header h with
      | none => simp
      | some y =>
        cases y with
        | none => simp
        | some y =>
          obtain ⟨x1, x2⟩ := x
          simp only [Except.ok.injEq, Prod.mk.injEq, Option.some.injEq]
          exact And.comm

theorem getBlock_number (ch : Access Hdr Ext) (n : Nat) (x : Hdr × List Ext) :
    getBlock ch (.number n) = .ok x ↔ ∃ h, ch.hashOf n = some h ∧ Holds ch h x := by
  simp only [getBlock]
  cases ch.hashOf n with
  | none => simp
  | some h => simp [blockOf_iff]

theorem getExtrinsic_block (ch : Access Hdr Ext) (b : BlockAddress) (i : Nat) (e : Ext) :
    getExtrinsic ch (.block b i) = .ok e ↔ ∃ x, getBlock ch b = .ok x ∧ x.2[i]? = some e := by
  simp only [getExtrinsic]
  cases getBlock ch b with
  | error => simp
  | ok x => cases hx : x.2[i]? with
    | none => simp [hx]
    | some y => simp [hx]

theorem parse_number {s : List Char} (h : IsNum s) (hl : s.length ≠ 64) (hn : decimal s < 2 ^ 32) :
    parseBlock s = some (.number (decimal s)) := by
  unfold parseBlock
  rw [num_hash h.2 hl, parseNum_eq (by decide) h, if_pos hn]

theorem parse_hash {h : List Nat} {s : List Char} (hs : Spells h s) (hl : h.length = 32) :
    parseBlock s = some (.hash h) ∧ parseBlock ('0' :: 'x' :: s) = some (.hash h) := by
  obtain ⟨h1, h2⟩ := spells_hash hs
  rw [if_pos hl] at h1 h2
  exact ⟨by unfold parseBlock; rw [h1], by unfold parseBlock; rw [h2]⟩

theorem decimal_snoc (s : List Char) (c : Char) : decimal (s ++ [c]) = decimal s * 10 + (c.toNat - 48) := by
  induction s with
  | nil => simp [decimal]
  | cons d s ih =>
    simp only [List.cons_append, decimal, ih, List.length_append, List.length_cons, List.length_nil, Nat.zero_add, Nat.pow_succ]
    rw [Nat.add_mul, Nat.mul_assoc, Nat.add_assoc]

theorem digitChar_val {d : Nat} (h : d < 10) : d.digitChar.toNat - 48 = d := by
  rcases d with _ | _ | _ | _ | _ | _ | _ | _ | _ | _ | d
  case succ.succ.succ.succ.succ.succ.succ.succ.succ.succ => omega
  all_goals decide

/-- The usual way of writing a number is a numeral of this value. -/
theorem numeral (n : Nat) : IsNum (toString n).toList ∧ decimal (toString n).toList = n := by
  have e : (toString n).toList = Nat.toDigits 10 n := Nat.toList_repr
  rw [e]
  refine ⟨⟨Nat.toDigits_ne_nil, fun c hc => Nat.isDigit_of_mem_toDigits (by decide) (by decide) hc⟩, ?_⟩
  clear e
  induction n using Nat.strongRecOn with
  | ind n ih =>
    by_cases h : n < 10
    · rw [Nat.toDigits_of_lt_base h]
      simp [decimal, digitChar_val h]
    · rw [Nat.toDigits_of_base_le (by decide) (by omega), decimal_snoc, ih _ (by omega), digitChar_val (by omega)]
      omega

theorem numeral_length {n : Nat} (h : n < 2 ^ 32) : (toString n).toList.length ≠ 64 := by
  have e : (toString n).toList = Nat.toDigits 10 n := Nat.toList_repr
  rw [e]
  have := (Nat.length_toDigits_le_iff (b := 10) (n := n) (k := 10) (by decide) (by decide)).2 (by omega)
  omega

/-- What consists of hexadecimal digits and blanks is taken as bytes. -/
theorem hexLoop_ok {s : List Char} (h : ∀ c ∈ s, isSpace c = true ∨ ∃ v, hexVal c = some v) (m buf : Nat) (out : List Nat) :
    ∃ r, hexLoop s m buf out = some r := by
  induction s generalizing m buf out with
  | nil => exact ⟨_, rfl⟩
  | cons c s ih =>
    have ih := ih fun d hd => h d (by simp [hd])
    simp only [hexLoop]
    split
    · exact ih _ _ _
    · rename_i hs
      rcases h c (by simp) with h | ⟨v, h⟩
      · exact absurd h hs
      · simp only [h]
        split
        · exact ih _ _ _
        · exact ih _ _ _

theorem fromHex_ok {s : List Char} (h : ∀ c ∈ s, isSpace c = true ∨ ∃ v, hexVal c = some v) : ∃ r, fromHex s = some r := by
  have hx : strip0x s = s := strip_eq fun c hc e => by
    rcases h c hc with h | ⟨v, h⟩
    · rw [e] at h; cases h
    · rw [e] at h; cases h
  obtain ⟨r, hr⟩ := hexLoop_ok h (s.length % 2) 0 []
  exact ⟨r ++ List.replicate ((s.length + 1) / 2 - r.length) 0, by simp only [fromHex, hx, hr, Option.map_some]⟩

/-! ### C116 -/

/-- **C116** (blocks by number). -/
theorem C116_block_by_number (ch : Access Hdr Ext) {s : List Char} (h : IsNum s) (hl : s.length ≠ 64) (hn : decimal s < 2 ^ 32)
    (x : Hdr × List Ext) :
    inspectBlock ch s = .ok x ↔ ∃ h, ch.hashOf (decimal s) = some h ∧ Holds ch h x := by
  unfold inspectBlock
  rw [parse_number h hl hn]
  exact getBlock_number ch _ x

/-- **C116** (blocks by hash): with or without `0x`, in either case. -/
theorem C116_block_by_hash (ch : Access Hdr Ext) {h : List Nat} {s p : List Char} (hs : Spells h s) (hl : h.length = 32)
    (hp : p = s ∨ p = '0' :: 'x' :: s) (x : Hdr × List Ext) :
    inspectBlock ch p = .ok x ↔ Holds ch h x := by
  have e : parseBlock p = some (.hash h) := by
    rcases hp with rfl | rfl
    · exact (parse_hash hs hl).1
    · exact (parse_hash hs hl).2
  unfold inspectBlock
  rw [e]
  exact blockOf_iff ch h x

/-- **C116** (encoded blocks): bytes with `0x`, unless they are as many as a hash has. -/
theorem C116_block_bytes (ch : Access Hdr Ext) {b : List Nat} {s : List Char} (hs : Spells b s) (hl : b.length ≠ 32)
    (x : Hdr × List Ext) :
    inspectBlock ch ('0' :: 'x' :: s) = .ok x ↔ ch.decodeBlock b = some x := by
  have h1 : parseHash ('0' :: 'x' :: s) = none := by rw [(spells_hash hs).2, if_neg hl]
  have h2 : parseNum (2 ^ 32) ('0' :: 'x' :: s) = none := by
    simp [parseNum, numLoop]
  unfold inspectBlock parseBlock
  rw [h1, h2, (spells_fromHex hs).2]
  simp only [Option.map_some, getBlock]
  cases ch.decodeBlock b <;> simp

/-- **C116** (extrinsics by number of the block). -/
theorem C116_extrinsic_by_number (ch : Access Hdr Ext) {s i : List Char} {c : Char} (h : IsNum s) (hl : s.length ≠ 64)
    (hn : decimal s < 2 ^ 32) (hi : IsNum i) (hi' : decimal i < 2 ^ 64) (hc : c = ':' ∨ c = '.') (e : Ext) :
    inspectExtrinsic ch (s ++ c :: i) = .ok e ↔
      ∃ h x, ch.hashOf (decimal s) = some h ∧ Holds ch h x ∧ x.2[decimal i]? = some e := by
  have hp := parse_pair (t := []) (num_sep h.2) hi hc (.inl rfl)
  rw [List.append_nil, parse_number h hl hn] at hp
  simp only [hi', if_true] at hp
  unfold inspectExtrinsic
  rw [hp]
  show getExtrinsic ch _ = .ok e ↔ _
  rw [getExtrinsic_block]
  constructor
  · rintro ⟨x, hx, he⟩
    obtain ⟨h, h1, h2⟩ := (getBlock_number ch _ x).1 hx
    exact ⟨h, x, h1, h2, he⟩
  · rintro ⟨h, x, h1, h2, he⟩
    exact ⟨x, (getBlock_number ch _ x).2 ⟨h, h1, h2⟩, he⟩

/-- **C116** (extrinsics by hash of the block). -/
theorem C116_extrinsic_by_hash (ch : Access Hdr Ext) {h : List Nat} {s p i : List Char} {c : Char} (hs : Spells h s)
    (hl : h.length = 32) (hp : p = s ∨ p = '0' :: 'x' :: s) (hi : IsNum i) (hi' : decimal i < 2 ^ 64) (hc : c = ':' ∨ c = '.')
    (e : Ext) :
    inspectExtrinsic ch (p ++ c :: i) = .ok e ↔ ∃ x, Holds ch h x ∧ x.2[decimal i]? = some e := by
  have hb : parseBlock p = some (.hash h) ∧ ∀ c ∈ p, isSep c = false := by
    have hsep : ∀ c ∈ s, isSep c = false := fun c hc => by
      obtain ⟨n, hn⟩ := spells_chars hs c hc
      exact nibble_sep hn
    rcases hp with rfl | rfl
    · exact ⟨(parse_hash hs hl).1, hsep⟩
    · refine ⟨(parse_hash hs hl).2, fun c hc => ?_⟩
      simp only [List.mem_cons] at hc
      rcases hc with rfl | rfl | hc
      · decide
      · decide
      · exact hsep c hc
  have hp := parse_pair (t := []) hb.2 hi hc (.inl rfl)
  rw [List.append_nil, hb.1] at hp
  simp only [hi', if_true] at hp
  unfold inspectExtrinsic
  rw [hp]
  show getExtrinsic ch _ = .ok e ↔ _
  rw [getExtrinsic_block]
  constructor
  · rintro ⟨x, hx, he⟩
    exact ⟨x, (blockOf_iff ch h x).1 hx, he⟩
  · rintro ⟨x, hx, he⟩
    exact ⟨x, (blockOf_iff ch h x).2 hx, he⟩

/-- **C116** (encoded extrinsics). -/
theorem C116_extrinsic_bytes (ch : Access Hdr Ext) {b : List Nat} {s p : List Char} (hs : Spells b s)
    (hp : p = s ∨ p = '0' :: 'x' :: s) (e : Ext) :
    inspectExtrinsic ch p = .ok e ↔ ch.decodeExt b = some e := by
  have h1 : fromHex p = some b := by
    rcases hp with rfl | rfl
    · exact (spells_fromHex hs).1
    · exact (spells_fromHex hs).2
  unfold inspectExtrinsic parseExtrinsic
  rw [h1]
  simp only [getExtrinsic]
  cases ch.decodeExt b <;> simp

/-- **C116**, as usually typed: `inspect block 5`, `inspect extrinsic 5:0`. -/
theorem C116_as_typed (ch : Access Hdr Ext) (n i : Nat) (hn : n < 2 ^ 32) (hi : i < 2 ^ 64) :
    (∀ x, inspectBlock ch (toString n).toList = .ok x ↔ ∃ h, ch.hashOf n = some h ∧ Holds ch h x) ∧
    (∀ e, inspectExtrinsic ch ((toString n).toList ++ ':' :: (toString i).toList) = .ok e ↔
      ∃ h x, ch.hashOf n = some h ∧ Holds ch h x ∧ x.2[i]? = some e) := by
  obtain ⟨n1, n2⟩ := numeral n
  obtain ⟨i1, i2⟩ := numeral i
  constructor
  · intro x
    have := C116_block_by_number ch n1 (numeral_length hn) (by rw [n2]; exact hn) x
    rwa [n2] at this
  · intro e
    have := C116_extrinsic_by_number ch n1 (numeral_length hn) (by rw [n2]; exact hn) i1 (by rw [i2]; exact hi) (.inl rfl) e
    rwa [n2, i2] at this

/-! ### What is not as one may expect -/

theorem hexVal_none {c : Char} (h : c ∉ "0123456789abcdefABCDEF".toList) : hexVal c = none := by
  cases hv : hexVal c with
  | none => rfl
  | some v =>
    exfalso
    have hlt : c.toNat < 128 := by
      unfold hexVal at hv
      split at hv
      · omega
      · split at hv
        · omega
        · split at hv
          · omega
          · cases hv
    have key : ∀ n : Fin 128, (hexVal (Char.ofNat n.val)).isSome = true → Char.ofNat n.val ∈ "0123456789abcdefABCDEF".toList := by decide
    have := key ⟨c.toNat, hlt⟩
    simp only [Char.ofNat_toNat] at this
    exact h (this (by rw [hv]; rfl))

theorem loop_none {c : Char} (h : hexVal c = none) (hs : isSpace c = false) : ∀ (s : List Char) (m b : Nat) (o : List Nat), c ∈ s → hexLoop s m b o = none := by
  intro s
  induction s with
  | nil => intro m b o hc; cases hc
  | cons d s ih =>
    intro m b o hc
    unfold hexLoop
    rcases List.mem_cons.1 hc with rfl | hc
    · rw [hs, h]; rfl
    · split
      · exact ih _ _ _ hc
      · split
        · rfl
        · simp only
          split
          · exact ih _ _ _ hc
          · exact ih _ _ _ hc

theorem num_none {c : Char} (h : ¬ (48 ≤ c.toNat ∧ c.toNat ≤ 57)) (n : Nat) : ∀ (s : List Char) (a : Nat), c ∈ s → numLoop n s a = none := by
  intro s
  induction s with
  | nil => intro a hc; cases hc
  | cons d s ih =>
    intro a hc
    unfold numLoop
    rcases List.mem_cons.1 hc with rfl | hc
    · rw [if_neg h]
    · split
      · split
        · split
          · exact ih _ hc
          · rfl
        · rfl
      · rfl

/-- **C116** (other inputs): a text with any character that is no hexadecimal digit, no blank and not part of `0x` or of a
sign names no block. -/
theorem C116_refused (ch : Access Hdr Ext) {s : List Char} {c : Char} (hc : c ∈ s) (h : c ∉ "0123456789abcdefABCDEFx+ \t\n\r".toList) :
    inspectBlock ch s = .error .badAddress := by
  have h1 : hexVal c = none := hexVal_none fun hm => h (by
    have : "0123456789abcdefABCDEFx+ \t\n\r".toList = "0123456789abcdefABCDEF".toList ++ "x+ \t\n\r".toList := by decide
    rw [this]; exact List.mem_append_left _ hm)
  have hne : ∀ d ∈ "0123456789abcdefABCDEFx+ \t\n\r".toList, c ≠ d := fun d hd e => h (e ▸ hd)
  have h2 : isSpace c = false := by
    have a1 := hne ' ' (by decide)
    have a2 := hne '\t' (by decide)
    have a3 := hne '\n' (by decide)
    have a4 := hne '\r' (by decide)
    simp [isSpace, a1, a2, a3, a4]
  have h3 : ¬ (48 ≤ c.toNat ∧ c.toNat ≤ 57) := by
    intro hd
    unfold hexVal at h1
    rw [if_pos hd] at h1
    cases h1
  have h4 : c ∈ strip0x s := by
    unfold strip0x
    split
    · rcases List.mem_cons.1 hc with rfl | hc
      · exact absurd rfl (hne '0' (by decide))
      · rcases List.mem_cons.1 hc with rfl | hc
        · exact absurd rfl (hne 'x' (by decide))
        · exact hc
    · exact hc
  have e1 : parseHash s = none := by
    unfold parseHash
    have : ((strip0x s).filter fun c => !isSpace c).mapM hexVal = none := by
      have hm : c ∈ (strip0x s).filter fun c => !isSpace c := List.mem_filter.2 ⟨h4, by rw [h2]; rfl⟩
      revert hm
      generalize (strip0x s).filter (fun c => !isSpace c) = l
      intro hm
      induction l with
      | nil => cases hm
      | cons d l ih =>
        rw [List.mapM_cons]
        rcases List.mem_cons.1 hm with rfl | hm
        · rw [h1]; rfl
        · rw [ih hm]
          cases hexVal d <;> rfl
    rw [this]
  have e2 : parseNum (2 ^ 32) s = none := by
    unfold parseNum
    split
    · rfl
    · rfl
    · rename_i t _ 
      rcases List.mem_cons.1 hc with rfl | hc
      · exact absurd rfl (hne '+' (by decide))
      · exact num_none h3 _ _ _ hc
    · exact num_none h3 _ _ _ hc
  have e3 : fromHex s = none := by
    unfold fromHex
    simp only
    rw [loop_none h1 h2 _ _ _ _ h4]; rfl
  unfold inspectBlock parseBlock
  rw [e1, e2, e3]
  rfl

/-- The hypotheses are met. -/
example (ch : Access Hdr Ext) : inspectBlock ch "0x12G4".toList = .error .badAddress := C116_refused ch (c := 'G') (by decide) (by decide)

/-- **C116** (sign): a number with a plus sign in front names the same block as without; if it does not fit 32 bits it is
refused, whatever its length. -/
theorem C116_plus (ch : Access Hdr Ext) {s : List Char} (h : IsNum s) (x : Hdr × List Ext) :
    (decimal s < 2 ^ 32 → (inspectBlock ch ('+' :: s) = .ok x ↔ ∃ a, ch.hashOf (decimal s) = some a ∧ Holds ch a x)) ∧
    (2 ^ 32 ≤ decimal s → inspectBlock ch ('+' :: s) = .error .badAddress) := by
  have e1 : parseHash ('+' :: s) = none := by
    have hf : (('+' :: s).filter fun c => !isSpace c) = '+' :: s.filter fun c => !isSpace c := by
      rw [List.filter_cons]; rfl
    have hs : strip0x ('+' :: s) = '+' :: s := rfl
    have hv : hexVal '+' = none := by decide
    unfold parseHash
    rw [hs, hf, List.mapM_cons, hv]
    rfl
  have e2 : parseNum (2 ^ 32) ('+' :: s) = if decimal s < 2 ^ 32 then some (decimal s) else none := by
    have : parseNum (2 ^ 32) ('+' :: s) = numLoop (2 ^ 32) s 0 := by
      obtain ⟨hn, -⟩ := h
      cases s with
      | nil => exact absurd rfl hn
      | cons c s => rfl
    rw [this, numLoop_eq h.2 0 (by decide)]
    simp
  have e3 : fromHex ('+' :: s) = none := fromHex_bad (c := '+') (by simp) (by decide) (by decide) (by decide) (by decide)
  refine ⟨fun hn => ?_, fun hn => ?_⟩
  · unfold inspectBlock parseBlock
    rw [e1, e2, if_pos hn]
    exact getBlock_number ch _ x
  · unfold inspectBlock parseBlock
    rw [e1, e2, if_neg (by omega), e3]
    rfl

/-- **C116** (finding): a blank between block and index, which the parser provides for, never works: the whole is taken
as the bytes of an extrinsic, whatever the chain contains. -/
theorem C116_blank {s i : List Char} (h : IsNum s) (hi : IsNum i) :
    ∃ b, ∀ ch : Access Hdr Ext, inspectExtrinsic ch (s ++ ' ' :: i) =
      match ch.decodeExt b with
      | none => .error .codec
      | some e => .ok e := by
  have hok : ∀ c ∈ s ++ ' ' :: i, isSpace c = true ∨ ∃ v, hexVal c = some v := by
    intro c hc
    simp only [List.mem_append, List.mem_cons] at hc
    rcases hc with hc | rfl | hc
    · exact .inr ⟨_, (digit_val (h.2 c hc)).1⟩
    · exact .inl rfl
    · exact .inr ⟨_, (digit_val (hi.2 c hc)).1⟩
  obtain ⟨b, hb⟩ := fromHex_ok hok
  refine ⟨b, fun ch => ?_⟩
  unfold inspectExtrinsic parseExtrinsic
  rw [hb]
  simp only [getExtrinsic]
  cases ch.decodeExt b <;> rfl

/-- **C116** (finding): a block number which does not fit 32 bits is taken as the bytes of a block, not refused. -/
theorem C116_large_number {s : List Char} (h : IsNum s) (hl : s.length ≠ 64) (hn : 2 ^ 32 ≤ decimal s) :
    ∃ b, ∀ ch : Access Hdr Ext, inspectBlock ch s =
      match ch.decodeBlock b with
      | none => .error .codec
      | some x => .ok x := by
  obtain ⟨b, hb⟩ := fromHex_ok (s := s) fun c hc => .inr ⟨_, (digit_val (h.2 c hc)).1⟩
  refine ⟨b, fun ch => ?_⟩
  unfold inspectBlock parseBlock
  rw [num_hash h.2 hl, parseNum_eq (by decide) h, if_neg (by omega), hb]
  simp only [Option.map_some, getBlock]
  cases ch.decodeBlock b <;> rfl

/-- **C116** (finding): what follows after the index is ignored. -/
theorem C116_rest_ignored (ch : Access Hdr Ext) {s i u : List Char} {c d : Char} (h : IsNum s) (hi : IsNum i)
    (hc : c = ':' ∨ c = '.') (hd : d = ':' ∨ d = '.') :
    inspectExtrinsic ch (s ++ c :: (i ++ d :: u)) = inspectExtrinsic ch (s ++ c :: i) := by
  have h1 := parse_pair (t := d :: u) (num_sep h.2) hi hc (.inr ⟨d, u, rfl, by rcases hd with rfl | rfl <;> decide⟩)
  have h2 := parse_pair (t := []) (num_sep h.2) hi hc (.inl rfl)
  rw [List.append_nil] at h2
  unfold inspectExtrinsic
  rw [h1, h2]

/-! ### Examples -/

/-- A chain of two blocks: number 0 with hash 00…00 and one extrinsic, number 1 with hash ab…ab and two. -/
def demo : Access String String where
  hashOf := fun n => if n = 0 then some (List.replicate 32 0) else if n = 1 then some (List.replicate 32 171) else none
  body := fun h => some (if h = List.replicate 32 0 then some ["timestamp"] else
    if h = List.replicate 32 171 then some ["timestamp", "transfer"] else none)
  header := fun h => some (if h = List.replicate 32 0 then some "genesis" else
    if h = List.replicate 32 171 then some "first" else none)
  decodeBlock := fun b => if b = [1, 2, 3] then some ("raw", []) else none
  decodeExt := fun b => if b = [0, 0] then some "zero" else none

example : inspectBlock demo "+01".toList = .ok ("first", ["timestamp", "transfer"]) ∧
    inspectBlock demo "+4294967296".toList = .error .badAddress :=
  ⟨((C116_plus demo (s := "01".toList) (by decide) _).1 (by decide)).2 ⟨_, rfl, rfl, rfl⟩,
   (C116_plus demo (s := "4294967296".toList) (by decide) ("", [])).2 (by decide)⟩

example : inspectBlock demo "1".toList = .ok ("first", ["timestamp", "transfer"]) :=
  ((C116_as_typed demo 1 0 (by decide) (by decide)).1 _).2 ⟨_, rfl, rfl, rfl⟩

example : inspectExtrinsic demo "1:1".toList = .ok "transfer" :=
  ((C116_as_typed demo 1 1 (by decide) (by decide)).2 _).2 ⟨_, ("first", ["timestamp", "transfer"]), rfl, ⟨rfl, rfl⟩, rfl⟩

/-- There is no extrinsic 2 in block 1. -/
example (e : String) : inspectExtrinsic demo "1:2".toList ≠ .ok e := by
  intro h
  obtain ⟨k, x, h1, ⟨h2, -⟩, h3⟩ := ((C116_as_typed demo 1 2 (by decide) (by decide)).2 e).1 h
  obtain rfl : List.replicate 32 171 = k := Option.some.inj h1
  have h2 : ["timestamp", "transfer"] = x.2 := Option.some.inj (Option.some.inj h2)
  rw [← h2] at h3
  cases h3

example : inspectExtrinsic demo ("0x".toList ++ (List.replicate 32 "aB".toList).flatten ++ ".1".toList) = .ok "transfer" :=
  (C116_extrinsic_by_hash demo (h := List.replicate 32 171) (s := (List.replicate 32 "aB".toList).flatten) (i := "1".toList)
    (by decide) rfl (.inr rfl) (by decide) (by decide) (.inr rfl) "transfer").2
    ⟨("first", ["timestamp", "transfer"]), ⟨rfl, rfl⟩, rfl⟩

example : inspectBlock demo "0x010203".toList = .ok ("raw", []) :=
  (C116_block_bytes demo (b := [1, 2, 3]) (s := "010203".toList) (by decide) (by decide) _).2 rfl

example : inspectExtrinsic demo "0000".toList = .ok "zero" :=
  (C116_extrinsic_bytes demo (b := [0, 0]) (s := "0000".toList) (by decide) (.inl rfl) _).2 rfl

/-- The address `0 0` of the test in the code: not extrinsic 0 of block 0. -/
example : inspectExtrinsic demo "0 0".toList = .ok "zero" ∧ inspectExtrinsic demo "0:0".toList = .ok "timestamp" :=
  ⟨rfl, rfl⟩

/-- `4294967296` is taken as five bytes. -/
example : parseBlock "4294967296".toList = some (.bytes [0x42, 0x94, 0x96, 0x72, 0x96]) := by decide

end Verif.Inspect
