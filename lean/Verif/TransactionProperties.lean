import Verif.Transaction
import Mathlib.Data.List.Nodup

/-
C129: what a signed transaction is good for. When is it executed, in whose name, how often, for how long.
-/

namespace Verif.Transaction

open FMap

/-! ### Eras -/

theorem nextPow2_pow (n : Nat) : ∃ k, nextPow2 n = 2 ^ k := by
  unfold nextPow2
  by_cases h : n ≤ 1
  · exact ⟨0, by simp [h]⟩
  · exact ⟨Nat.log2 (n - 1) + 1, by simp [h]⟩

/-- `nextPow2` is what its name says. -/
theorem nextPow2_le (n : Nat) : n ≤ nextPow2 n := by
  unfold nextPow2
  by_cases h : n ≤ 1
  · simp [h]
  · simp only [h, if_false]
    have := (Nat.log2_lt (n := n - 1) (k := Nat.log2 (n - 1) + 1) (by omega)).1 (Nat.lt_succ_self _)
    omega

theorem nextPow2_least (n k : Nat) (h : n ≤ 2 ^ k) : nextPow2 n ≤ 2 ^ k := by
  unfold nextPow2
  by_cases h1 : n ≤ 1
  · simp only [h1, if_true]; exact Nat.one_le_two_pow
  · simp only [h1, if_false]
    refine Nat.pow_le_pow_right (by omega) ?_
    have : Nat.log2 (n - 1) < k := (Nat.log2_lt (by omega)).2 (by omega)
    omega

theorem trailingZeros_pow (k f : Nat) (h : k < f) : trailingZeros f (2 ^ k) = k := by
  induction k generalizing f with
  | zero =>
    obtain ⟨g, rfl⟩ : ∃ g, f = g + 1 := ⟨f - 1, by omega⟩
    simp [trailingZeros]
  | succ k ih =>
    obtain ⟨g, rfl⟩ : ∃ g, f = g + 1 := ⟨f - 1, by omega⟩
    have h2 : 2 ^ (k + 1) % 2 ≠ 1 := by rw [Nat.pow_succ]; omega
    have h3 : 2 ^ (k + 1) / 2 = 2 ^ k := by rw [Nat.pow_succ]; omega
    simp only [trailingZeros, h2, if_false, h3, ih g (by omega)]

theorem quant_pos (p : Nat) : 0 < quant p := by unfold quant; omega

theorem le_quant (k : Nat) : 2 ^ k ≤ 4096 * quant (2 ^ k) := by
  unfold quant
  by_cases h : k ≤ 12
  · have : 2 ^ k ≤ 2 ^ 12 := Nat.pow_le_pow_right (by omega) h
    omega
  · have : 2 ^ k = 2 ^ (k - 12) * 4096 := by
      rw [show (4096 : Nat) = 2 ^ 12 from rfl, ← Nat.pow_add]; congr 1; omega
    omega

/-- The period of a new era is a power of two between 4 and 2^16. -/
theorem new_pow (n c : Nat) : ∃ k, 2 ≤ k ∧ k ≤ 16 ∧
    Era.new n c = .mortal (2 ^ k) (c % 2 ^ k / quant (2 ^ k) * quant (2 ^ k)) := by
  obtain ⟨j, hj⟩ := nextPow2_pow n
  have key : ∃ k, 2 ≤ k ∧ k ≤ 16 ∧ min 65536 (max 4 (2 ^ j)) = 2 ^ k := by
    by_cases h2 : j ≤ 2
    · have : 2 ^ j ≤ 2 ^ 2 := Nat.pow_le_pow_right (by omega) h2
      exact ⟨2, by omega, by omega, by omega⟩
    · by_cases h16 : 16 ≤ j
      · have : 2 ^ 16 ≤ 2 ^ j := Nat.pow_le_pow_right (by omega) h16
        exact ⟨16, by omega, by omega, by omega⟩
      · have a : 2 ^ j ≤ 2 ^ 16 := Nat.pow_le_pow_right (by omega) (by omega)
        have b : 2 ^ 2 ≤ 2 ^ j := Nat.pow_le_pow_right (by omega) (by omega)
        exact ⟨j, by omega, by omega, by omega⟩
  obtain ⟨k, h2, h16, hk⟩ := key
  exact ⟨k, h2, h16, by simp only [Era.new, hj, hk]⟩

/-- Bytes and eras: what `Era::mortal` makes is read back as it was written. -/
theorem decode_encode_new (n c : Nat) (rest : List Nat) :
    Era.decode ((Era.new n c).encode ++ rest) = some (Era.new n c, rest) := by
  obtain ⟨k, h2, h16, hk⟩ := new_pow n c
  rw [hk]
  have hq := quant_pos (2 ^ k)
  have hle := le_quant k
  have hp : 0 < 2 ^ k := Nat.two_pow_pos k
  have hx : c % 2 ^ k / quant (2 ^ k) < 4096 := by
    refine Nat.div_lt_of_lt_mul ?_
    have := Nat.mod_lt c hp
    rw [Nat.mul_comm]; omega
  have hdiv : c % 2 ^ k / quant (2 ^ k) * quant (2 ^ k) / quant (2 ^ k) = c % 2 ^ k / quant (2 ^ k) :=
    Nat.mul_div_cancel _ hq
  have hlt : c % 2 ^ k / quant (2 ^ k) * quant (2 ^ k) < 2 ^ k :=
    Nat.lt_of_le_of_lt (Nat.div_mul_le_self _ _) (Nat.mod_lt c hp)
  have htz := trailingZeros_pow k 64 (by omega)
  simp only [Era.encode, hdiv, htz]
  generalize hX : c % 2 ^ k / quant (2 ^ k) = x at *
  have he : (min 15 (max 1 (k - 1)) + x * 16) % 65536 = (k - 1) + x * 16 := by omega
  simp only [he, List.cons_append, List.nil_append, Era.decode]
  have hb : ¬ ((k - 1 + x * 16) % 256 = 0) := by omega
  have he2 : (k - 1 + x * 16) % 256 + (k - 1 + x * 16) / 256 * 256 = k - 1 + x * 16 := by omega
  have hm : (k - 1 + x * 16) % 16 = k - 1 := by omega
  have hd : (k - 1 + x * 16) / 16 = x := by omega
  have hpow : 2 * 2 ^ (k - 1) = 2 ^ k := by
    obtain ⟨j, rfl⟩ : ∃ j, k = j + 1 := ⟨k - 1, by omega⟩
    rw [Nat.pow_succ]; simp only [Nat.add_sub_cancel]; omega
  have h4 : 4 ≤ 2 ^ k := Nat.pow_le_pow_right (n := 2) (by omega) h2
  simp only [hb, if_false, he2, hm, hd, hpow, hlt, h4, and_self, if_true]

/-- What is read is well-formed, and there is only one way to write it. -/
theorem encode_decode (bs : List Nat) (hb : ∀ b ∈ bs, b < 256) (e : Era) (rest : List Nat)
    (h : Era.decode bs = some (e, rest)) :
    bs = e.encode ++ rest ∧ ∀ p f, e = .mortal p f → f < p := by
  match bs, h with
  | [], h => simp [Era.decode] at h
  | b :: r, h =>
    unfold Era.decode at h
    by_cases h0 : b = 0
    · simp only [h0, if_true, Option.some.injEq, Prod.mk.injEq] at h
      obtain ⟨rfl, rfl⟩ := h
      exact ⟨by simp [h0, Era.encode], fun p f hh => by cases hh⟩
    · simp only [h0, if_false] at h
      match r, h with
      | [], h => simp at h
      | b1 :: r', h =>
        have hb0 := hb b (by simp)
        have hb1 := hb b1 (by simp)
        simp only at h
        split at h
        · rename_i hc
          simp only [Option.some.injEq, Prod.mk.injEq] at h
          obtain ⟨rfl, rfl⟩ := h
          refine ⟨?_, ?_⟩
          · have hpow : 2 * 2 ^ ((b + b1 * 256) % 16) = 2 ^ ((b + b1 * 256) % 16 + 1) := by
              rw [Nat.pow_succ]; omega
            have hj : 1 ≤ (b + b1 * 256) % 16 := by
              rcases Nat.eq_zero_or_pos ((b + b1 * 256) % 16) with hz | hz
              · rw [hz] at hc; omega
              · exact hz
            simp only [Era.encode, hpow, trailingZeros_pow ((b + b1 * 256) % 16 + 1) 64 (by omega),
              Nat.mul_div_cancel _ (quant_pos _)]
            have he : (min 15 (max 1 ((b + b1 * 256) % 16 + 1 - 1)) + (b + b1 * 256) / 16 * 16) % 65536 = b + b1 * 256 := by omega
            rw [he]
            have e1 : (b + b1 * 256) % 256 = b := by omega
            have e2 : (b + b1 * 256) / 256 = b1 := by omega
            rw [e1, e2]; rfl
          · intro p f hh
            cases hh
            exact hc.2
        · cases h

/-- `birth` of a mortal era: the block congruent to the phase in the last `period` blocks. -/
theorem birth_iff {p f m b : Nat} (hf : f < p) (hm : f ≤ m) :
    (Era.mortal p f).birth m = b ↔ b ≤ m ∧ m < b + p ∧ b % p = f := by
  have hp : 0 < p := by omega
  have hmax : max m f = m := by omega
  have hdm := Nat.div_add_mod (m - f) p
  have hml := Nat.mod_lt (m - f) hp
  constructor
  · intro h
    simp only [Era.birth, hmax] at h
    subst h
    rw [Nat.mul_comm] at hdm
    refine ⟨by omega, by omega, ?_⟩
    rw [Nat.add_comm, Nat.add_mul_mod_self_right, Nat.mod_eq_of_lt hf]
  · intro ⟨h1, h2, h3⟩
    simp only [Era.birth, hmax]
    have hb := Nat.div_add_mod b p
    rw [h3, Nat.mul_comm] at hb
    have : (m - f) / p = b / p := by
      have e : m - f = (m - b) + b / p * p := by omega
      rw [e, Nat.add_mul_div_right _ _ hp, Nat.div_eq_of_lt (by omega)]; omega
    rw [this]; omega

/-- Before the phase of the very first period is reached, the era begins in the future. -/
theorem birth_early {p f m : Nat} (h : m < f) : (Era.mortal p f).birth m = f := by
  simp only [Era.birth]
  have : max m f - f = 0 := by omega
  rw [this]; simp

/-! ### The table of hashes -/

/-- The hashes of the blocks, as they were given to the following block. -/
def parents : List Op → List Nat
  | [] => []
  | .block h :: os => h :: parents os
  | _ :: os => parents os

theorem parents_append (a b : List Op) : parents (a ++ b) = parents a ++ parents b := by
  induction a with
  | nil => rfl
  | cons o os ih => cases o <;> simp [parents, ih]

theorem run_append (cfg : Cfg) (s : State) (a b : List Op) :
    run cfg s (a ++ b) = run cfg (run cfg s a) b := by
  induction a generalizing s with
  | nil => rfl
  | cons o os ih => simp [run, ih]

/-- Which hashes are known in block `n`: those of the last `hashCount + 1` blocks, and the first. -/
def known (hc n k : Nat) : Prop := k < n ∧ (k = 0 ∨ n ≤ k + hc + 1)

instance (hc n k : Nat) : Decidable (known hc n k) := by unfold known; infer_instance

/-- The table of hashes after blocks with the hashes `ps`. -/
def Table (cfg : Cfg) (s : State) (ps : List Nat) : Prop :=
  s.number = ps.length ∧
    ∀ k, 0 < s.number → s.hashes.get k = if known cfg.hashCount s.number k then ps[k]? else none

theorem step_signed (cfg : Cfg) (s : State) (t : Tx) (ok : Bool) :
    (step cfg s (.signed t ok)).1.number = s.number ∧ (step cfg s (.signed t ok)).1.hashes = s.hashes ∧
    (step cfg s (.signed t ok)).1.index = s.index ∧ (step cfg s (.signed t ok)).1.spec = s.spec ∧
    (step cfg s (.signed t ok)).1.txVersion = s.txVersion := by
  simp only [step]
  cases h : apply cfg s t ok with
  | error w => simp
  | ok s' =>
    unfold apply at h
    split at h
    · cases h
    · split at h
      · cases h
      · split at h
        · cases h
        · split at h
          · cases h
          · split at h
            · cases h
            · split at h
              · cases h
              · split at h
                · cases h
                · cases h; simp

theorem table_step (cfg : Cfg) (s : State) (ps : List Nat) (o : Op) (h : Table cfg s ps)
    (h0 : s.number = 0 → ∀ k, 0 < k → s.hashes.get k = none) :
    Table cfg (step cfg s o).1 (ps ++ parents [o]) ∧
    ((step cfg s o).1.number = 0 → ∀ k, 0 < k → (step cfg s o).1.hashes.get k = none) := by
  cases o with
  | block p =>
    refine ⟨⟨by simp [step, parents, h.1], ?_⟩, by simp [step]⟩
    intro k _
    simp only [step, parents]
    rw [get_insert]
    by_cases hk : k = s.number
    · have e : (ps ++ [p])[k]? = some p := by
        rw [List.getElem?_append_right (by rw [hk, h.1]; exact Nat.le_refl _), hk, h.1]; simp
      have : known cfg.hashCount (s.number + 1) k := ⟨by omega, by omega⟩
      simp only [hk, if_true] at *
      simp [this, e]
    · simp only [hk, if_false]
      by_cases hpos : 0 < s.number
      · have hold := h.2 k hpos
        have hidx : k < s.number → (ps ++ [p])[k]? = ps[k]? := fun hh =>
          List.getElem?_append_left (by rw [← h.1]; exact hh)
        by_cases hr : s.number - cfg.hashCount - 1 = 0
        · simp only [hr, if_true, hold]
          by_cases hlt : k < s.number
          · have a : known cfg.hashCount s.number k := ⟨hlt, by omega⟩
            have b : known cfg.hashCount (s.number + 1) k := ⟨by omega, by omega⟩
            simp [a, b, hidx hlt]
          · have a : ¬ known cfg.hashCount s.number k := fun hh => hlt hh.1
            have b : ¬ known cfg.hashCount (s.number + 1) k := fun hh => by have := hh.1; omega
            simp [a, b]
        · simp only [hr, if_false]
          rw [get_erase]
          by_cases hkr : k = s.number - cfg.hashCount - 1
          · have b : ¬ known cfg.hashCount (s.number + 1) k := fun hh => by
              rcases hh.2 with h1 | h1 <;> omega
            simp [b, ← hkr]
          · have hkr' : ¬ (s.number - cfg.hashCount - 1 = k) := fun e => hkr e.symm
            simp only [hkr, hkr', if_false, hold]
            by_cases a : known cfg.hashCount s.number k
            · have b : known cfg.hashCount (s.number + 1) k := ⟨by have := a.1; omega, by
                rcases a.2 with h1 | h1
                · exact Or.inl h1
                · exact Or.inr (by have := a.1; omega)⟩
              simp [a, b, hidx a.1]
            · have b : ¬ known cfg.hashCount (s.number + 1) k := fun hh => a ⟨by have := hh.1; omega, by
                rcases hh.2 with h1 | h1
                · exact Or.inl h1
                · exact Or.inr (by omega)⟩
              simp [a, b]
      · have hz : s.number = 0 := by omega
        have hkp : 0 < k := by omega
        have b : ¬ known cfg.hashCount (s.number + 1) k := fun hh => by have := hh.1; omega
        have hr : s.number - cfg.hashCount - 1 = 0 := by omega
        simp [hr, b, h0 hz k hkp]
  | signed t ok =>
    obtain ⟨e1, e2, _⟩ := step_signed cfg s t ok
    simp only [parents, List.append_nil, Table]
    rw [e1, e2]
    exact ⟨h, h0⟩
  | bump a => simpa [step, parents, Table] using And.intro h h0
  | reap a => simpa [step, parents, Table] using And.intro h h0
  | setIndex i a => simpa [step, parents, Table] using And.intro h h0
  | upgrade v w => simpa [step, parents, Table] using And.intro h h0

theorem table_run (cfg : Cfg) (s : State) (ps : List Nat) (ops : List Op) (h : Table cfg s ps)
    (h0 : s.number = 0 → ∀ k, 0 < k → s.hashes.get k = none) :
    Table cfg (run cfg s ops) (ps ++ parents ops) := by
  induction ops generalizing s ps with
  | nil => simpa [run, parents] using h
  | cons o os ih =>
    obtain ⟨a, b⟩ := table_step cfg s ps o h h0
    have := ih _ _ a b
    rw [List.append_assoc, ← parents_append] at this
    exact this

theorem table_genesis (cfg : Cfg) (g : Nat) (ops : List Op) :
    Table cfg (run cfg (genesis g) ops) (parents ops) := by
  have := table_run cfg (genesis g) [] ops ⟨rfl, fun k hk => by cases hk⟩
    (fun _ k hk => by
      show FMap.get ((∅ : FMap Nat Nat).insert 0 g) k = none
      rw [get_insert_ne _ _ (by omega)]; rfl)
  simpa using this

/-! ### When a transaction is executed -/

/-- C129 (exactly when): a signed transaction is executed exactly when: its address names an account, which is not the zero
account; the hash of the block in which its lifetime begins is known; its signature is one of that
account under the call with nonce, era, tip, the present versions, the hash of the first block and that
hash; the nonce is the next one of the account; and there is room and the fee can be paid. -/
theorem C129_exact (cfg : Cfg) (s : State) (t : Tx) (ok : Bool) (a : AccId) :
    (step cfg s (.signed t ok)).2 = .executed a ↔
      lookup s t.addr = some a ∧ a ≠ 0 ∧ t.nonce = (s.nonce.get a).getD 0 ∧ ok = true ∧
      ∃ h, s.hashes.get (t.era.birth s.number) = some h ∧
        cfg.verify ⟨t.call, t.era, t.nonce, t.tip, s.spec, s.txVersion, (s.hashes.get 0).getD 0, h⟩ a t.sig = true := by
  simp only [step, apply, payload]
  cases hl : lookup s t.addr with
  | none => simp
  | some b =>
    cases hh : s.hashes.get (t.era.birth s.number) with
    | none => simp
    | some h =>
      simp only [Option.getD_some, Option.some.injEq]
      by_cases hv : cfg.verify ⟨t.call, t.era, t.nonce, t.tip, s.spec, s.txVersion, (s.hashes.get 0).getD 0, h⟩ b t.sig = true
      · by_cases hb : b = 0
        · subst hb
          simp only [hv, Bool.not_true, Bool.false_eq_true, if_false, if_true]
          constructor
          · intro x; cases x
          · rintro ⟨rfl, h0, _⟩; exact absurd rfl h0
        · by_cases h1 : t.nonce < (s.nonce.get b).getD 0
          · simp only [hv, Bool.not_true, Bool.false_eq_true, if_false, hb, h1, if_true]
            constructor
            · intro x; cases x
            · rintro ⟨rfl, _, hn, _⟩; omega
          · by_cases h2 : (s.nonce.get b).getD 0 < t.nonce
            · simp only [hv, Bool.not_true, Bool.false_eq_true, if_false, hb, h1, h2, if_true]
              constructor
              · intro x; cases x
              · rintro ⟨rfl, _, hn, _⟩; omega
            · cases ok with
              | false =>
                simp only [hv, Bool.not_true, Bool.false_eq_true, if_false, hb, h1, h2, Bool.not_false, if_true]
                constructor
                · intro x; cases x
                · rintro ⟨_, _, _, hx, _⟩; cases hx
              | true =>
                simp only [hv, Bool.not_true, Bool.false_eq_true, if_false, hb, h1, h2, Out.executed.injEq]
                constructor
                · rintro rfl
                  exact ⟨rfl, hb, by omega, trivial, h, rfl, hv⟩
                · rintro ⟨rfl, _⟩; rfl
      · have hv' : cfg.verify ⟨t.call, t.era, t.nonce, t.tip, s.spec, s.txVersion, (s.hashes.get 0).getD 0, h⟩ b t.sig = false := by
          simpa using hv
        simp only [hv', Bool.not_false, if_true]
        constructor
        · intro x; cases x
        · rintro ⟨rfl, _, _, _, h', e, hx⟩
          cases e
          rw [hv'] at hx; cases hx

/-- Execution uses up one nonce of that account and touches nothing else of these tables; a
transaction that is not executed leaves everything as it is. -/
theorem executed_nonce (cfg : Cfg) (s : State) (t : Tx) (ok : Bool) (b : AccId) :
    ((step cfg s (.signed t ok)).1.nonce.get b).getD 0 =
      if (step cfg s (.signed t ok)).2 = .executed b then ((s.nonce.get b).getD 0 + 1) % cfg.nonces
      else (s.nonce.get b).getD 0 := by
  by_cases hx : ∃ a, (step cfg s (.signed t ok)).2 = .executed a
  · obtain ⟨a, ha⟩ := hx
    have hi := (C129_exact cfg s t ok a).1 ha
    obtain ⟨hl, h0, hn, hok, h, hh, hv⟩ := hi
    have e : apply cfg s t ok = .ok { s with nonce := s.nonce.insert a (((s.nonce.get a).getD 0 + 1) % cfg.nonces) } := by
      unfold apply
      simp only [hl, payload, hh, hv, Bool.not_true, Bool.false_eq_true, if_false, h0, hok]
      rw [if_neg (by omega), if_neg (by omega)]
    have e2 : (step cfg s (.signed t ok)).1 = { s with nonce := s.nonce.insert a (((s.nonce.get a).getD 0 + 1) % cfg.nonces) } := by
      simp only [step, e]
    rw [ha, e2]
    simp only [Out.executed.injEq]
    by_cases hab : a = b
    · subst hab; simp
    · rw [get_insert_ne _ _ (Ne.symm hab), if_neg hab]
  · rw [if_neg (fun hb => hx ⟨b, hb⟩)]
    simp only [step] at hx ⊢
    cases ha : apply cfg s t ok with
    | ok s' => exact absurd ⟨_, by rw [ha]⟩ hx
    | error w => rfl

/-- By how much the nonce of the account is moved: its executed transactions, and other increments. -/
def used (cfg : Cfg) (a : AccId) : State → List Op → Nat
  | _, [] => 0
  | s, o :: os =>
    (match (generalizing := false) o with
     | .bump b => if b = a then 1 else 0
     | .signed t ok => if (step cfg s (.signed t ok)).2 = .executed a then 1 else 0
     | _ => 0) + used cfg a (step cfg s o).1 os

theorem nonce_run (cfg : Cfg) (a : AccId) (s : State) (ops : List Op) (hr : .reap a ∉ ops) :
    ((run cfg s ops).nonce.get a).getD 0 % cfg.nonces = ((s.nonce.get a).getD 0 + used cfg a s ops) % cfg.nonces := by
  induction ops generalizing s with
  | nil => simp [run, used]
  | cons o os ih =>
    simp only [run, used]
    rw [ih _ (fun hm => hr (List.mem_cons_of_mem _ hm))]
    have ho : o ≠ .reap a := fun e => hr (by rw [e]; exact List.mem_cons_self)
    cases o with
    | block p => simp [step]
    | signed t ok =>
      simp only
      rw [executed_nonce]
      by_cases hx : (step cfg s (.signed t ok)).2 = .executed a
      · simp only [hx, if_true]
        rw [Nat.mod_add_mod, Nat.add_assoc]
      · simp [hx]
    | bump b =>
      simp only [step]
      by_cases hb : b = a
      · subst hb
        simp only [get_insert_self, Option.getD_some, if_true]
        rw [Nat.mod_add_mod, Nat.add_assoc]
      · rw [get_insert_ne _ _ (Ne.symm hb)]; simp [hb]
    | reap b =>
      have hb : a ≠ b := fun e => ho (by rw [e])
      simp only [step]
      rw [get_erase_ne _ hb]; simp
    | setIndex i b => simp [step]
    | upgrade v w => simp [step]

/-- C129 (execution): a signed transaction is executed only in the name of an account whose signature
it carries, for exactly this call, this nonce, this chain (hash of the first block) and the present
version of the runtime; the nonce must be the next one of that account, and is used up. -/
theorem C129_authorised (cfg : Cfg) (g : Nat) (ops : List Op) (t : Tx) (ok : Bool) (a : AccId) :
    let s := run cfg (genesis g) ops
    0 < s.number → (step cfg s (.signed t ok)).2 = .executed a →
      a ≠ 0 ∧ (t.addr = .id a ∨ ∃ i, t.addr = .index i ∧ s.index.get i = some a) ∧
      t.nonce = (s.nonce.get a).getD 0 ∧
      (((step cfg s (.signed t ok)).1.nonce.get a).getD 0 = (t.nonce + 1) % cfg.nonces) ∧
      (∀ b, b ≠ a → ((step cfg s (.signed t ok)).1.nonce.get b).getD 0 = (s.nonce.get b).getD 0) ∧
      ∃ p, cfg.verify p a t.sig = true ∧ p.call = t.call ∧ p.nonce = t.nonce ∧ p.era = t.era ∧ p.tip = t.tip ∧
        p.spec = s.spec ∧ p.txVersion = s.txVersion ∧ (parents ops)[0]? = some p.genesis := by
  intro s hs h
  obtain ⟨hl, h0, hn, hok, hh, hg, hv⟩ := (C129_exact cfg s t ok a).1 h
  have htab := table_genesis cfg g ops
  refine ⟨h0, ?_, hn, ?_, ?_, _, hv, rfl, rfl, rfl, rfl, rfl, rfl, ?_⟩
  · cases ha : t.addr with
    | id b => rw [ha] at hl; simp only [lookup, Option.some.injEq] at hl; exact Or.inl (by rw [hl])
    | index i => rw [ha] at hl; exact Or.inr ⟨i, rfl, hl⟩
    | other => rw [ha] at hl; cases hl
  · rw [executed_nonce, if_pos h, hn]
  · intro b hb
    rw [executed_nonce, if_neg]
    rw [h]; intro e; cases e; exact hb rfl
  · have h00 := htab.2 0 hs
    have hk : known cfg.hashCount s.number 0 := ⟨hs, Or.inl rfl⟩
    have hlen : 0 < (parents ops).length := by rw [← htab.1]; exact hs
    rw [if_pos hk] at h00
    rw [List.getElem?_eq_getElem hlen] at h00 ⊢
    show some _ = some ((s.hashes.get 0).getD 0)
    rw [h00]; rfl

/-- C129 (at most once): between two executions of the same transaction its account has been removed
from the chain, or at least as many nonces as there are have been used (2^32). It is assumed that a
signature is one of a single account. -/
theorem C129_once_partial (cfg : Cfg) (s : State) (t : Tx) (ok ok' : Bool) (mid : List Op) (a b : AccId)
    (huniq : ∀ p p' x y, cfg.verify p x t.sig = true → cfg.verify p' y t.sig = true → x = y)
    (h1 : (step cfg s (.signed t ok)).2 = .executed a)
    (h2 : (step cfg (run cfg (step cfg s (.signed t ok)).1 mid) (.signed t ok')).2 = .executed b) :
    b = a ∧ (.reap a ∈ mid ∨ cfg.nonces ≤ used cfg a (step cfg s (.signed t ok)).1 mid + 1) := by
  obtain ⟨_, _, hn1, _, _, _, hv1⟩ := (C129_exact cfg s t ok a).1 h1
  obtain ⟨_, _, hn2, _, _, _, hv2⟩ := (C129_exact cfg _ t ok' b).1 h2
  have hab : b = a := huniq _ _ _ _ hv2 hv1
  subst hab
  refine ⟨rfl, ?_⟩
  by_cases hr : .reap b ∈ mid
  · exact Or.inl hr
  · right
    have hrun := nonce_run cfg b (step cfg s (.signed t ok)).1 mid hr
    rw [executed_nonce, if_pos h1, ← hn2, ← hn1, Nat.mod_add_mod] at hrun
    generalize used cfg b (step cfg s (.signed t ok)).1 mid = u at hrun ⊢
    rcases Nat.lt_or_ge (u + 1) cfg.nonces with hlt | hge
    · exfalso
      have hN : 0 < cfg.nonces := by omega
      have hdvd : cfg.nonces ∣ (t.nonce + 1 + u) - t.nonce := 
        Nat.dvd_of_mod_eq_zero (Nat.sub_mod_eq_zero_of_mod_eq hrun.symm)
      have : t.nonce + 1 + u - t.nonce = u + 1 := by omega
      rw [this] at hdvd
      have := Nat.le_of_dvd (by omega) hdvd
      omega
    · exact hge

/-- C129 (lifetime): a transaction signed for a block with hash `h` is executed only while that block
is among the last ones: `h` is the hash of an earlier block of this chain; of a mortal transaction it is
less than a period old, and in any case not more than `hashCount + 1` blocks, unless it is the first
block. -/
theorem C129_lifetime (cfg : Cfg) (g : Nat) (ops : List Op) (t : Tx) (ok : Bool) (a : AccId) (h b : Nat)
    (hera : ∀ p f, t.era = .mortal p f → f < p)
    (hsig : ∀ p x, cfg.verify p x t.sig = true → p.birthHash = h)
    (hdist : (parents ops).Nodup) (hb : (parents ops)[b]? = some h) :
    let s := run cfg (genesis g) ops
    (step cfg s (.signed t ok)).2 = .executed a →
      b < s.number ∧ (∀ p f, t.era = .mortal p f → s.number < b + p ∧ b % p = f) ∧ (t.era = .immortal → b = 0) ∧
      (b = 0 ∨ s.number ≤ b + cfg.hashCount + 1) := by
  intro s hx
  obtain ⟨_, _, _, _, h', hh, hv⟩ := (C129_exact cfg s t ok a).1 hx
  have e : h' = h := hsig _ _ hv
  subst e
  have htab := table_genesis cfg g ops
  have hlen : b < (parents ops).length := by
    rcases Nat.lt_or_ge b (parents ops).length with hl | hl
    · exact hl
    · rw [List.getElem?_eq_none hl] at hb; cases hb
  have hpos : 0 < s.number := by rw [htab.1]; omega
  have hget := htab.2 (t.era.birth s.number) hpos
  by_cases hk : known cfg.hashCount s.number (t.era.birth s.number)
  · rw [if_pos hk] at hget
    have hget' : (parents ops)[t.era.birth s.number]? = some h' := by rw [← hget]; exact hh
    have hbe : t.era.birth s.number = b := by
      have hl2 : t.era.birth s.number < (parents ops).length := by rw [← htab.1]; exact hk.1
      exact (List.getElem?_inj hl2 hdist).1 (by rw [hget', hb])
    rw [hbe] at hk
    refine ⟨hk.1, ?_, ?_, hk.2⟩
    · intro p f he
      have hf := hera p f he
      rw [he] at hbe
      rcases Nat.lt_or_ge s.number f with hlt | hge
      · rw [birth_early hlt] at hbe
        have := hk.1; omega
      · have := (birth_iff hf hge).1 hbe
        exact ⟨this.2.1, this.2.2⟩
    · intro he
      rw [he] at hbe
      exact hbe.symm
  · rw [if_neg hk] at hget
    have : s.hashes.get (t.era.birth s.number) = none := hget
    rw [this] at hh; cases hh

/-- C129 (eras in bytes): the bytes of an era made for any period and block are read as that era, and
whatever is read has only one form in bytes and a phase within its period. -/
theorem C129_era_bytes (n c : Nat) (rest bs : List Nat) (hb : ∀ x ∈ bs, x < 256) (e : Era) :
    Era.decode ((Era.new n c).encode ++ rest) = some (Era.new n c, rest) ∧
    (Era.decode bs = some (e, rest) → bs = e.encode ++ rest ∧ ∀ p f, e = .mortal p f → f < p) :=
  ⟨decode_encode_new n c rest, encode_decode bs hb e rest⟩

/-! ### Transactions of the node itself -/

theorem new_node (c : Nat) : Era.new (nextPow2 2400 / 2) c = .mortal 2048 (c % 2048) := by
  have h1 : nextPow2 2400 = 4096 := by decide
  have h2 : nextPow2 2048 = 2048 := by decide
  have h3 : quant 2048 = 1 := by decide
  simp only [Era.new, h1, h2, h3, Nat.reduceDiv]
  simp [h2, h3]

/-- C129 (transactions of the node): the transaction that the node makes in block `n` for a call, an
account whose key it has and a nonce is executed in a later state of the same chain exactly when the
nonce is the next one of the account, the runtime has not been upgraded meanwhile, there is room and
the fee can be paid, and the block number is at most `n + 2046`. -/
theorem C129_node (cfg : Cfg) (hc : cfg.hashCount = 2400) (sign : AccId → Payload → Option Nat) (g : Nat)
    (ops ops' : List Op) (call : Nat) (a : AccId) (nonce : Nat) (t : Tx) (ok : Bool) :
    let s := run cfg (genesis g) ops
    let s' := run cfg s ops'
    0 < s.number → a ≠ 0 → (parents (ops ++ ops')).Nodup →
    (∀ p q sg, sign a p = some sg → (cfg.verify q a sg = true ↔ q = p)) →
    create cfg sign s call a nonce = some t →
      t.call = call ∧ t.tip = 0 ∧
      ((step cfg s' (.signed t ok)).2 = .executed a ↔
        s'.number ≤ s.number + 2046 ∧ nonce = (s'.nonce.get a).getD 0 ∧ s'.spec = s.spec ∧
          s'.txVersion = s.txVersion ∧ ok = true) := by
  intro s s' hs ha hdist hsign hcr
  have htab := table_genesis cfg g ops
  have htab' : Table cfg s' (parents (ops ++ ops')) := by
    have := table_genesis cfg g (ops ++ ops')
    rw [run_append] at this
    exact this
  have hle : s.number ≤ s'.number := by
    rw [htab'.1, parents_append, List.length_append]
    have := htab.1
    show (run cfg (genesis g) ops).number ≤ _
    omega
  have hs' : 0 < s'.number := by omega
  -- the payload that was signed
  have hbirth : (Era.mortal 2048 ((s.number - 1) % 2048)).birth s.number = s.number - 1 := by
    rw [birth_iff (Nat.mod_lt _ (by omega)) (by have := Nat.mod_le (s.number - 1) 2048; omega)]
    exact ⟨by omega, by omega, rfl⟩
  have hpre : ∀ k, k < s.number → (parents (ops ++ ops'))[k]? = (parents ops)[k]? := fun k hk => by
    rw [parents_append]
    exact List.getElem?_append_left (by rw [← htab.1]; exact hk)
  have hget : ∀ k, k < s.number → s.number ≤ k + 2401 → s.hashes.get k = (parents (ops ++ ops'))[k]? := fun k hk hk2 => by
    have := htab.2 k hs
    rw [if_pos ⟨hk, Or.inr (by rw [hc]; exact hk2)⟩] at this
    rw [hpre k hk]; exact this
  have hgen : s'.hashes.get 0 = s.hashes.get 0 := by
    have e1 := htab'.2 0 hs'
    have e2 := htab.2 0 hs
    rw [if_pos ⟨hs', Or.inl rfl⟩] at e1
    rw [if_pos ⟨hs, Or.inl rfl⟩] at e2
    rw [e1, hpre 0 hs]; exact e2.symm
  unfold create at hcr
  simp only [hc, new_node] at hcr
  have hp1 := hget (s.number - 1) (by omega) (by omega)
  have hlen : s.number - 1 < (parents (ops ++ ops')).length := by rw [← htab'.1]; omega
  rw [List.getElem?_eq_getElem hlen] at hp1
  generalize hH : (parents (ops ++ ops'))[s.number - 1] = H at hp1
  have hH' : (parents (ops ++ ops'))[s.number - 1]? = some H := by rw [List.getElem?_eq_getElem hlen, hH]
  simp only [payload, hbirth, hp1] at hcr
  cases hsg : sign a ⟨call, .mortal 2048 ((s.number - 1) % 2048), nonce, 0, s.spec, s.txVersion, (s.hashes.get 0).getD 0, H⟩ with
  | none => rw [hsg] at hcr; cases hcr
  | some sg =>
    rw [hsg] at hcr
    simp only [Option.some.injEq] at hcr
    subst hcr
    refine ⟨rfl, rfl, ?_⟩
    rw [C129_exact]
    simp only [lookup, true_and, ha, ne_eq, not_false_eq_true]
    constructor
    · rintro ⟨hn, hok, h, hh, hv⟩
      have hq := (hsign _ _ _ hsg).1 hv
      simp only [Payload.mk.injEq, true_and] at hq
      obtain ⟨hsp, htx, _, hbh⟩ := hq
      refine ⟨?_, hn, hsp, htx, hok⟩
      have hg := htab'.2 ((Era.mortal 2048 ((s.number - 1) % 2048)).birth s'.number) hs'
      by_cases hk : known cfg.hashCount s'.number ((Era.mortal 2048 ((s.number - 1) % 2048)).birth s'.number)
      · rw [if_pos hk] at hg
        have hbe : (Era.mortal 2048 ((s.number - 1) % 2048)).birth s'.number = s.number - 1 := by
          refine (List.getElem?_inj (by rw [← htab'.1]; exact hk.1) hdist).1 ?_
          rw [hH', ← hg, hh, hbh]
        have := (birth_iff (Nat.mod_lt _ (by omega)) (by have := Nat.mod_le (s.number - 1) 2048; omega)).1 hbe
        omega
      · rw [if_neg hk, hh] at hg; cases hg
    · rintro ⟨hm, hn, hsp, htx, hok⟩
      refine ⟨hn, hok, H, ?_, ?_⟩
      · have hbe : (Era.mortal 2048 ((s.number - 1) % 2048)).birth s'.number = s.number - 1 := by
          rw [birth_iff (Nat.mod_lt _ (by omega)) (by have := Nat.mod_le (s.number - 1) 2048; omega)]
          exact ⟨by omega, by omega, rfl⟩
        rw [hbe, htab'.2 _ hs', if_pos ⟨by omega, Or.inr (by rw [hc]; omega)⟩, hH']
      · rw [(hsign _ _ _ hsg), hsp, htx, hgen]

/-! ### Witness and examples -/

/-- A signature scheme for examples: the signature of account `a` under a payload is `a`'s number with
the call, nonce and hash in it. -/
def exVerify (p : Payload) (a : AccId) (sg : Nat) : Bool :=
  sg = a + 100 * (p.call + 100 * (p.nonce + 100 * (p.birthHash + 100 * (p.genesis + 100 * p.spec))))

/-- The configuration of the runtime with that scheme. -/
def exCfg : Cfg := ⟨2400, 2 ^ 32, exVerify⟩

/-- An immortal transaction of account 7 with nonce 0. -/
def exTx : Tx := ⟨.id 7, 7 + 100 * (5 + 100 * (0 + 100 * (11 + 100 * (11 + 100 * 3)))), .immortal, 0, 0, 5⟩

/-- A mortal one, signed in block 2 for the next four blocks after block 1. -/
def exMortal : Tx := ⟨.index 4, 7 + 100 * (5 + 100 * (0 + 100 * (12 + 100 * (11 + 100 * 3)))), .mortal 4 1, 0, 0, 5⟩

/-- The version of the runtime after a history: that of the last upgrade. -/
def versionsOf : List Op → Option (Nat × Nat)
  | [] => none
  | o :: os => (versionsOf os).or (match o with | .upgrade v w => some (v, w) | _ => none)

/-- To whom an index was given last (inner `none`: given back). -/
def ownerOf (i : Nat) : List Op → Option (Option AccId)
  | [] => none
  | o :: os => (ownerOf i os).or (match o with | .setIndex j a => if j = i then some a else none | _ => none)

theorem signed_keeps (cfg : Cfg) (s : State) (t : Tx) (ok : Bool) :
    (step cfg s (.signed t ok)).1.spec = s.spec ∧ (step cfg s (.signed t ok)).1.txVersion = s.txVersion ∧
    (step cfg s (.signed t ok)).1.index = s.index := by
  simp only [step]
  cases h : apply cfg s t ok with
  | error w => exact ⟨rfl, rfl, rfl⟩
  | ok s' =>
    unfold apply at h
    split at h
    · cases h
    split at h
    · cases h
    split at h
    · cases h
    split at h
    · cases h
    split at h
    · cases h
    split at h
    · cases h
    split at h
    · cases h
    · cases h; exact ⟨rfl, rfl, rfl⟩

theorem versions_run (cfg : Cfg) (ops : List Op) (s : State) :
    ((run cfg s ops).spec, (run cfg s ops).txVersion) = (versionsOf ops).getD (s.spec, s.txVersion) := by
  induction ops generalizing s with
  | nil => rfl
  | cons o os ih =>
    simp only [run, versionsOf]
    rw [ih]
    cases hv : versionsOf os with
    | some x => rfl
    | none =>
      simp only [Option.getD_none, Option.none_or]
      cases o with
      | signed t ok =>
        obtain ⟨h1, h2, _⟩ := signed_keeps cfg s t ok
        rw [h1, h2]
        rfl
      | _ => rfl

theorem owner_run (cfg : Cfg) (ops : List Op) (s : State) (i : Nat) :
    (run cfg s ops).index.get i = (ownerOf i ops).getD (s.index.get i) := by
  induction ops generalizing s with
  | nil => rfl
  | cons o os ih =>
    simp only [run, ownerOf]
    rw [ih]
    cases hv : ownerOf i os with
    | some x => rfl
    | none =>
      simp only [Option.getD_none, Option.none_or]
      cases o with
      | signed t ok => rw [(signed_keeps cfg s t ok).2.2]; rfl
      | setIndex j a =>
        simp only [step]
        rw [FMap.get_set]
        by_cases h : i = j
        · rw [if_pos h, if_pos h.symm]; rfl
        · rw [if_neg h, if_neg (fun e => h e.symm)]; rfl
      | _ => rfl

/-- C129 (this version, this owner): after any history of the chain from genesis, a transaction is executed only if it was signed for the
version of the last upgrade, and, when it is addressed by an index, in the name of the account the index was given to last. -/
theorem C129_current (cfg : Cfg) (g : Nat) (ops : List Op) (t : Tx) (ok : Bool) (a : AccId) :
    let s := run cfg (genesis g) ops
    (step cfg s (.signed t ok)).2 = .executed a →
      (t.addr = .id a ∨ ∃ i, t.addr = .index i ∧ ownerOf i ops = some (some a)) ∧
      ∃ p, cfg.verify p a t.sig = true ∧ p.call = t.call ∧ (p.spec, p.txVersion) = (versionsOf ops).getD (0, 0) := by
  intro s h
  obtain ⟨hl, _, _, _, _, _, hv⟩ := (C129_exact cfg s t ok a).1 h
  refine ⟨?_, _, hv, rfl, versions_run cfg ops (genesis g)⟩
  cases ha : t.addr with
  | id b => rw [ha] at hl; simp only [lookup, Option.some.injEq] at hl; exact Or.inl (by rw [hl])
  | other => rw [ha] at hl; cases hl
  | index i =>
    rw [ha] at hl
    refine Or.inr ⟨i, rfl, ?_⟩
    have hr : s.index.get i = _ := owner_run cfg ops (genesis g) i
    simp only [lookup] at hl
    rw [hl] at hr
    cases ho : ownerOf i ops with
    | none => rw [ho] at hr; cases hr
    | some x => rw [ho] at hr; rw [hr]; rfl

/-- C129, failure of the full claim: an account is removed when it is emptied, its nonce with it, so that
an immortal transaction of it can be executed again as soon as somebody sends money to the account. -/
theorem C129_executed_twice :
    let s := run exCfg (genesis 0) [.upgrade 3 1, .block 11, .block 12]
    (step exCfg s (.signed exTx true)).2 = .executed 7 ∧
    (step exCfg (step exCfg s (.signed exTx true)).1 (.signed exTx true)).2 = .rejected .stale ∧
    (step exCfg (run exCfg s [.signed exTx true, .reap 7, .block 13]) (.signed exTx true)).2 = .executed 7 := by
  decide +kernel

/-- Non-trivial instances of the hypotheses: a mortal transaction by index is executed in block 4, not in
block 5, not by another owner of the index. -/
example :
    let s := run exCfg (genesis 0) [.upgrade 3 1, .block 11, .block 12, .setIndex 4 (some 7), .block 13, .block 14]
    (step exCfg s (.signed exMortal true)).2 = .executed 7 ∧
    (step exCfg (run exCfg s [.block 15]) (.signed exMortal true)).2 = .rejected .ancient ∧
    (step exCfg (run exCfg s [.block 15, .block 16]) (.signed exMortal true)).2 = .rejected .badProof ∧
    (step exCfg (run exCfg s [.setIndex 4 (some 8)]) (.signed exMortal true)).2 = .rejected .badProof ∧
    (step exCfg (run exCfg s [.setIndex 4 none]) (.signed exMortal true)).2 = .rejected .lookup ∧
    (step exCfg (run exCfg s [.upgrade 4 1]) (.signed exMortal true)).2 = .rejected .badProof ∧
    (step exCfg (run exCfg s [.bump 7]) (.signed exMortal true)).2 = .rejected .stale := by
  decide +kernel

/-- The same history for `C129_current`. -/
example :
    let ops : List Op := [.upgrade 3 1, .block 11, .block 12, .setIndex 4 (some 8), .setIndex 4 (some 7), .block 13, .block 14]
    (step exCfg (run exCfg (genesis 0) ops) (.signed exMortal true)).2 = .executed 7 ∧ ownerOf 4 ops = some (some 7) ∧
    versionsOf ops = some (3, 1) := by
  decide +kernel

/-- The node's transactions: made in block 2, executed in block 3; the keystore has the key of 7 only. -/
example :
    let sign : AccId → Payload → Option Nat := fun a p =>
      if a = 7 then some (a + 100 * (p.call + 100 * (p.nonce + 100 * (p.birthHash + 100 * (p.genesis + 100 * p.spec))))) else none
    let s := run exCfg (genesis 0) [.upgrade 3 1, .block 11, .block 12]
    (create exCfg sign s 5 8 0).isNone = true ∧
    ((create exCfg sign s 5 7 0).map fun t => (t.era, (step exCfg (run exCfg s [.block 13]) (.signed t true)).2)) =
      some (.mortal 2048 1, .executed 7) := by
  decide +kernel

example : (Era.new 64 42).encode = [165, 2] ∧ Era.decode [165, 2, 9] = some (.mortal 64 42, [9]) ∧
    (Era.new 32768 20000).encode = [14 + 4 % 16 * 16, 2500 / 16] ∧ Era.decode [16, 0] = none := by decide

end Verif.Transaction
