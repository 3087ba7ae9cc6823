import Verif.PrecompileCredit
import Verif.CreditProofs
import Verif.CreditProperties

/-
C53 The credit precompile is authorised and decodes faithfully.
-/

namespace Verif.PrecompileCredit

open Verif.Credit (Cfg State Fail Data Core)

/-! ### Specification -/

/-- Call data of a Solidity call with an address. -/
def abiGet (account : Nat) : List Nat := toBE 4 0x87135d7d ++ toBE 32 account

/-- Call data of a Solidity call with an address and a `uint256`. -/
def abiUpdate (add : Bool) (account amount : Nat) : List Nat :=
  toBE 4 (if add then 0x5915ad98 else 0xa62184b3) ++ toBE 32 account ++ toBE 32 amount

/-- The score of a deeper account. -/
def scoreOf (s : State) (a : AccId) : Option Nat := Credit.creditScore s.core a

/-- The score after adding or subtracting; it stays in the range of `u64`. -/
def changed (add : Bool) (score amount : Nat) : Nat :=
  if add then min (score + amount) (2 ^ 64 - 1) else score - amount

/-! ### Lemmas -/

theorem ofLE_lt (l : List Nat) (h : ∀ b ∈ l, b < 256) : ofLE l < 256 ^ l.length := by
  induction l with
  | nil => simp [ofLE]
  | cons b t ih =>
    have h1 := ih (fun x hx => h x (List.mem_cons_of_mem _ hx))
    have h2 := h b List.mem_cons_self
    simp only [ofLE, List.length_cons, Nat.pow_succ]
    omega

theorem ofLE_append (l r : List Nat) : ofLE (l ++ r) = ofLE l + 256 ^ l.length * ofLE r := by
  induction l with
  | nil => simp [ofLE]
  | cons b t ih =>
    simp only [List.cons_append, ofLE, ih, List.length_cons, Nat.pow_succ, Nat.mul_add]
    have : 256 * (256 ^ t.length * ofLE r) = 256 ^ t.length * 256 * ofLE r := by
      rw [Nat.mul_comm (256 ^ t.length) 256, Nat.mul_assoc]
    omega

/-- The low bytes of a number. -/
theorem toLE_take (n m x : Nat) : (toLE (n + m) x).take n = toLE n x := by
  induction n generalizing x with
  | zero => simp [toLE]
  | succ n ih =>
    rw [show n + 1 + m = (n + m) + 1 from by omega]
    simp only [toLE, List.take_succ_cons]
    rw [ih]

/-- The low bytes of a big-endian number are its end. -/
theorem toBE_drop (n m x : Nat) : (toBE (n + m) x).drop m = toBE n x := by
  unfold toBE
  rw [List.drop_reverse, toLE_length, Nat.add_sub_cancel, toLE_take]

theorem toBE_drop_12 (x : Nat) : (toBE 32 x).drop 12 = toBE 20 x := toBE_drop 20 12 x

theorem updateHistory_get {c c' : Core} {a : AccId} {era : Nat} (h : Credit.updateHistory c a era = .ok c') :
    c'.userCredit = c.userCredit ∧ ∀ b, b ≠ a → c'.history.get b = c.history.get b := by
  unfold Credit.updateHistory at h
  split at h
  · cases h
  · split at h
    · cases h; exact ⟨rfl, fun _ _ => rfl⟩
    · cases h
      exact ⟨rfl, fun b hb => by simp only; rw [FMap.get_insert_ne _ _ hb]⟩

theorem doAdd_get {c c' : Core} {a : AccId} {d : Data} {era : Nat} (h : Credit.doAddCredit era c a d = .ok c') :
    c'.userCredit = c.userCredit.insert a d ∧ ∀ b, b ≠ a → c'.history.get b = c.history.get b := by
  unfold Credit.doAddCredit at h
  simp only at h
  split at h
  · split at h
    · cases h; exact ⟨rfl, fun _ _ => rfl⟩
    · exact updateHistory_get h
  · cases h; exact ⟨rfl, fun _ _ => rfl⟩

/-- A call that changes the state. -/
theorem update_changed {cfg : Cfg} {cost : Nat} {s s' : State} {ctx : Context} {input : List Nat} {add : Bool}
    {o : Outcome} (h : update cfg cost s ctx input add = (s', o)) (hne : s'.core ≠ s.core) :
    checkModifier ctx .nonPayable = true ∧ s.isEvmOperator ctx.caller = true ∧ basicLen + 32 ≤ input.length ∧
    o = .returned [] ∧ ∃ a c, s.evmToAccount (word input (basicLen - 20) 20) = some a ∧
      s' = { s with core := c } ∧ c ≠ s.core ∧
      ((add = true ∧ ∃ d, s.core.userCredit.get a = some d ∧
        Credit.doAddCredit (Credit.currentEra cfg s) s.core a
          (d.update (Credit.satAdd64 d.credit (word input basicLen 32 % 2 ^ 64))) = .ok c) ∨
       (add = false ∧ Credit.slashCredit cfg (Credit.currentEra cfg s) s.core a
          (some (word input basicLen 32 % 2 ^ 64)) = .ok c)) := by
  unfold update at h
  split at h
  · cases h; exact absurd rfl hne
  · rename_i hl
    split at h
    · cases h; exact absurd rfl hne
    · rename_i hm
      split at h
      · cases h; exact absurd rfl hne
      · rename_i c b hc
        split at h
        · cases h; exact absurd rfl hne
        · cases h
          rcases Credit.evmUpdateCredit_ok hc with h1 | ⟨a, d, h1, h2, h3, h4⟩
          · exact absurd h1 hne
          · refine ⟨by simpa using hm, h1, by omega, rfl, a, c, h2, rfl, hne, ?_⟩
            rcases h4 with ⟨h4, h5, h6⟩ | ⟨h4, h5⟩
            · exact .inl ⟨h4, d, h5, h6⟩
            · exact .inr ⟨h4, h5⟩

theorem modifier_iff (ctx : Context) :
    checkModifier ctx .nonPayable = true ↔ ctx.isStatic = false ∧ ctx.value = 0 := by
  unfold checkModifier
  cases hs : ctx.isStatic <;> simp

/-! ### C53 -/

/-- Whatever the call data: if the call changes credit data, then the caller is one of the configured
operators, the context is neither static nor paying, the selector is one of the two, and only the credit data
and history of the deeper account behind the address in the call data change. The new score is the old one
plus or minus the low 64 bits of the encoded amount; subtracting `2^64 - 1` removes the credit data.

Missing for the full property: the upper 192 bits of the amount are ignored, see `C53_truncates`. -/
theorem C53_partial (cfg : Cfg) (g : Gas) (s : State) (ctx : Context) (input : List Nat)
    (hne : (execute cfg g s ctx input).1.core ≠ s.core) :
    s.isEvmOperator ctx.caller = true ∧ ctx.isStatic = false ∧ ctx.value = 0 ∧
    (execute cfg g s ctx input).2 = .returned [] ∧
    ∃ a add, s.evmToAccount (ofBE ((input.drop 16).take 20)) = some a ∧
      ofBE (input.take 4) = (if add then 0x5915ad98 else 0xa62184b3) ∧
      (∀ b, b ≠ a → (execute cfg g s ctx input).1.core.userCredit.get b = s.core.userCredit.get b ∧
        (execute cfg g s ctx input).1.core.history.get b = s.core.history.get b) ∧
      (let amount := ofBE ((input.drop 36).take 32) % 2 ^ 64
       if add = false ∧ amount = 2 ^ 64 - 1 then scoreOf (execute cfg g s ctx input).1 a = none
       else ∃ score, scoreOf s a = some score ∧
        scoreOf (execute cfg g s ctx input).1 a = some (changed add score amount)) := by
  unfold execute at hne ⊢
  split at hne
  · exact absurd rfl hne
  · rename_i hl
    rw [if_neg hl]
    simp only at hne ⊢
    split at hne
    · exact absurd rfl hne
    · rename_i hg
      rw [if_neg hg]
      split at hne
      · rename_i ha
        rw [if_pos ha]
        generalize hr : update cfg g.add s ctx input true = r at hne ⊢
        obtain ⟨s', o⟩ := r
        obtain ⟨h1, h2, h3, h4, a, c, h5, h6, h7, h8⟩ := update_changed hr hne
        have hm := (modifier_iff ctx).mp h1
        rcases h8 with ⟨_, d, h9, h10⟩ | ⟨h9, _⟩
        · obtain ⟨h11, h12⟩ := doAdd_get h10
          refine ⟨h2, hm.1, hm.2, h4, a, true, h5, by simpa [word, selectorAdd] using ha, ?_, ?_⟩
          · intro b hb
            subst h6
            exact ⟨by simp only; rw [h11, FMap.get_insert_ne _ _ hb], h12 b hb⟩
          · simp only [Bool.true_eq_false, false_and, if_false]
            refine ⟨d.credit, by unfold scoreOf Credit.creditScore; rw [h9]; rfl, ?_⟩
            subst h6
            unfold scoreOf Credit.creditScore
            simp only
            rw [h11, FMap.get_insert_self]
            simp only [Option.map_some, Data.update, Credit.satAdd64, changed, Credit.u64Max]
            rfl
        · cases h9
      · rename_i ha
        rw [if_neg ha]
        split at hne
        · rename_i hsl
          rw [if_pos hsl]
          generalize hr : update cfg g.slash s ctx input false = r at hne ⊢
          obtain ⟨s', o⟩ := r
          obtain ⟨h1, h2, h3, h4, a, c, h5, h6, h7, h8⟩ := update_changed hr hne
          have hm := (modifier_iff ctx).mp h1
          rcases h8 with ⟨h9, _⟩ | ⟨_, h9⟩
          · cases h9
          · unfold Credit.slashCredit at h9
            simp only [Option.getD_some] at h9
            have hw : word input basicLen 32 = ofBE ((input.drop 36).take 32) := rfl
            rw [hw] at h9
            unfold Credit.u64Max at h9
            refine ⟨h2, hm.1, hm.2, h4, a, false, h5, by simpa [word, selectorSlash] using hsl, ?_, ?_⟩
            · intro b hb
              subst h6
              simp only
              split at h9
              · cases h9
                exact ⟨FMap.get_erase_ne _ hb, FMap.get_erase_ne _ hb⟩
              · split at h9
                · obtain ⟨k1, k2⟩ := updateHistory_get h9
                  refine ⟨by rw [k1]; exact FMap.get_insert_ne _ _ hb, k2 b hb⟩
                · obtain ⟨k1, k2⟩ := updateHistory_get h9
                  exact ⟨by rw [k1], k2 b hb⟩
            · simp only [true_and]
              subst h6
              split at h9
              · rename_i hmax
                rw [if_pos hmax]
                cases h9
                unfold scoreOf Credit.creditScore
                simp only
                rw [FMap.get_erase_self]; rfl
              · rename_i hmax
                rw [if_neg hmax]
                split at h9
                · rename_i d hd
                  obtain ⟨k1, _⟩ := updateHistory_get h9
                  refine ⟨d.credit, by unfold scoreOf Credit.creditScore; rw [hd]; rfl, ?_⟩
                  unfold scoreOf Credit.creditScore
                  simp only
                  rw [k1, FMap.get_insert_self]
                  rfl
                · rename_i hd
                  unfold Credit.updateHistory at h9
                  rw [hd] at h9
                  cases h9
        · exact absurd rfl hne

/-- A call that fails has no effect, and no call touches anything but credit data and histories. -/
theorem C53_frame (cfg : Cfg) (g : Gas) (s : State) (ctx : Context) (input : List Nat) :
    (execute cfg g s ctx input).1 = { s with core := (execute cfg g s ctx input).1.core } ∧
    ((∀ out, (execute cfg g s ctx input).2 ≠ .returned out) → (execute cfg g s ctx input).1 = s) := by
  have hu : ∀ cost add, (update cfg cost s ctx input add).1 =
      { s with core := (update cfg cost s ctx input add).1.core } ∧
      ((∀ out, (update cfg cost s ctx input add).2 ≠ .returned out) → (update cfg cost s ctx input add).1 = s) := by
    intro cost add
    unfold update
    repeat' split
    all_goals first
      | exact ⟨rfl, fun _ => rfl⟩
      | exact ⟨rfl, fun h => absurd rfl (h [])⟩
  unfold execute
  simp only
  repeat' split
  all_goals first
    | exact ⟨rfl, fun _ => rfl⟩
    | exact hu _ _

theorem word_sel (add : Bool) (a v : Nat) :
    word (abiUpdate add a v) 0 4 = if add then 0x5915ad98 else 0xa62184b3 := by
  unfold word abiUpdate
  simp only [List.drop_zero, List.append_assoc]
  rw [List.take_append_of_le_length (by simp), List.take_of_length_le (by simp)]
  apply ofBE_toBE
  cases add <;> decide

theorem word_account (add : Bool) (a v : Nat) (ha : a < 2 ^ 160) :
    word (abiUpdate add a v) (basicLen - 20) 20 = a := by
  unfold word abiUpdate
  rw [show basicLen - 20 = 4 + 12 from rfl, ← List.drop_drop, List.append_assoc,
    List.drop_left' (by simp), List.drop_append_of_le_length (by simp), toBE_drop_12, List.take_append_of_le_length (by simp),
    List.take_of_length_le (by simp)]
  exact ofBE_toBE 20 a (by simpa using ha)

theorem word_amount (add : Bool) (a v : Nat) (hv : v < 2 ^ 256) :
    word (abiUpdate add a v) basicLen 32 = v := by
  unfold word abiUpdate
  rw [List.drop_append_of_le_length (by simp [basicLen]), List.drop_of_length_le (by simp [basicLen]),
    List.nil_append, List.take_of_length_le (by simp)]
  exact ofBE_toBE 32 v (by simpa using hv)

/-- A Solidity call by an operator, with enough gas, for an account with credit and an amount below
`2^64 - 1`, changes the score by exactly the amount. -/
theorem C53_roundtrip (cfg : Cfg) (g : Gas) (s : State) (ctx : Context) (add : Bool) (account amount a score : Nat)
    (hop : s.isEvmOperator ctx.caller = true) (hst : ctx.isStatic = false) (hv : ctx.value = 0)
    (hgas : g.add ≤ ctx.gas ∧ g.slash ≤ ctx.gas) (hacc : account < 2 ^ 160) (ham : amount < 2 ^ 64 - 1)
    (hmap : s.evmToAccount account = some a) (hs : scoreOf s a = some score) :
    (execute cfg g s ctx (abiUpdate add account amount)).2 = .returned [] ∧
    scoreOf (execute cfg g s ctx (abiUpdate add account amount)).1 a = some (changed add score amount) := by
  have hlen : (abiUpdate add account amount).length = basicLen + 32 := by simp [abiUpdate, basicLen]
  have hm := (modifier_iff ctx).mpr ⟨hst, hv⟩
  have hupd : ∀ cost, cost ≤ ctx.gas →
      (update cfg cost s ctx (abiUpdate add account amount) add).2 = .returned [] ∧
      scoreOf (update cfg cost s ctx (abiUpdate add account amount) add).1 a = some (changed add score amount) := by
    intro cost hcost
    unfold update
    rw [if_neg (by omega), hm, word_account _ _ _ hacc, word_amount _ _ _ (by omega),
      Nat.mod_eq_of_lt (by omega)]
    simp only [Bool.true_eq_false, if_false]
    unfold scoreOf Credit.creditScore at hs
    cases hd : s.core.userCredit.get a with
    | none => rw [hd] at hs; cases hs
    | some d =>
      rw [hd] at hs
      simp only [Option.map_some, Option.some.injEq] at hs
      subst hs
      have key : ∃ c, Credit.evmUpdateCredit cfg s ctx.caller account amount add = .ok (c, true) ∧
          c.userCredit.get a = some (d.update (changed add d.credit amount)) := by
        unfold Credit.evmUpdateCredit
        rw [hop, hmap]
        simp only [Bool.not_true, Bool.false_eq_true, if_false]
        cases add with
        | true =>
          simp only [if_true]
          rw [hd]
          simp only
          unfold Credit.doAddCredit
          simp only [hd]
          split
          · refine ⟨_, rfl, ?_⟩
            simp only
            rw [FMap.get_insert_self]
            rfl
          · unfold Credit.updateHistory
            rw [FMap.get_insert_self]
            simp only
            split <;> refine ⟨_, rfl, ?_⟩ <;> simp only <;> rw [FMap.get_insert_self] <;> rfl
        | false =>
          simp only [Bool.false_eq_true, if_false]
          unfold Credit.slashCredit
          simp only [Option.getD_some]
          rw [if_neg (by unfold Credit.u64Max; omega), hd]
          simp only
          unfold Credit.updateHistory
          rw [FMap.get_insert_self]
          simp only
          split <;> refine ⟨_, rfl, ?_⟩ <;> simp only <;> rw [FMap.get_insert_self] <;> rfl
      obtain ⟨c, hc, hcd⟩ := key
      rw [hc]
      simp only
      rw [if_neg (by omega)]
      refine ⟨rfl, ?_⟩
      unfold scoreOf Credit.creditScore
      simp only
      rw [hcd]
      rfl
  unfold execute
  rw [if_neg (by omega)]
  simp only
  rw [word_sel]
  cases add with
  | true =>
    rw [if_pos rfl, if_neg (by decide), if_pos (show (0x5915ad98 : Nat) = selectorAdd from rfl)]
    exact hupd _ hgas.1
  | false =>
    simp only [Bool.false_eq_true, if_false]
    rw [if_neg (by decide), if_neg (by decide)]
    exact hupd _ hgas.2

/-- Reading a score returns the score of the account behind the address as a `uint256`, zero if there is
none, and changes nothing; it works in static calls. -/
theorem C53_get (cfg : Cfg) (g : Gas) (s : State) (ctx : Context) (account : Nat) (hv : ctx.value = 0)
    (hgas : g.get ≤ ctx.gas) (hacc : account < 2 ^ 160) :
    execute cfg g s ctx (abiGet account) =
      (s, .returned (toBE 32 (((s.evmToAccount account).bind (scoreOf s)).getD 0))) := by
  have hlen : (abiGet account).length = basicLen := by simp [abiGet, basicLen]
  have hsel : word (abiGet account) 0 4 = 0x87135d7d := by
    unfold word abiGet
    rw [List.drop_zero, List.take_append_of_le_length (by simp), List.take_of_length_le (by simp)]
    exact ofBE_toBE 4 0x87135d7d (by decide)
  have hac : word (abiGet account) (basicLen - 20) 20 = account := by
    unfold word abiGet
    rw [show basicLen - 20 = 4 + 12 from rfl, ← List.drop_drop, List.drop_left' (by simp), toBE_drop_12, List.take_of_length_le (by simp)]
    exact ofBE_toBE 20 account (by simpa using hacc)
  unfold execute
  rw [if_neg (by omega)]
  simp only
  rw [hsel, if_pos (show (0x87135d7d : Nat) = selectorGet from rfl)]
  unfold getScore
  have hm : checkModifier ctx .view = true := by
    unfold checkModifier
    simp [hv]
  rw [if_neg (by omega), hm, if_neg (by simp), if_neg (by omega), hac]
  rfl

/-! ### Examples and failing cases -/

/-- Operator 77; the EVM address 500 belongs to the account 1 with score 130. -/
def exState : State :=
  { Credit.genesis Credit.exBank [] [(1, Data.new 8 130)] with
    isEvmOperator := fun c => decide (c = 77), evmToAccount := fun e => if e = 500 then some 1 else none }

def exGas : Gas := ⟨2, 3, 6⟩

def exCtx : Context := ⟨77, 0, false, 100⟩

example : let r := execute Credit.exCfg exGas exState exCtx (abiUpdate true 500 70)
    r.2 = .returned [] ∧ scoreOf r.1 1 = some 200 ∧
    scoreOf (execute Credit.exCfg exGas exState exCtx (abiUpdate false 500 40)).1 1 = some 90 ∧
    (execute Credit.exCfg exGas exState exCtx (abiGet 500)).2 = .returned (toBE 32 130) := by decide +kernel

example : let r := execute Credit.exCfg exGas exState { exCtx with caller := 78 } (abiUpdate true 500 70)
    r.2 = .returned [] ∧ scoreOf r.1 1 = some 130 ∧
    (execute Credit.exCfg exGas exState { exCtx with isStatic := true } (abiUpdate true 500 70)).2 = .reverted ∧
    (execute Credit.exCfg exGas exState { exCtx with value := 1 } (abiUpdate true 500 70)).2 = .reverted ∧
    (execute Credit.exCfg exGas exState { exCtx with gas := 2 } (abiUpdate true 500 70)).2 = .outOfGas := by
  decide +kernel

/-- Through a contract `self`: credit changes only by a plain call of a contract which is itself an operator, or by a
delegate call of a contract that an operator has called without value; never by a static call or inside one. -/
theorem C53_through_contract (cfg : Cfg) (g : Gas) (s : State) (ctx : Context) (self value : Nat) (kind : CallKind) (input : List Nat)
    (hne : (execute cfg g s (inner ctx self value kind) input).1.core ≠ s.core) :
    ctx.isStatic = false ∧
    ((kind = .call ∧ value = 0 ∧ s.isEvmOperator self = true) ∨
     (kind = .delegatecall ∧ ctx.value = 0 ∧ s.isEvmOperator ctx.caller = true)) := by
  obtain ⟨h1, h2, h3, -⟩ := C53_partial cfg g s _ input hne
  cases kind with
  | call => exact ⟨h2, .inl ⟨rfl, h3, h1⟩⟩
  | staticcall => cases h2
  | delegatecall => exact ⟨h2, .inr ⟨rfl, h3, h1⟩⟩

/-- Any contract can read scores: by a static call whatever it was sent itself, by a call without money, and by a
delegate call if it was not sent money. -/
theorem C53_read_through_contract (cfg : Cfg) (g : Gas) (s : State) (ctx : Context) (self value account : Nat) (kind : CallKind)
    (hk : match kind with | .call => value = 0 | .staticcall => True | .delegatecall => ctx.value = 0)
    (hgas : g.get ≤ ctx.gas) (hacc : account < 2 ^ 160) :
    execute cfg g s (inner ctx self value kind) (abiGet account) =
      (s, .returned (toBE 32 (((s.evmToAccount account).bind (scoreOf s)).getD 0))) := by
  refine C53_get cfg g s _ account ?_ ?_ hacc
  · cases kind with
    | call => exact hk
    | staticcall => rfl
    | delegatecall => exact hk
  · cases kind <;> exact hgas

/-- The hypotheses are met. -/
example : (execute Credit.exCfg exGas exState (inner { exCtx with value := 9 } 1234 5 .staticcall) (abiGet 500)).2 = .returned (toBE 32 130) := by
  rw [C53_read_through_contract _ _ _ _ _ _ _ _ trivial (by decide) (by decide)]
  decide +kernel

/-- The full claim is false: an amount of `2^64 + 5` adds five points. -/
theorem C53_truncates :
    let r := execute Credit.exCfg exGas exState exCtx (abiUpdate true 500 (2 ^ 64 + 5))
    r.2 = .returned [] ∧ scoreOf r.1 1 = some 135 := by decide +kernel

/-- The caller that is checked is the one of the EVM context: any contract that the operator calls can change
scores on the operator's behalf by a delegate call. -/
theorem C53_delegatecall :
    let contract := 1234
    let ctx := inner exCtx contract 0 .delegatecall
    exState.isEvmOperator contract = false ∧
    scoreOf (execute Credit.exCfg exGas exState ctx (abiUpdate true 500 70)).1 1 = some 200 ∧
    scoreOf (execute Credit.exCfg exGas exState (inner exCtx contract 0 .call) (abiUpdate true 500 70)).1 1 = some 130 := by
  decide +kernel

end Verif.PrecompileCredit
