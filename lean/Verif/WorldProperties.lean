import Verif.World
import Verif.CouncilProperties

/-!
# C104: reserved money is exactly the sum of the deposits, on the chain as a whole
-/

namespace Verif.World

open Verif

/-! ### Specification -/

/-- What the pallets hold of an account: the lock of a registered device, the deposits of tips the account
has reported, the candidacy, membership and voting deposits of the council elections, and the deposits of
other pallets. -/
def owed (cfg : Cfg) (w : State) (a : AccId) : Balance :=
  (if w.node.devices.contains a then cfg.node.minLock else 0) + Tips.depositsOf w.tips a +
    Council.held w.council a + w.others a

/-- What a step reserves by the call of a locker member, which nothing ever gives back. -/
def forcedBy (cfg : Cfg) (w : State) (op : Op) (a : AccId) : Balance :=
  match op with
  | .oper (.forceReserve x who v) =>
    if a = who ∧ (Operation.step cfg.oper { w.oper with bank := w.bank } (.forceReserve x who v)).2 = .done then v else 0
  | _ => 0

/-- The sum over a history. -/
def forced (cfg : Cfg) (w : State) : List Op → AccId → Balance
  | [], _ => 0
  | op :: ops, a => forcedBy cfg w op a + forced cfg (step cfg w op) ops a

/-- The start of the chain: empty registry, no tips, the genesis members of the council without
deposits, nothing held by other pallets. -/
structure Genesis (cfg : Cfg) (w : State) : Prop where
  node : ∃ b rewards, w.node = DeeperNode.genesis b rewards
  tips : ∃ b members, w.tips = Tips.genesis b members
  council : ∃ b other members, Council.genesis cfg.council b other members = some w.council
  others : ∀ a, w.others a = 0

/-! ### Balance operations that do not touch reserved money -/

/-- No account's reserved balance differs. -/
def Same (b b' : Bank) : Prop := ∀ x, b'.reserved x = b.reserved x

theorem Same.refl (b : Bank) : Same b b := fun _ => rfl

theorem Same.trans {a b c : Bank} (h : Same a b) (h' : Same b c) : Same a c :=
  fun x => (h' x).trans (h x)

theorem put_same (b : Bank) (a : AccId) (f : Balance) : Same b (b.put a ⟨f, b.reserved a⟩) := by
  intro x
  by_cases hx : x = a
  · subst hx
    have := congrArg Acct.reserved (b.acct_put_self x ⟨f, b.reserved x⟩)
    rw [show (b.put x ⟨f, b.reserved x⟩).reserved x = ((b.put x ⟨f, b.reserved x⟩).acct x).reserved from rfl, this]
    split
    · rename_i h; exact h.2.symm
    · rfl
  · exact Bank.reserved_of_acct (b.acct_put_ne _ hx)

theorem put_same_issuance (b : Bank) (i : Nat) (a : AccId) (f : Balance) :
    Same b ({ b with issuance := i }.put a ⟨f, b.reserved a⟩) :=
  put_same { b with issuance := i } a f

theorem withdraw_same {b b' : Bank} {a : AccId} {v : Balance} {k : Bool}
    (h : b.withdraw a v k = .ok b') : Same b b' := by
  unfold Bank.withdraw at h
  repeat' (split at h)
  all_goals first | cases h; done | skip
  · cases h; exact Same.refl _
  · cases h; exact put_same_issuance _ _ _ _

theorem depositCreating_same (b : Bank) (a : AccId) (v : Balance) : Same b (b.depositCreating a v) := by
  unfold Bank.depositCreating
  repeat' split
  · exact Same.refl _
  · exact Same.refl _
  · exact put_same_issuance _ _ _ _

theorem depositExisting_same {b b' : Bank} {a : AccId} {v : Balance}
    (h : b.depositExisting a v = .ok b') : Same b b' := by
  unfold Bank.depositExisting at h
  repeat' (split at h)
  · cases h; exact Same.refl _
  · cases h
  · cases h; exact put_same_issuance _ _ _ _

theorem slash_same (b : Bank) (a : AccId) (v : Balance) : Same b (b.slash a v).1 := by
  unfold Bank.slash
  split
  · exact Same.refl _
  · exact put_same_issuance _ _ _ _

theorem transfer_same {b b' : Bank} {x y : AccId} {v : Balance} {k : Bool}
    (h : b.transfer x y v k = .ok b') : Same b b' := by
  unfold Bank.transfer at h
  repeat' (split at h)
  all_goals first | cases h; done | skip
  · cases h; exact Same.refl _
  · cases h
    exact (put_same b x _).trans (put_same _ y _)

theorem money_same (b : Bank) (m : Money) : Same b (money b m) := by
  cases m with
  | transfer x y v k =>
    simp only [money]
    cases h : b.transfer x y v k with
    | ok b' => exact transfer_same h
    | error e => exact Same.refl _
  | withdraw a v k =>
    simp only [money]
    cases h : b.withdraw a v k with
    | ok b' => exact withdraw_same h
    | error e => exact Same.refl _
  | mint a v => exact depositCreating_same b a v
  | mintExisting a v =>
    simp only [money]
    cases h : b.depositExisting a v with
    | ok b' => exact depositExisting_same h
    | error e => exact Same.refl _
  | slash a v => exact slash_same b a v

/-! ### Pallets that do not touch reserved money -/

section Micro
open Micropayment

theorem take_same {b b' : Bank} {a : AccId} {v : Balance} (h : takeFromAccount b a v = some b') : Same b b' := by
  unfold takeFromAccount at h
  split at h
  · rename_i hw; cases h; exact withdraw_same hw
  · cases h

theorem deposit_same {cfg : Config} {b b' : Bank} {a : AccId} {v : Balance}
    (h : depositIntoAccount cfg b a v = .ok b') : Same b b' := by
  unfold depositIntoAccount at h
  split at h
  · cases h
  · rename_i hw
    cases h
    exact ((depositCreating_same b a v).trans (withdraw_same hw)).trans (depositCreating_same _ _ _)

theorem refund_same (cfg : Config) (s : Micropayment.State) (c srv : AccId) (ch : Chan) :
    Same s.bank (refundAndClose cfg s c srv ch).state.bank := by
  unfold refundAndClose
  cases h : depositIntoAccount cfg (lowerTotal s c ch.balance).bank c ch.balance with
  | error e => simp only [h]; exact Same.refl _
  | ok b => simp only [h]; exact deposit_same (b := s.bank) h

theorem loop_same (cfg : Config) (c : AccId) (l : List AccId) : ∀ s : Micropayment.State,
    Same s.bank (closeExpiredLoop cfg c l s).state.bank := by
  induction l with
  | nil => intro s; exact Same.refl _
  | cons srv l ih =>
    intro s
    unfold closeExpiredLoop
    split
    · exact ih s
    · rename_i ch _
      split
      · simp only
        split
        · exact refund_same cfg s c srv ch
        · exact (refund_same cfg s c srv ch).trans (ih _)
      · exact ih s

theorem micro_same (cfg : Config) (s : Micropayment.State) (op : Micropayment.Op) (ho : microOwn op = true) :
    Same s.bank (Micropayment.step cfg s op).1.bank := by
  have hb : Same s.bank (Micropayment.body cfg s op).state.bank := by
    cases op with
    | openChannel c srv l d =>
      simp only [Micropayment.body, openChannel]
      split
      · exact Same.refl _
      split
      · exact Same.refl _
      split
      · exact Same.refl _
      · rename_i h; exact take_same h
    | closeChannel sg a =>
      simp only [Micropayment.body, closeChannel]
      split
      · exact refund_same _ _ _ _ _
      split
      · split
        · exact refund_same _ _ _ _ _
        · exact Same.refl _
      · exact Same.refl _
    | closeExpired c o =>
      simp only [Micropayment.body, closeExpired]
      split
      · exact loop_same _ _ _ _
      · exact Same.refl _
    | addBalance c srv a =>
      simp only [Micropayment.body, addBalance]
      split
      · exact Same.refl _
      split
      · exact Same.refl _
      · rename_i h; exact take_same h
    | claim srv c ses a sig =>
      simp only [Micropayment.body, claimPayment]
      split
      · exact Same.refl _
      split
      · exact refund_same _ _ _ _ _
      split
      · exact Same.refl _
      split
      · exact Same.refl _
      split
      · split
        · exact Same.refl _
        · rename_i h; exact deposit_same (b := s.bank) h
      · split
        · exact Same.refl _
        · rename_i h; exact deposit_same (b := s.bank) h
    | external n e b => cases ho
  unfold Micropayment.step
  split
  · exact hb
  · exact Same.refl _

end Micro

section Led
open Ledger

theorem lock_same (s : Ledger.State) (a : AccId) (v : Balance) : Same s.bank (putLock s a v).bank := Same.refl _

theorem update_same (cfg : Ledger.Cfg) (s : Ledger.State) (c : AccId) (l : Ledger.Ledger) :
    Same s.bank (updateLedger cfg s c l).bank := by
  unfold updateLedger setLock
  split
  · exact Same.refl _
  · exact Same.refl _

theorem kill_same {s s' : Ledger.State} {a : AccId} {k : Bool} (h : killStash s a k = .ok s') : Same s.bank s'.bank := by
  unfold killStash at h
  repeat' (split at h)
  · cases h
  · cases h
  · cases h; exact Same.refl _

theorem depositOr_same (b : Bank) (a : AccId) (v : Balance) : Same b (depositOr b a v) := by
  unfold depositOr
  split
  · rename_i h; exact depositExisting_same h
  · exact Same.refl _

theorem ledger_same (cfg : Ledger.Cfg) (s : Ledger.State) (op : Ledger.Op) (ho : ledgerOwn op = true) :
    Same s.bank (Ledger.step cfg s op).1.bank := by
  unfold Ledger.step
  cases hb : Ledger.body cfg s op with
  | error e => exact Same.refl _
  | ok r =>
    show Same s.bank r.1.bank
    cases op with
    | external b o c => cases ho
    | bond a c v p k =>
      simp only [Ledger.body, bond] at hb
      repeat' (split at hb)
      all_goals first | cases hb; done | skip
      cases hb
      exact update_same cfg { s with bonded := s.bonded.insert a c, payees := s.payees.insert a p } _ _
    | setMinBond k v =>
      simp only [Ledger.body, setMinBond] at hb
      repeat' (split at hb)
      all_goals first | cases hb; done | skip
      cases hb; exact Same.refl _
    | bondExtra a v =>
      simp only [Ledger.body, bondExtra] at hb
      repeat' (split at hb)
      all_goals first | cases hb; done | skip
      · cases hb; exact Same.refl _
      · cases hb; exact update_same _ _ _ _
    | unbond c v =>
      simp only [Ledger.body, unbond] at hb
      split at hb
      · cases hb
      split at hb
      · cases hb
      split at hb
      · cases hb
      split at hb
      · cases hb; exact Same.refl _
      · cases hb; exact update_same _ _ _ _
    | withdraw c k =>
      simp only [Ledger.body, Ledger.withdraw] at hb
      split at hb
      · cases hb
      split at hb
      · cases hb
      split at hb
      · split at hb
        · cases hb
        · rename_i h; cases hb; exact fun y => kill_same h y
      · cases hb; exact update_same _ _ _ _
    | validate c p =>
      simp only [Ledger.body, validate] at hb
      repeat' (split at hb)
      all_goals first | cases hb; done | skip
      cases hb; exact Same.refl _
    | chill c =>
      simp only [Ledger.body, chill] at hb
      repeat' (split at hb)
      all_goals first | cases hb; done | skip
      cases hb; exact Same.refl _
    | setPayee c d =>
      simp only [Ledger.body, setPayee] at hb
      repeat' (split at hb)
      all_goals first | cases hb; done | skip
      cases hb; exact Same.refl _
    | setController a c =>
      simp only [Ledger.body, setController] at hb
      repeat' (split at hb)
      all_goals first | cases hb; done | skip
      all_goals (cases hb; exact Same.refl _)
    | forceUnstake k a x =>
      simp only [Ledger.body, forceUnstake] at hb
      repeat' (split at hb)
      all_goals first | cases hb; done | skip
      rename_i h
      cases hb; exact fun y => kill_same h y
    | rebond c v =>
      simp only [Ledger.body, rebond] at hb
      repeat' (split at hb)
      all_goals first | cases hb; done | skip
      cases hb; exact update_same _ _ _ _
    | reap a k =>
      simp only [Ledger.body, reap] at hb
      repeat' (split at hb)
      all_goals first | cases hb; done | skip
      rename_i h
      cases hb; exact fun y => kill_same h y
    | burn c v =>
      simp only [Ledger.body, burn] at hb
      split at hb
      · cases hb
      · rename_i l _
        cases hb
        exact (slash_same (removeLock s l.stash).bank l.stash _).trans (update_same cfg _ _ _)
    | slash a v =>
      simp only [Ledger.body, doSlash] at hb
      split at hb
      · cases hb; exact Same.refl _
      split at hb
      · cases hb; exact Same.refl _
      split at hb
      · cases hb; exact Same.refl _
      · cases hb
        exact (slash_same s.bank a _).trans (update_same cfg _ _ _)
    | payout a v =>
      simp only [Ledger.body, payout] at hb
      cases hb
      dsimp only
      split
      · split
        · exact Same.refl _
        · exact depositCreating_same _ _ _
      · exact depositOr_same _ _ _
      · split
        · exact Same.refl _
        split
        · exact Same.refl _
        · exact (depositOr_same s.bank a v).trans (update_same cfg { s with bank := depositOr s.bank a v } _ _)
      · exact depositCreating_same _ _ _
    | kick a => simp only [Ledger.body] at hb; cases hb; exact Same.refl _
    | newEra => simp only [Ledger.body] at hb; cases hb; exact Same.refl _

end Led

section Oper
open Operation

theorem scan_same (cfg : Operation.Cfg) (s : Operation.State) (day : Nat) (l : List (AccId × Info)) : ∀ c : Scan,
    Same c.bank (scan cfg s day l c).bank := by
  induction l with
  | nil => intro c; exact Same.refl _
  | cons e l ih =>
    intro c
    obtain ⟨a, i⟩ := e
    unfold scan
    split
    · exact ih c
    split
    · exact Same.refl _
    · have h : Same c.bank (release day c a i).bank := depositCreating_same _ _ _
      simp only
      split
      · exact h
      split
      · exact h
      · exact h.trans (ih _)

theorem liftBank_ok {α : Type} {x : Except BankErr α} {a : α} (h : liftBank x = .ok a) : x = .ok a := by
  cases x with
  | ok b => exact congrArg _ (Except.ok.inj h)
  | error e => cases h

theorem map_ok {ε α β : Type} {x : Except ε α} {f : α → β} {r : β} (h : x.map f = .ok r) :
    ∃ a, x = .ok a ∧ f a = r := by
  cases x with
  | ok a => exact ⟨a, rfl, Except.ok.inj h⟩
  | error e => cases h

theorem finalize_same (cfg : Operation.Cfg) (s : Operation.State) : Same s.bank (finalize cfg s).1.bank := by
  unfold finalize
  split
  · exact Same.refl _
  · unfold releaseStaking
    split
    · exact Same.refl _
    · exact scan_same cfg s _ _ _

/-- A call of the operation pallet reserves exactly what a locker member asks for. -/
theorem oper_reserved (cfg : Operation.Cfg) (s : Operation.State) (op : Operation.Op) (ho : operOwn op = true) (a : AccId) :
    (Operation.step cfg s op).1.bank.reserved a = s.bank.reserved a +
      (match op with
        | .forceReserve x who v => if a = who ∧ (Operation.step cfg s (.forceReserve x who v)).2 = .done then v else 0
        | _ => 0) := by
  cases op with
  | forceReserve x who v =>
    simp only [Operation.step, Operation.body, forceReserve]
    split
    · simp [Except.map]
    · cases hr : s.bank.reserve who v with
      | error e => simp [liftBank, Except.map]
      | ok b =>
        obtain ⟨h1, -, h2⟩ := Bank.reserve_exact hr
        simp only [liftBank, Except.map]
        by_cases ha : a = who
        · subst ha; simp [h1]
        · simp [ha, Bank.reserved_of_acct (h2 a ha)]
  | external dt b p k => cases ho
  | _ =>
    simp only [Nat.add_zero]
    refine (?_ : Same s.bank _) a
    unfold Operation.step
    split
    · rename_i r hb
      simp only [Operation.body] at hb
      first
        | (obtain ⟨s', hs, rfl⟩ := map_ok hb
           simp only [forceRemoveLock, setLimits, unstakingRelease, removeInfos, burnForEzc, setFund, bridgeOut, bridgeIn, unlockAssets] at hs
           repeat' (split at hs)
           all_goals first
             | (cases hs; done)
             | (cases hs; exact Same.refl _)
             | (obtain ⟨b, hl, rfl⟩ := map_ok hs
                first
                  | exact transfer_same (liftBank_ok hl)
                  | exact (withdraw_same (liftBank_ok hl)).trans (depositCreating_same _ _ _)
                  | exact fun y => transfer_same (liftBank_ok hl) y))
        | (cases hb; exact Same.refl _)
        | (cases hb; exact finalize_same cfg s)
    · exact Same.refl _

theorem unlock_same {s s' : Operation.State} {r : Bool} {x y : AccId} {v f : Balance}
    (h : unlockAssets s r x y v f = .ok s') : Same s.bank s'.bank := by
  unfold unlockAssets at h
  split at h
  · cases h
  · obtain ⟨b, hl, rfl⟩ := map_ok h
    exact fun z => transfer_same (liftBank_ok hl) z

end Oper

/-! ### One step -/

/-- What is kept about the pallets to know that their deposits are backed. -/
structure Inv (cfg : Cfg) (w : State) : Prop where
  tips : Tips.KInv cfg.tips w.tips
  council : Council.Lists cfg.council w.council
  backed : ∀ a, owed cfg w a ≤ w.bank.reserved a

theorem tips_deposits_bank (s : Tips.State) (b : Bank) (a : AccId) :
    Tips.depositsOf { s with bank := b } a = Tips.depositsOf s a := rfl

theorem tips_kinv_bank {cfg : Tips.Cfg} {s : Tips.State} (b : Bank) (h : Tips.KInv cfg s) :
    Tips.KInv cfg { s with bank := b } := ⟨h.key, h.reason, h.one⟩

theorem council_lists_bank {cfg : Council.Cfg} {s : Council.State} (b : Bank) (h : Council.Lists cfg s) :
    Council.Lists cfg { s with bank := b } :=
  ⟨h.membersSorted, h.candidatesSorted, h.nodup, h.members, h.runnersUp, h.candidates⟩

theorem same_owed {cfg : Cfg} {w w' : State} (hs : Same w.bank w'.bank) (hn : w'.node.devices = w.node.devices)
    (ht : ∀ a, Tips.depositsOf w'.tips a = Tips.depositsOf w.tips a)
    (hc : ∀ a, Council.held w'.council a = Council.held w.council a) (ho : w'.others = w.others) (a : AccId) :
    w'.bank.reserved a + owed cfg w a = w.bank.reserved a + owed cfg w' a := by
  simp only [owed, hs a, hn, ht a, hc a, ho]

theorem effect_reserved {cfg : Cfg}
    (hinj : ∀ a b c d, cfg.tips.hashOf a b = cfg.tips.hashOf c d → a = c ∧ b = d) {w : State}
    (h : Inv cfg w) (op : Op) (a : AccId) :
    (effect cfg w op).bank.reserved a + owed cfg w a =
      w.bank.reserved a + owed cfg (effect cfg w op) a + forcedBy cfg w op a := by
  have hbk := h.backed
  cases op with
  | node op =>
    cases ho : nodeOwn op with
    | false =>
      cases op <;> first | cases ho; done | skip
      simp only [effect, nodeOwn, forcedBy, DeeperNode.step, DeeperNode.body]
      exact same_owed (Same.refl _) rfl (fun _ => rfl) (fun _ => rfl) rfl a
    | true =>
      have hne : ∀ n b v x, op ≠ .external n b v x := by
        rintro n b v x rfl; cases ho
      simp only [effect, ho, if_true, forcedBy, owed]
      rcases DeeperNode.step_shape cfg.node { w.node with bank := w.bank } op hne with ⟨h1, h2⟩ | ⟨x, c, -, h1, h2, h3⟩ | ⟨x, -, h1, h2, h3⟩
      · rw [h1, h2 a]; rfl
      · obtain ⟨e1, -, e2⟩ := Bank.reserve_exact h2
        rw [h3 a]
        simp only at h1 e1 e2 ⊢
        by_cases hx : a = x
        · subst hx
          simp only [h1, e1, decide_true, Bool.true_or, if_true, Bool.false_eq_true, if_false]
          omega
        · simp only [hx, decide_false, Bool.false_or, Bank.reserved_of_acct (e2 a hx)]
          omega
      · have hb := hbk x
        simp only [owed] at hb
        simp only at h1
        rw [h1, if_pos rfl] at hb
        obtain ⟨e1, e2⟩ := Bank.unreserve_reserved (b := w.bank) (a := x) (v := cfg.node.minLock) (by omega)
        rw [h2, h3 a]
        simp only
        by_cases hx : a = x
        · subst hx
          simp only [h1, decide_true, Bool.not_true, Bool.false_and, Bool.false_eq_true, if_false, if_true]
          omega
        · simp only [hx, decide_false, Bool.not_false, Bool.true_and, Bank.reserved_of_acct (e2 a hx)]
          omega
  | tips op =>
    cases ho : tipsOwn op with
    | false =>
      cases op <;> first | cases ho; done | skip
      simp only [effect, tipsOwn, forcedBy, Tips.step, Tips.body]
      exact same_owed (Same.refl _) rfl (fun _ => rfl) (fun _ => rfl) rfl a
    | true =>
      have hne : ∀ n b m, op ≠ .external n b m := by
        rintro n b m rfl; cases ho
      have := Tips.step_reserved hinj (tips_kinv_bank w.bank h.tips)
        (fun x => by
          have := hbk x
          simp only [owed] at this
          show Tips.depositsOf w.tips x ≤ w.bank.reserved x
          omega) hne a
      simp only [effect, ho, if_true, forcedBy, owed]
      rw [tips_deposits_bank] at this
      simp only at this
      omega
  | council op =>
    cases ho : op.own with
    | false =>
      cases op <;> first | cases ho; done | skip
      simp only [effect, Council.Op.own, forcedBy, Council.step]
      exact same_owed (Same.refl _) rfl (fun _ => rfl) (fun _ => rfl) rfl a
    | true =>
      have := ((Council.step_spec (council_lists_bank w.bank h.council) ho).effect (fun x => by
          have := hbk x
          simp only [owed] at this
          show Council.held w.council x ≤ w.bank.reserved x
          omega)).reserved a
      simp only [effect, ho, if_true, forcedBy, owed]
      have e : Council.held { w.council with bank := w.bank } a = Council.held w.council a := rfl
      rw [e] at this
      simp only at this
      omega
  | oper op =>
    cases ho : operOwn op with
    | false =>
      cases op <;> first | cases ho; done | skip
      all_goals (simp only [effect, operOwn, forcedBy]; exact same_owed (Same.refl _) rfl (fun _ => rfl) (fun _ => rfl) rfl a)
    | true =>
      have := oper_reserved cfg.oper { w.oper with bank := w.bank } op ho a
      simp only [effect, ho, if_true, owed]
      rw [this]
      cases op <;> simp only [forcedBy] <;> omega
  | micro op =>
    cases ho : microOwn op with
    | false =>
      cases op <;> first | cases ho; done | skip
      simp only [effect, ho, forcedBy]
      exact same_owed (Same.refl _) rfl (fun _ => rfl) (fun _ => rfl) rfl a
    | true =>
      have hm : Same w.bank (effect cfg w (.micro op)).bank := by
        simp only [effect, ho, if_true]
        exact micro_same cfg.micro { w.micro with bank := w.bank } op ho
      exact same_owed hm rfl (fun _ => rfl) (fun _ => rfl) rfl a
  | ledger op =>
    cases ho : ledgerOwn op with
    | false =>
      cases op <;> first | cases ho; done | skip
      simp only [effect, ho, forcedBy]
      exact same_owed (Same.refl _) rfl (fun _ => rfl) (fun _ => rfl) rfl a
    | true =>
      have hm : Same w.bank (effect cfg w (.ledger op)).bank := by
        simp only [effect, ho, if_true]
        exact ledger_same cfg.ledger { w.ledger with bank := w.bank } op ho
      exact same_owed hm rfl (fun _ => rfl) (fun _ => rfl) rfl a
  | money m =>
    exact same_owed (w' := { w with bank := money w.bank m }) (money_same w.bank m) rfl (fun _ => rfl) (fun _ => rfl) rfl a
  | hold x v =>
    simp only [effect, forcedBy]
    cases hr : w.bank.reserve x v with
    | error e => rfl
    | ok b =>
      obtain ⟨e1, -, e2⟩ := Bank.reserve_exact hr
      simp only [owed]
      by_cases hx : a = x
      · subst hx; simp only [if_true, e1]; omega
      · simp only [hx, if_false, Bank.reserved_of_acct (e2 a hx)]; omega
  | release x v =>
    simp only [effect, forcedBy]
    split
    · rename_i hv
      have hb := hbk x
      simp only [owed] at hb
      obtain ⟨e1, e2⟩ := Bank.unreserve_reserved (b := w.bank) (a := x) (v := v) (by omega)
      simp only [owed]
      by_cases hx : a = x
      · subst hx; simp only [if_true]; omega
      · simp only [hx, if_false, Bank.reserved_of_acct (e2 a hx)]; omega
    · rfl
  | locks r p =>
    exact same_owed (w' := effect cfg w (.locks r p)) (fun _ => rfl) rfl (fun _ => rfl) (fun _ => rfl) rfl a
  | unlockStake r x =>
    cases r <;> exact same_owed (fun _ => rfl) rfl (fun _ => rfl) (fun _ => rfl) rfl a
  | unlockVote r x =>
    cases r <;> exact same_owed (fun _ => rfl) rfl (fun _ => rfl) (fun _ => rfl) rfl a
  | unlockMove r x y v =>
    have hm : Same w.bank (effect cfg w (.unlockMove r x y v)).bank := by
      simp only [effect]
      split
      · rename_i s hs
        exact unlock_same hs
      · exact Same.refl _
    refine same_owed (w' := effect cfg w (.unlockMove r x y v)) hm ?_ (fun _ => ?_) (fun _ => ?_) ?_ a <;>
      (simp only [effect]; split <;> rfl)

theorem effect_inv {cfg : Cfg}
    (hinj : ∀ a b c d, cfg.tips.hashOf a b = cfg.tips.hashOf c d → a = c ∧ b = d) {w : State}
    (h : Inv cfg w) (op : Op) : Inv cfg (effect cfg w op) := by
  have hr := effect_reserved hinj h op
  have hb : ∀ a, owed cfg (effect cfg w op) a ≤ (effect cfg w op).bank.reserved a := fun a => by
    have := hr a
    have := h.backed a
    omega
  refine ⟨?_, ?_, hb⟩
  · cases op with
    | tips op => exact Tips.step_kinv hinj (tips_kinv_bank w.bank h.tips) op
    | hold a v => simp only [effect]; split <;> exact h.tips
    | release a v => simp only [effect]; split <;> exact h.tips
    | unlockStake r x => simp only [effect]; split <;> exact h.tips
    | unlockVote r x => simp only [effect]; split <;> exact h.tips
    | unlockMove r x y v => simp only [effect]; split <;> exact h.tips
    | _ => exact h.tips
  · cases op with
    | council op =>
      cases ho : op.own with
      | false =>
        cases op <;> first | cases ho; done | skip
        exact ⟨h.council.membersSorted, h.council.candidatesSorted, h.council.nodup, h.council.members, h.council.runnersUp, h.council.candidates⟩
      | true => exact (Council.step_spec (council_lists_bank w.bank h.council) ho).lists
    | hold a v => simp only [effect]; split <;> exact h.council
    | release a v => simp only [effect]; split <;> exact h.council
    | unlockStake r x => simp only [effect]; split <;> exact h.council
    | unlockVote r x => simp only [effect]; split <;> exact ⟨h.council.membersSorted, h.council.candidatesSorted, h.council.nodup, h.council.members, h.council.runnersUp, h.council.candidates⟩
    | unlockMove r x y v => simp only [effect]; split <;> exact ⟨h.council.membersSorted, h.council.candidatesSorted, h.council.nodup, h.council.members, h.council.runnersUp, h.council.candidates⟩
    | _ => exact h.council

theorem step_reserved {cfg : Cfg}
    (hinj : ∀ a b c d, cfg.tips.hashOf a b = cfg.tips.hashOf c d → a = c ∧ b = d) {w : State}
    (h : Inv cfg w) (op : Op) (a : AccId) :
    (step cfg w op).bank.reserved a + owed cfg w a =
      w.bank.reserved a + owed cfg (step cfg w op) a + forcedBy cfg w op a :=
  effect_reserved hinj h op a

theorem step_inv {cfg : Cfg}
    (hinj : ∀ a b c d, cfg.tips.hashOf a b = cfg.tips.hashOf c d → a = c ∧ b = d) {w : State}
    (h : Inv cfg w) (op : Op) : Inv cfg (step cfg w op) := by
  have h' := effect_inv hinj h op
  exact ⟨h'.tips, ⟨h'.council.membersSorted, h'.council.candidatesSorted, h'.council.nodup, h'.council.members, h'.council.runnersUp, h'.council.candidates⟩, h'.backed⟩

theorem genesis_node_contains (b : Bank) (l : List (AccId × Nat)) (a : AccId) :
    (DeeperNode.genesis b l).devices.contains a = false := by
  have : ∀ (l : List (AccId × Nat)) (s : DeeperNode.State), (l.foldl (fun s p => { s with evmToDeeper := s.evmToDeeper.insert p.2 p.1, deeperToEvm := s.deeperToEvm.insert p.1 p.2 }) s).devices = s.devices := by
    intro l
    induction l with
    | nil => intro s; rfl
    | cons p l ih => intro s; exact ih _
  unfold DeeperNode.genesis
  rw [this]
  rfl

theorem genesis_owed {cfg : Cfg} {w : State} (g : Genesis cfg w) (a : AccId) : owed cfg w a = 0 := by
  obtain ⟨b1, r, h1⟩ := g.node
  obtain ⟨b2, m, h2⟩ := g.tips
  obtain ⟨b3, o, ms, h3⟩ := g.council
  simp only [owed, g.others a, (Council.genesis_lists h3).2.1 a]
  rw [h1, h2, genesis_node_contains]
  rfl

theorem genesis_inv {cfg : Cfg} {w : State} (g : Genesis cfg w) : Inv cfg w := by
  obtain ⟨b2, m, h2⟩ := g.tips
  obtain ⟨b3, o, ms, h3⟩ := g.council
  refine ⟨?_, (Council.genesis_lists h3).1, fun a => by rw [genesis_owed g a]; exact Nat.zero_le _⟩
  rw [h2]
  exact Tips.genesis_kinv _ _ _

theorem run_reserved {cfg : Cfg}
    (hinj : ∀ a b c d, cfg.tips.hashOf a b = cfg.tips.hashOf c d → a = c ∧ b = d) (ops : List Op) :
    ∀ {w : State}, Inv cfg w → ∀ a,
      (run cfg w ops).bank.reserved a + owed cfg w a = w.bank.reserved a + owed cfg (run cfg w ops) a + forced cfg w ops a := by
  induction ops with
  | nil => intro w _ a; rfl
  | cons op ops ih =>
    intro w h a
    have h1 := step_reserved hinj h op a
    have h2 := ih (step_inv hinj h op) a
    simp only [run, forced]
    omega

/-! ### Theorems -/

/-- C104. Whatever the pallets and users do, in every history from genesis and for every account: the
reserved balance is the reserved balance at genesis, plus what the pallets hold of the account
(device lock, tip deposits, election deposits, deposits of other pallets), plus what locker members have
had reserved. Nothing is reserved for nobody, and no pallet spends the deposits of another.
`hashOf` is the hash under which tips are stored; it has no collisions. -/
theorem C104_reserved (cfg : Cfg)
    (hinj : ∀ a b c d, cfg.tips.hashOf a b = cfg.tips.hashOf c d → a = c ∧ b = d)
    {w : State} (g : Genesis cfg w) (ops : List Op) (a : AccId) :
    (run cfg w ops).bank.reserved a =
      w.bank.reserved a + owed cfg (run cfg w ops) a + forced cfg w ops a := by
  have := run_reserved hinj ops (genesis_inv g) a
  rw [genesis_owed g a] at this
  omega

/-! ### The single pallets inside the chain -/

/-- The history of the device registry inside a history of the chain: its calls, each preceded by the
balances it runs on. -/
def nodeOps (cfg : Cfg) (w : State) : List Op → List DeeperNode.Op
  | [] => []
  | .node op :: ops =>
    (match op with
      | .external n _ v x => [.external n w.bank v x]
      | op => [.external 0 w.bank w.node.verifyAny w.node.verifyNew, op]) ++ nodeOps cfg (step cfg w (.node op)) ops
  | op :: ops => nodeOps cfg (step cfg w op) ops

/-- The history of the tips pallet inside a history of the chain. -/
def tipsOps (cfg : Cfg) (w : State) : List Op → List Tips.Op
  | [] => []
  | .tips op :: ops =>
    (match op with
      | .external n _ m => [.external n w.bank m]
      | op => [.external 0 w.bank w.tips.members, op]) ++ tipsOps cfg (step cfg w (.tips op)) ops
  | op :: ops => tipsOps cfg (step cfg w op) ops

theorem inv_lock {cfg : Cfg} {w : State} (h : Inv cfg w) {a : AccId} (ha : w.node.devices.contains a = true) :
    cfg.node.minLock ≤ w.bank.reserved a := by
  have := h.backed a
  simp only [owed, ha, if_true] at this
  omega

theorem inv_tips {cfg : Cfg} {w : State} (h : Inv cfg w) (a : AccId) :
    Tips.depositsOf w.tips a ≤ w.bank.reserved a := by
  have := h.backed a
  simp only [owed] at this
  omega

theorem node_project {cfg : Cfg}
    (hinj : ∀ a b c d, cfg.tips.hashOf a b = cfg.tips.hashOf c d → a = c ∧ b = d) (ops : List Op) :
    ∀ {w : State} {s : DeeperNode.State}, Inv cfg w → s = { w.node with bank := s.bank } →
      (DeeperNode.run cfg.node s (nodeOps cfg w ops)).1 =
        { (run cfg w ops).node with bank := (DeeperNode.run cfg.node s (nodeOps cfg w ops)).1.bank } ∧
      DeeperNode.OutsideRespectsLock cfg.node (DeeperNode.run cfg.node s (nodeOps cfg w ops)).2 := by
  induction ops with
  | nil => intro w s _ hs; exact ⟨hs, fun _ _ _ _ _ _ hm => by cases hm⟩
  | cons op ops ih =>
    intro w s h hs
    have hi := step_inv hinj h op
    have hd : s.devices = w.node.devices := by rw [hs]
    have hother : ∀ (hn : (step cfg w op).node = w.node) (he : nodeOps cfg w (op :: ops) = nodeOps cfg (step cfg w op) ops),
        (DeeperNode.run cfg.node s (nodeOps cfg w (op :: ops))).1 =
        { (run cfg w (op :: ops)).node with bank := (DeeperNode.run cfg.node s (nodeOps cfg w (op :: ops))).1.bank } ∧
        DeeperNode.OutsideRespectsLock cfg.node (DeeperNode.run cfg.node s (nodeOps cfg w (op :: ops))).2 := by
      intro hn he
      rw [he]
      exact ih hi (by rw [hn]; exact hs)
    cases op with
    | node op =>
      cases ho : nodeOwn op with
      | false =>
        cases op with
        | external n b v x =>
          simp only [nodeOps, List.cons_append, List.nil_append, DeeperNode.run, run]
          have hst : (DeeperNode.step cfg.node s (.external n w.bank v x)).1 =
              { (step cfg w (.node (.external n b v x))).node with bank := w.bank } := by
            rw [hs]; rfl
          obtain ⟨h1, h2⟩ := ih (s := (DeeperNode.step cfg.node s (.external n w.bank v x)).1) hi (by rw [hst])
          refine ⟨h1, ?_⟩
          intro t n' b' v' x' o hm a ha
          rcases List.mem_cons.mp hm with hm | hm
          · cases hm
            rw [hd] at ha
            exact inv_lock h ha
          · exact h2 t n' b' v' x' o hm a ha
        | _ => cases ho
      | true =>
        have he : nodeOps cfg w (.node op :: ops) =
            .external 0 w.bank w.node.verifyAny w.node.verifyNew :: op :: nodeOps cfg (step cfg w (.node op)) ops := by
          cases op <;> first | rfl | cases ho
        rw [he]
        have hst : (DeeperNode.step cfg.node s (.external 0 w.bank w.node.verifyAny w.node.verifyNew)).1 =
            { w.node with bank := w.bank } := by
          rw [hs]; rfl
        simp only [DeeperNode.run, run]
        rw [hst]
        obtain ⟨h1, h2⟩ := ih (s := (DeeperNode.step cfg.node { w.node with bank := w.bank } op).1) hi rfl
        refine ⟨h1, ?_⟩
        intro t n' b' v' x' o hm a ha
        rcases List.mem_cons.mp hm with hm | hm
        · cases hm
          rw [hd] at ha
          exact inv_lock h ha
        rcases List.mem_cons.mp hm with hm | hm
        · cases hm; cases ho
        · exact h2 t n' b' v' x' o hm a ha
    | hold a v => exact hother (by simp only [step, effect, settle]; split <;> rfl) rfl
    | release a v => exact hother (by simp only [step, effect, settle]; split <;> rfl) rfl
    | unlockStake r x => exact hother (by simp only [step, effect, settle]; split <;> rfl) rfl
    | unlockVote r x => exact hother (by simp only [step, effect, settle]; split <;> rfl) rfl
    | unlockMove r x y v => exact hother (by simp only [step, effect, settle]; split <;> rfl) rfl
    | _ => exact hother rfl rfl

theorem tips_project {cfg : Cfg}
    (hinj : ∀ a b c d, cfg.tips.hashOf a b = cfg.tips.hashOf c d → a = c ∧ b = d) (ops : List Op) :
    ∀ {w : State} {s : Tips.State}, Inv cfg w → s = { w.tips with bank := s.bank } →
      (Tips.run cfg.tips s (tipsOps cfg w ops)).1 =
        { (run cfg w ops).tips with bank := (Tips.run cfg.tips s (tipsOps cfg w ops)).1.bank } ∧
      Tips.OutsideRespectsDeposits (Tips.run cfg.tips s (tipsOps cfg w ops)).2 := by
  induction ops with
  | nil => intro w s _ hs; exact ⟨hs, fun _ _ _ _ _ hm => by cases hm⟩
  | cons op ops ih =>
    intro w s h hs
    have hi := step_inv hinj h op
    have hd : ∀ a, Tips.depositsOf s a = Tips.depositsOf w.tips a := by intro a; rw [hs]; rfl
    have hother : ∀ (hn : (step cfg w op).tips = w.tips) (he : tipsOps cfg w (op :: ops) = tipsOps cfg (step cfg w op) ops),
        (Tips.run cfg.tips s (tipsOps cfg w (op :: ops))).1 =
        { (run cfg w (op :: ops)).tips with bank := (Tips.run cfg.tips s (tipsOps cfg w (op :: ops))).1.bank } ∧
        Tips.OutsideRespectsDeposits (Tips.run cfg.tips s (tipsOps cfg w (op :: ops))).2 := by
      intro hn he
      rw [he]
      exact ih hi (by rw [hn]; exact hs)
    cases op with
    | tips op =>
      cases ho : tipsOwn op with
      | false =>
        cases op with
        | external n b m =>
          simp only [tipsOps, List.cons_append, List.nil_append, Tips.run, run]
          have hst : (Tips.step cfg.tips s (.external n w.bank m)).1 =
              { (step cfg w (.tips (.external n b m))).tips with bank := w.bank } := by
            rw [hs]; rfl
          obtain ⟨h1, h2⟩ := ih (s := (Tips.step cfg.tips s (.external n w.bank m)).1) hi (by rw [hst])
          refine ⟨h1, ?_⟩
          intro t n' b' m' o hm a
          rcases List.mem_cons.mp hm with hm | hm
          · cases hm
            rw [hd]
            exact inv_tips h a
          · exact h2 t n' b' m' o hm a
        | _ => cases ho
      | true =>
        have he : tipsOps cfg w (.tips op :: ops) =
            .external 0 w.bank w.tips.members :: op :: tipsOps cfg (step cfg w (.tips op)) ops := by
          cases op <;> first | rfl | cases ho
        rw [he]
        have hst : (Tips.step cfg.tips s (.external 0 w.bank w.tips.members)).1 =
            { w.tips with bank := w.bank } := by
          rw [hs]; rfl
        simp only [Tips.run, run]
        rw [hst]
        obtain ⟨h1, h2⟩ := ih (s := (Tips.step cfg.tips { w.tips with bank := w.bank } op).1) hi rfl
        refine ⟨h1, ?_⟩
        intro t n' b' m' o hm a
        rcases List.mem_cons.mp hm with hm | hm
        · cases hm
          rw [hd]
          exact inv_tips h a
        rcases List.mem_cons.mp hm with hm | hm
        · cases hm; cases ho
        · exact h2 t n' b' m' o hm a
    | hold a v => exact hother (by simp only [step, effect, settle]; split <;> rfl) rfl
    | release a v => exact hother (by simp only [step, effect, settle]; split <;> rfl) rfl
    | unlockStake r x => exact hother (by simp only [step, effect, settle]; split <;> rfl) rfl
    | unlockVote r x => exact hother (by simp only [step, effect, settle]; split <;> rfl) rfl
    | unlockMove r x y v => exact hother (by simp only [step, effect, settle]; split <;> rfl) rfl
    | _ => exact hother rfl rfl

/-- C104. The assumption of C24 about the rest of the chain holds on the chain as a whole: the registry
inside any history behaves as in its own history, and nothing outside takes the locks. -/
theorem C104_registry (cfg : Cfg)
    (hinj : ∀ a b c d, cfg.tips.hashOf a b = cfg.tips.hashOf c d → a = c ∧ b = d)
    {w : State} (g : Genesis cfg w) (ops : List Op) :
    (DeeperNode.run cfg.node w.node (nodeOps cfg w ops)).1.devices = (run cfg w ops).node.devices ∧
    DeeperNode.OutsideRespectsLock cfg.node (DeeperNode.run cfg.node w.node (nodeOps cfg w ops)).2 := by
  obtain ⟨h1, h2⟩ := node_project hinj ops (genesis_inv g) (s := w.node) rfl
  exact ⟨by rw [h1], h2⟩

/-- C104. The assumption of C32 and C33 about the rest of the chain holds on the chain as a whole. -/
theorem C104_tips (cfg : Cfg)
    (hinj : ∀ a b c d, cfg.tips.hashOf a b = cfg.tips.hashOf c d → a = c ∧ b = d)
    {w : State} (g : Genesis cfg w) (ops : List Op) :
    (Tips.run cfg.tips w.tips (tipsOps cfg w ops)).1.open_ = (run cfg w ops).tips.open_ ∧
    Tips.OutsideRespectsDeposits (Tips.run cfg.tips w.tips (tipsOps cfg w ops)).2 := by
  obtain ⟨h1, h2⟩ := tips_project hinj ops (genesis_inv g) (s := w.tips) rfl
  exact ⟨by rw [h1], h2⟩

/-- C104. Leaving the registry returns the lock, on the chain as a whole and without any assumption about
the other pallets. -/
theorem C104_unregister (cfg : Cfg)
    (hinj : ∀ a b c d, cfg.tips.hashOf a b = cfg.tips.hashOf c d → a = c ∧ b = d)
    {w : State} (g : Genesis cfg w) (ops : List Op) (a : AccId)
    (hreg : (run cfg w ops).node.devices.contains a = true)
    (hgone : (step cfg (run cfg w ops) (.node (.unregister a))).node.devices.contains a = false) :
    (step cfg (run cfg w ops) (.node (.unregister a))).bank.reserved a + cfg.node.minLock =
      (run cfg w ops).bank.reserved a ∧
    ((run cfg w ops).bank.ed ≤ (run cfg w ops).bank.free a + cfg.node.minLock →
      (step cfg (run cfg w ops) (.node (.unregister a))).bank.free a = (run cfg w ops).bank.free a + cfg.node.minLock) := by
  have hi : Inv cfg (run cfg w ops) := by
    have : ∀ (ops : List Op) {w : State}, Inv cfg w → Inv cfg (run cfg w ops) := by
      intro ops
      induction ops with
      | nil => intro w h; exact h
      | cons op ops ih => intro w h; exact ih (step_inv hinj h op)
    exact this ops (genesis_inv g)
  generalize run cfg w ops = v at *
  have hl := inv_lock hi hreg
  have hb : (effect cfg v (.node (.unregister a))).bank = v.bank.unreserve a cfg.node.minLock := by
    rcases DeeperNode.step_shape cfg.node { v.node with bank := v.bank } (.unregister a) (fun _ _ _ _ => (nomatch ·)) with ⟨-, h2⟩ | ⟨x, c, h1, -⟩ | ⟨x, h1, -, h2, -⟩
    · have := h2 a
      simp only [step, effect, settle] at hgone
      rw [hgone] at this
      simp only at this
      rw [hreg] at this
      cases this
    · cases h1
    · cases h1
      exact h2
  show (effect cfg v (.node (.unregister a))).bank.reserved a + _ = _ ∧ (_ → (effect cfg v (.node (.unregister a))).bank.free a = _)
  rw [hb]
  exact ⟨(Bank.unreserve_reserved hl).1, fun he => Bank.unreserve_free hl he⟩

end Verif.World
