import Verif.WorldProperties
import Verif.MicropaymentProperties
import Verif.OperationProperties
import Verif.LedgerProperties

/-!
# C105: money is created only where the chain pays rewards
-/

namespace Verif.World

open Verif

/-! ### Specification -/

/-- All money: the balances of all accounts and what is in payment channels. -/
def supply (w : State) : Balance := w.bank.sumAll + Micropayment.escrowAll w.micro

/-- What a step may create: a reward paid by staking, the releases of the operation pallet at the end of
a block (as listed in its events), and minting by the rest of the chain. -/
def createdBy (cfg : Cfg) (w : State) : Op → Balance
  | .ledger (.payout _ v) => v
  | .oper .finalize => ((Operation.finalize cfg.oper { w.oper with bank := w.bank }).2.map (·.amount)).sum
  | .money (.mint _ v) => v
  | .money (.mintExisting _ v) => v
  | _ => 0

/-- The sum over a history. -/
def created (cfg : Cfg) (w : State) : List Op → Balance
  | [] => 0
  | op :: ops => createdBy cfg w op + created cfg (step cfg w op) ops

/-! ### Balance operations -/

/-- From correct books to correct books, creating at most `up` and destroying at least `down`. -/
def Flow (up down : Nat) (b b' : Bank) : Prop := b.Inv → b'.Inv ∧ b'.sumAll + down ≤ b.sumAll + up

theorem Flow.refl (b : Bank) : Flow 0 0 b b := fun h => ⟨h, Nat.le_refl _⟩

theorem Flow.trans {u d u' d' : Nat} {a b c : Bank} (h : Flow u d a b) (h' : Flow u' d' b c) :
    Flow (u + u') (d + d') a c := by
  intro hi
  obtain ⟨h1, h2⟩ := h hi
  obtain ⟨h3, h4⟩ := h' h1
  exact ⟨h3, by omega⟩

theorem Flow.weaken {u d u' d' : Nat} {a b : Bank} (h : Flow u d a b) (hle : u + d' ≤ u' + d) : Flow u' d' a b := by
  intro hi
  obtain ⟨h1, h2⟩ := h hi
  exact ⟨h1, by omega⟩

/-- Locks and references are not money. -/
theorem flow_locks (b : Bank) (f : AccId → Balance) (p : AccId → Bool) :
    Flow 0 0 b { b with frozen := f, pinned := p } :=
  fun h => ⟨⟨h.edPos, h.issuance, h.noDust⟩, Nat.le_refl _⟩

theorem flow_frozen (b : Bank) (f : AccId → Balance) : Flow 0 0 b { b with frozen := f } := flow_locks b f b.pinned

theorem put_flow (b : Bank) (i : Nat) (a : AccId) (x : Acct) :
    ({ b with issuance := i }.put a x).sumAll + b.total a ≤ b.sumAll + (x.free + x.reserved) := by
  have := Bank.sumAll_put { b with issuance := i } a x
  have e1 : ({ b with issuance := i } : Bank).sumAll = b.sumAll := rfl
  have e2 : ({ b with issuance := i } : Bank).total a = b.total a := rfl
  rw [e1, e2] at this
  split at this <;> omega

theorem put_flow' (b : Bank) (a : AccId) (x : Acct) :
    (b.put a x).sumAll + b.total a ≤ b.sumAll + (x.free + x.reserved) := put_flow b b.issuance a x

theorem withdraw_flow {b b' : Bank} {a : AccId} {v : Balance} {k : Bool} (h : b.withdraw a v k = .ok b') :
    Flow 0 v b b' := by
  intro hi
  refine ⟨Bank.withdraw_inv hi h, ?_⟩
  unfold Bank.withdraw at h
  split at h
  · cases h; omega
  split at h
  · cases h
  repeat (split at h; · cases h)
  cases h
  have := put_flow b (b.issuance - v) a ⟨b.free a - v, b.reserved a⟩
  simp only [Bank.total] at this ⊢
  omega

theorem depositCreating_flow (b : Bank) (a : AccId) (v : Balance) : Flow v 0 b (b.depositCreating a v) := by
  intro hi
  refine ⟨Bank.depositCreating_inv hi a v, ?_⟩
  unfold Bank.depositCreating
  split
  · omega
  split
  · omega
  · have := put_flow b (b.issuance + v) a ⟨b.free a + v, b.reserved a⟩
    simp only [Bank.total] at this ⊢
    omega

theorem depositExisting_flow {b b' : Bank} {a : AccId} {v : Balance} (h : b.depositExisting a v = .ok b') :
    Flow v 0 b b' := by
  intro hi
  refine ⟨Bank.depositExisting_inv hi h, ?_⟩
  unfold Bank.depositExisting at h
  split at h
  · cases h; omega
  split at h
  · cases h
  · cases h
    have := put_flow b (b.issuance + v) a ⟨b.free a + v, b.reserved a⟩
    simp only [Bank.total] at this ⊢
    omega

theorem slash_flow (b : Bank) (a : AccId) (v : Balance) : Flow 0 0 b (b.slash a v).1 := by
  intro hi
  refine ⟨Bank.slash_inv hi a v, ?_⟩
  unfold Bank.slash
  split
  · exact Nat.le_refl _
  · have := put_flow b (b.issuance - (if b.canDie a then min v (b.free a) else min v (b.free a - b.ed))) a
      ⟨b.free a - (if b.canDie a then min v (b.free a) else min v (b.free a - b.ed)), b.reserved a⟩
    simp only [Bank.total] at this ⊢
    omega

theorem reserve_flow {b b' : Bank} {a : AccId} {v : Balance} (h : b.reserve a v = .ok b') : Flow 0 0 b b' := by
  intro hi
  refine ⟨Bank.reserve_inv hi h, ?_⟩
  unfold Bank.reserve at h
  split at h
  · cases h; omega
  split at h
  · cases h
  split at h
  · cases h
  split at h
  · cases h
  · cases h
    have := put_flow' b a ⟨b.free a - v, b.reserved a + v⟩
    simp only [Bank.total] at this ⊢
    omega

theorem unreserve_flow (b : Bank) (a : AccId) (v : Balance) : Flow 0 0 b (b.unreserve a v) := by
  intro hi
  refine ⟨Bank.unreserve_inv hi a v, ?_⟩
  unfold Bank.unreserve
  split
  · omega
  · have := put_flow' b a ⟨b.free a + min v (b.reserved a), b.reserved a - min v (b.reserved a)⟩
    simp only [Bank.total] at this ⊢
    omega

theorem slashReserved_flow (b : Bank) (a : AccId) (v : Balance) : Flow 0 0 b (b.slashReserved a v).1 := by
  intro hi
  refine ⟨Bank.slashReserved_inv hi a v, ?_⟩
  unfold Bank.slashReserved
  split
  · exact Nat.le_refl _
  · have := put_flow b (b.issuance - min v (b.reserved a)) a ⟨b.free a, b.reserved a - min v (b.reserved a)⟩
    simp only [Bank.total] at this ⊢
    omega

theorem transfer_flow {b b' : Bank} {x y : AccId} {v : Balance} {k : Bool} (h : b.transfer x y v k = .ok b') :
    Flow 0 0 b b' := by
  intro hi
  refine ⟨Bank.transfer_inv hi h, ?_⟩
  unfold Bank.transfer at h
  split at h
  · cases h; omega
  split at h
  · cases h
  repeat (split at h; · cases h)
  cases h
  have h1 := put_flow' b x ⟨b.free x - v, b.reserved x⟩
  have h2 := put_flow' (b.put x ⟨b.free x - v, b.reserved x⟩) y
    ⟨(b.put x ⟨b.free x - v, b.reserved x⟩).free y + v, (b.put x ⟨b.free x - v, b.reserved x⟩).reserved y⟩
  simp only [Bank.total] at h1 h2 ⊢
  omega

theorem money_flow (b : Bank) (m : Money) :
    Flow (match m with | .mint _ v => v | .mintExisting _ v => v | _ => 0) 0 b (money b m) := by
  cases m with
  | transfer x y v k =>
    simp only [money]
    cases h : b.transfer x y v k with
    | ok b' => exact transfer_flow h
    | error e => exact Flow.refl _
  | withdraw a v k =>
    simp only [money]
    cases h : b.withdraw a v k with
    | ok b' => exact (withdraw_flow h).weaken (by omega)
    | error e => exact Flow.refl _
  | mint a v => exact depositCreating_flow b a v
  | mintExisting a v =>
    simp only [money]
    cases h : b.depositExisting a v with
    | ok b' => exact depositExisting_flow h
    | error e => exact (Flow.refl _).weaken (by omega)
  | slash a v => exact slash_flow b a v

/-! ### The pallets -/

theorem node_flow (cfg : DeeperNode.Cfg) (s : DeeperNode.State) (op : DeeperNode.Op) (ho : nodeOwn op = true) :
    Flow 0 0 s.bank (DeeperNode.step cfg s op).1.bank := by
  have hne : ∀ n b v x, op ≠ .external n b v x := by rintro n b v x rfl; cases ho
  rcases DeeperNode.step_shape cfg s op hne with ⟨h1, -⟩ | ⟨x, c, -, -, h2, -⟩ | ⟨x, -, -, h2, -⟩
  · rw [h1]; exact Flow.refl _
  · exact reserve_flow h2
  · rw [h2]; exact unreserve_flow _ _ _

section Tips
open Tips

theorem giveBack_flow (b : Bank) (t : OpenTip) : Flow 0 0 b (giveBack b t) := by
  unfold giveBack
  split
  · exact Flow.refl _
  · exact unreserve_flow _ _ _

theorem attempt_flow (b : Bank) (x y : AccId) (v : Balance) : Flow 0 0 b (Tips.attempt b x y v) := by
  unfold Tips.attempt
  split
  · rename_i h; exact transfer_flow h
  · exact Flow.refl _

theorem tips_flow (cfg : Tips.Cfg) (s : Tips.State) (op : Tips.Op) (ho : tipsOwn op = true) :
    Flow 0 0 s.bank (Tips.step cfg s op).1.bank := by
  rcases Tips.step_shape cfg s op with ⟨e, hst⟩ | ⟨n, b, m, rfl, hst⟩ | ⟨a, rfl, hst⟩ |
    ⟨f, r, w, b, rfl, _, _, _, hb, hst⟩ | ⟨a, r, w, v, rfl, _, _, hst⟩ | ⟨a, r, w, v, rfl, _, _, hst⟩ |
    ⟨a, h', v, t, rfl, _, _, hst⟩ | ⟨a, h', v, t, rfl, _, _, hst⟩ | ⟨h', t, b, o, _, hst, hc⟩ <;> rw [hst]
  · exact Flow.refl _
  · cases ho
  · exact Flow.refl _
  · exact reserve_flow hb
  · exact Flow.refl _
  · exact Flow.refl _
  · exact Flow.refl _
  · exact Flow.refl _
  · show Flow 0 0 s.bank b
    rcases hc with ⟨-, -, rfl⟩ | ⟨-, -, rfl⟩ | ⟨v, n, -, -, -, -, hp⟩ | ⟨v, n, -, -, -, -, hp⟩
    · exact giveBack_flow _ _
    · split
      · exact Flow.refl _
      · exact slashReserved_flow _ _ _
    · unfold payoutTip at hp
      split at hp
      · cases hp
      · cases hp
        exact ((giveBack_flow _ _).trans (attempt_flow _ _ _ _)).trans (attempt_flow _ _ _ _)
    · unfold payoutCredit at hp
      split at hp
      · cases hp
      · cases hp
        exact giveBack_flow _ _

end Tips

section Council
open Council

theorem slashLosers_flow (keep : List AccId) (l : List (AccId × Balance)) :
    ∀ b : Bank, Flow 0 0 b (slashLosers b keep l) := by
  induction l with
  | nil => intro b; exact Flow.refl _
  | cons e l ih =>
    intro b
    obtain ⟨c, d⟩ := e
    unfold slashLosers
    split
    · exact ih b
    · exact (slashReserved_flow b c d).trans (ih _)

theorem phragmen_flow (cfg : Council.Cfg) (s : Council.State) (res : Option (List (AccId × Nat))) :
    Flow 0 0 s.bank (doPhragmen cfg s res).bank := by
  unfold doPhragmen
  split
  · exact Flow.refl _
  split
  · exact Flow.refl _
  split
  · exact Flow.refl _
  split
  · exact slashLosers_flow _ _ _
  · exact Flow.refl _

theorem replace_flow {s s' : Council.State} {a : AccId} {sl : Bool} (h : removeAndReplace s a sl = .ok s') :
    Flow 0 0 s.bank s'.bank := by
  unfold removeAndReplace at h
  split at h
  · cases h
  · cases h
    cases sl
    · exact unreserve_flow _ _ _
    · exact slashReserved_flow _ _ _

theorem removeVoter_flow (s : Council.State) (a : AccId) : Flow 0 0 s.bank (doRemoveVoter s a).bank :=
  (flow_frozen s.bank _).trans (unreserve_flow _ a _)

theorem attempt_council {s : Council.State} {r : Except Council.Err Council.State}
    (h : ∀ s', r = .ok s' → Flow 0 0 s.bank s'.bank) : Flow 0 0 s.bank (Council.attempt s r).1.bank := by
  cases r with
  | ok s' => exact h s' rfl
  | error e => exact Flow.refl _

theorem council_flow (cfg : Council.Cfg) (s : Council.State) (op : Council.Op) (ho : op.own = true) :
    Flow 0 0 s.bank (Council.step cfg s op).1.bank := by
  cases op with
  | external b o => cases ho
  | vote a v x =>
    refine attempt_council fun s' h => ?_
    unfold vote at h
    repeat' (split at h)
    all_goals first | cases h; done | skip
    rename_i b hb
    cases h
    have h1 : Flow 0 0 s.bank b := by
      unfold adjustDeposit at hb
      repeat' (split at hb)
      all_goals first | cases hb; done | skip
      · rename_i hr; cases hb; exact reserve_flow hr
      · cases hb; exact unreserve_flow _ _ _
      · cases hb; exact Flow.refl _
    unfold recordVote setLock
    dsimp only
    split
    · exact h1
    · exact h1.trans (flow_frozen b _)
  | removeVoter a =>
    refine attempt_council fun s' h => ?_
    unfold removeVoter at h
    split at h
    · cases h; exact removeVoter_flow s a
    · cases h
  | submit a n i =>
    refine attempt_council fun s' h => ?_
    unfold submitCandidacy at h
    repeat' (split at h)
    all_goals first | cases h; done | skip
    rename_i hr
    cases h
    exact reserve_flow hr
  | renounce a r =>
    refine attempt_council fun s' h => ?_
    cases r with
    | member =>
      simp only [renounce] at h
      split at h
      · cases h
      · rename_i hr; cases h; exact replace_flow hr
    | runnerUp =>
      simp only [renounce, renounceRunnerUp] at h
      split at h
      · cases h
      · cases h; exact unreserve_flow _ _ _
    | candidate n =>
      simp only [renounce, renounceCandidate] at h
      repeat' (split at h)
      · cases h
      · cases h
      · cases h; exact unreserve_flow _ _ _
  | removeMember a sl re res =>
    refine attempt_council fun s' h => ?_
    unfold removeMember at h
    split at h
    · cases h
    · rename_i m hr
      cases h
      split
      · exact (replace_flow hr).trans (phragmen_flow cfg m res)
      · exact replace_flow hr
  | cleanDefunct =>
    show Flow 0 0 s.bank ((defunct s).foldl doRemoveVoter s).bank
    have : ∀ (l : List AccId) (s : Council.State), Flow 0 0 s.bank (l.foldl doRemoveVoter s).bank := by
      intro l
      induction l with
      | nil => intro s; exact Flow.refl _
      | cons a l ih => intro s; exact (removeVoter_flow s a).trans (ih _)
    exact this _ s
  | block n res =>
    show Flow 0 0 s.bank (onInitialize cfg s n res).bank
    unfold onInitialize
    split
    · exact phragmen_flow cfg s res
    · exact Flow.refl _

end Council

section Led
open Ledger

theorem update_flow (cfg : Ledger.Cfg) (s : Ledger.State) (c : AccId) (l : Ledger.Ledger) :
    Flow 0 0 s.bank (updateLedger cfg s c l).bank := by
  unfold updateLedger setLock
  split
  · exact Flow.refl _
  · exact flow_frozen s.bank _

theorem kill_bank {s s' : Ledger.State} {a : AccId} {k : Bool} (h : killStash s a k = .ok s') : s'.bank = s.bank := by
  unfold killStash at h
  repeat' (split at h)
  · cases h
  · cases h
  · cases h; rfl

theorem removeKilled_flow {s s' : Ledger.State} {a : AccId} {k : Bool} (h : killStash s a k = .ok s') :
    Flow 0 0 s.bank (removeLock s' a).bank := by
  have := flow_frozen s'.bank (fun x => if x = a then s'.otherLocks x else s'.bank.frozen x)
  rw [kill_bank h] at this
  unfold removeLock
  rw [kill_bank h]
  exact this

theorem depositOr_flow (b : Bank) (a : AccId) (v : Balance) : Flow v 0 b (depositOr b a v) := by
  unfold depositOr
  split
  · rename_i h; exact depositExisting_flow h
  · exact (Flow.refl _).weaken (by omega)

theorem ledger_flow (cfg : Ledger.Cfg) (s : Ledger.State) (op : Ledger.Op) (ho : ledgerOwn op = true) :
    Flow (match op with | .payout _ v => v | _ => 0) 0 s.bank (Ledger.step cfg s op).1.bank := by
  unfold Ledger.step
  cases hb : Ledger.body cfg s op with
  | error e => exact (Flow.refl _).weaken (by omega)
  | ok r =>
    show Flow _ 0 s.bank r.1.bank
    cases op with
    | external b o c => cases ho
    | bond a c v p k =>
      simp only [Ledger.body, bond] at hb
      repeat' (split at hb)
      all_goals first | cases hb; done | skip
      cases hb
      exact update_flow cfg { s with bonded := s.bonded.insert a c, payees := s.payees.insert a p } _ _
    | setMinBond k v =>
      simp only [Ledger.body, setMinBond] at hb
      repeat' (split at hb)
      all_goals first | cases hb; done | skip
      cases hb; exact Flow.refl _
    | bondExtra a v =>
      simp only [Ledger.body, bondExtra] at hb
      repeat' (split at hb)
      all_goals first | cases hb; done | skip
      · cases hb; exact Flow.refl _
      · cases hb; exact update_flow _ _ _ _
    | unbond c v =>
      simp only [Ledger.body, unbond] at hb
      split at hb
      · cases hb
      split at hb
      · cases hb
      split at hb
      · cases hb
      split at hb
      · cases hb; exact Flow.refl _
      · cases hb; exact update_flow _ _ _ _
    | withdraw c k =>
      simp only [Ledger.body, Ledger.withdraw] at hb
      split at hb
      · cases hb
      split at hb
      · cases hb
      split at hb
      · split at hb
        · cases hb
        · rename_i h; cases hb; exact removeKilled_flow h
      · cases hb; exact update_flow _ _ _ _
    | validate c p =>
      simp only [Ledger.body, validate] at hb
      repeat' (split at hb)
      all_goals first | cases hb; done | skip
      cases hb; exact Flow.refl _
    | chill c =>
      simp only [Ledger.body, chill] at hb
      repeat' (split at hb)
      all_goals first | cases hb; done | skip
      cases hb; exact Flow.refl _
    | setPayee c d =>
      simp only [Ledger.body, setPayee] at hb
      repeat' (split at hb)
      all_goals first | cases hb; done | skip
      cases hb; exact Flow.refl _
    | setController a c =>
      simp only [Ledger.body, setController] at hb
      repeat' (split at hb)
      all_goals first | cases hb; done | skip
      all_goals (cases hb; exact Flow.refl _)
    | forceUnstake k a x =>
      simp only [Ledger.body, forceUnstake] at hb
      repeat' (split at hb)
      all_goals first | cases hb; done | skip
      rename_i h
      cases hb; exact removeKilled_flow h
    | rebond c v =>
      simp only [Ledger.body, rebond] at hb
      repeat' (split at hb)
      all_goals first | cases hb; done | skip
      cases hb; exact update_flow _ _ _ _
    | reap a k =>
      simp only [Ledger.body, reap] at hb
      repeat' (split at hb)
      all_goals first | cases hb; done | skip
      rename_i h
      cases hb; exact removeKilled_flow h
    | burn c v =>
      simp only [Ledger.body, burn] at hb
      split at hb
      · cases hb
      · rename_i l _
        cases hb
        exact ((flow_frozen s.bank _).trans (slash_flow (removeLock s l.stash).bank l.stash _)).trans
          (update_flow cfg { removeLock s l.stash with bank := ((removeLock s l.stash).bank.slash l.stash (slashLedger l v s.bank.ed).2).1 } c _)
    | slash a v =>
      simp only [Ledger.body, doSlash] at hb
      split at hb
      · cases hb; exact Flow.refl _
      split at hb
      · cases hb; exact Flow.refl _
      split at hb
      · cases hb; exact Flow.refl _
      · rename_i l _ _
        cases hb
        exact (slash_flow s.bank a _).trans
          (update_flow cfg { s with bank := (s.bank.slash a (slashLedger l v s.bank.ed).2).1 } _ _)
    | payout a v =>
      simp only [Ledger.body, payout] at hb
      cases hb
      dsimp only
      split
      · split
        · exact (Flow.refl _).weaken (by omega)
        · exact depositCreating_flow _ _ _
      · exact depositOr_flow _ _ _
      · split
        · exact (Flow.refl _).weaken (by omega)
        split
        · exact (Flow.refl _).weaken (by omega)
        · exact (depositOr_flow s.bank a v).trans (update_flow cfg { s with bank := depositOr s.bank a v } _ _)
      · exact depositCreating_flow _ _ _
    | kick a => simp only [Ledger.body] at hb; cases hb; exact Flow.refl _
    | newEra => simp only [Ledger.body] at hb; cases hb; exact Flow.refl _

end Led

section Oper
open Operation

theorem scan_flow (cfg : Operation.Cfg) (s : Operation.State) (day : Nat) (l : List (AccId × Info)) : ∀ c : Scan,
    ∃ rs, (scan cfg s day l c).releases = c.releases ++ rs ∧
      Flow (rs.map (·.amount)).sum 0 c.bank (scan cfg s day l c).bank := by
  induction l with
  | nil => intro c; exact ⟨[], (List.append_nil _).symm, Flow.refl _⟩
  | cons e l ih =>
    intro c
    obtain ⟨a, i⟩ := e
    unfold scan
    split
    · exact ih c
    split
    · exact ⟨[], (List.append_nil _).symm, Flow.refl _⟩
    · have h : ∃ rs, (release day c a i).releases = c.releases ++ rs ∧
          Flow (rs.map (·.amount)).sum 0 c.bank (release day c a i).bank :=
        ⟨_, rfl, by
          have := depositCreating_flow c.bank a (accrued day i)
          simpa [release] using this⟩
      simp only
      split
      · exact h
      split
      · exact h
      · obtain ⟨r1, h1, h2⟩ := h
        obtain ⟨r2, h3, h4⟩ := ih (release day c a i)
        refine ⟨r1 ++ r2, by rw [h3, h1, List.append_assoc], ?_⟩
        rw [List.map_append, List.sum_append]
        exact h2.trans h4

theorem finalize_flow (cfg : Operation.Cfg) (s : Operation.State) :
    Flow ((finalize cfg s).2.map (·.amount)).sum 0 s.bank (finalize cfg s).1.bank := by
  unfold finalize
  split
  · exact Flow.refl _
  · unfold releaseStaking
    split
    · exact Flow.refl _
    · obtain ⟨rs, h1, h2⟩ := scan_flow cfg s s.today
        ((sortByKey cfg.key s.infos.entries).filter fun e => decide (s.lastKey < cfg.key e.1))
        ⟨s.bank, s.infos, s.totalRelease, (s.daily.get s.today).getD 0, 0, [], s.dayEnd, s.lastKey, []⟩
      simp only
      rw [h1]
      exact h2

theorem oper_flow (cfg : Operation.Cfg) (s : Operation.State) (op : Operation.Op) (ho : operOwn op = true) :
    Flow (match op with | .finalize => ((finalize cfg s).2.map (·.amount)).sum | _ => 0) 0 s.bank
      (Operation.step cfg s op).1.bank := by
  cases op with
  | external dt b p k => cases ho
  | finalize => exact finalize_flow cfg s
  | _ =>
    show Flow 0 0 s.bank _
    unfold Operation.step
    split
    · rename_i r hb
      simp only [Operation.body] at hb
      first
        | (obtain ⟨s', hs, rfl⟩ := map_ok hb
           simp only [forceReserve, forceRemoveLock, setLimits, unstakingRelease, removeInfos, burnForEzc, setFund, bridgeOut, bridgeIn, unlockAssets] at hs
           repeat' (split at hs)
           all_goals first
             | (cases hs; done)
             | (cases hs; exact Flow.refl _)
             | (cases hs; exact flow_frozen s.bank _)
             | (obtain ⟨b, hl, rfl⟩ := map_ok hs
                first
                  | exact reserve_flow (liftBank_ok hl)
                  | exact transfer_flow (liftBank_ok hl)
                  | exact ((withdraw_flow (liftBank_ok hl)).trans (depositCreating_flow _ _ _)).weaken (by omega)
                  | exact (flow_frozen s.bank _).trans (transfer_flow (liftBank_ok hl))))
        | (cases hb; exact Flow.refl _)
    · exact Flow.refl _

theorem unlock_flow {s s' : Operation.State} {r : Bool} {x y : AccId} {v f : Balance}
    (h : unlockAssets s r x y v f = .ok s') : Flow 0 0 s.bank s'.bank := by
  unfold unlockAssets at h
  split at h
  · cases h
  · obtain ⟨b, hl, rfl⟩ := map_ok h
    exact (flow_frozen s.bank _).trans (transfer_flow (liftBank_ok hl))

end Oper

/-- Micropayments: accounts and channels together do not gain. -/
theorem micro_flow (cfg : Micropayment.Config) (s : Micropayment.State) (op : Micropayment.Op)
    (ho : microOwn op = true) (hi : s.bank.Inv) :
    (Micropayment.step cfg s op).1.bank.Inv ∧
    (Micropayment.step cfg s op).1.bank.sumAll + Micropayment.escrowAll (Micropayment.step cfg s op).1 ≤
      s.bank.sumAll + Micropayment.escrowAll s := by
  have hext : ∀ n e b, op ≠ .external n e b := by rintro n e b rfl; cases ho
  unfold Micropayment.step
  split
  · rename_i he
    obtain ⟨h1, h2, -⟩ := Micropayment.body_wealth hi hext he
    exact ⟨h1, h2⟩
  · exact ⟨hi, Nat.le_refl _⟩

/-! ### One step -/

theorem effect_supply (cfg : Cfg) (w : State) (op : Op) (hi : w.bank.Inv) :
    (effect cfg w op).bank.Inv ∧ supply (effect cfg w op) ≤ supply w + createdBy cfg w op := by
  have lift : ∀ {u : Nat} {w' : State}, Flow u 0 w.bank w'.bank → Micropayment.escrowAll w'.micro = Micropayment.escrowAll w.micro →
      u ≤ createdBy cfg w op → w'.bank.Inv ∧ supply w' ≤ supply w + createdBy cfg w op := by
    intro u w' hf he hu
    obtain ⟨h1, h2⟩ := hf hi
    refine ⟨h1, ?_⟩
    unfold supply
    omega
  cases op with
  | node op =>
    cases ho : nodeOwn op with
    | false => exact lift (u := 0) (by simp only [effect, ho]; exact Flow.refl _) rfl (Nat.zero_le _)
    | true =>
      exact lift (u := 0) (by simp only [effect, ho, if_true]; exact node_flow cfg.node { w.node with bank := w.bank } op ho) rfl (Nat.zero_le _)
  | tips op =>
    cases ho : tipsOwn op with
    | false => exact lift (u := 0) (by simp only [effect, ho]; exact Flow.refl _) rfl (Nat.zero_le _)
    | true =>
      exact lift (u := 0) (by simp only [effect, ho, if_true]; exact tips_flow cfg.tips { w.tips with bank := w.bank } op ho) rfl (Nat.zero_le _)
  | council op =>
    cases ho : op.own with
    | false => exact lift (u := 0) (by simp only [effect, ho]; exact Flow.refl _) rfl (Nat.zero_le _)
    | true =>
      exact lift (u := 0) (by simp only [effect, ho, if_true]; exact council_flow cfg.council { w.council with bank := w.bank } op ho) rfl (Nat.zero_le _)
  | oper op =>
    cases ho : operOwn op with
    | false => exact lift (u := 0) (by simp only [effect, ho]; exact Flow.refl _) rfl (Nat.zero_le _)
    | true =>
      have hf := oper_flow cfg.oper { w.oper with bank := w.bank } op ho
      refine lift (w' := effect cfg w (.oper op)) (by simp only [effect, ho, if_true]; exact hf) rfl ?_
      cases op <;> exact Nat.le_refl _
  | micro op =>
    cases ho : microOwn op with
    | false =>
      refine lift (u := 0) (by simp only [effect, ho]; exact Flow.refl _) ?_ (Nat.zero_le _)
      cases op <;> first | rfl | cases ho
    | true =>
      obtain ⟨h1, h2⟩ := micro_flow cfg.micro { w.micro with bank := w.bank } op ho hi
      refine ⟨by simp only [effect, ho, if_true]; exact h1, ?_⟩
      simp only [supply, effect, ho, if_true]
      exact h2
  | ledger op =>
    cases ho : ledgerOwn op with
    | false => exact lift (u := 0) (by simp only [effect, ho]; exact Flow.refl _) rfl (Nat.zero_le _)
    | true =>
      have hf := ledger_flow cfg.ledger { w.ledger with bank := w.bank } op ho
      refine lift (w' := effect cfg w (.ledger op)) (by simp only [effect, ho, if_true]; exact hf) rfl ?_
      cases op <;> exact Nat.le_refl _
  | money m =>
    refine lift (w' := effect cfg w (.money m)) (money_flow w.bank m) rfl ?_
    cases m <;> exact Nat.le_refl _
  | hold a v =>
    refine lift (u := 0) ?_ ?_ (Nat.zero_le _)
    · simp only [effect]
      split
      · rename_i h; exact reserve_flow h
      · exact Flow.refl _
    · simp only [effect]; split <;> rfl
  | release a v =>
    refine lift (u := 0) ?_ ?_ (Nat.zero_le _)
    · simp only [effect]
      split
      · exact unreserve_flow _ _ _
      · exact Flow.refl _
    · simp only [effect]; split <;> rfl
  | locks r p => exact lift (u := 0) (Flow.refl _) rfl (Nat.zero_le _)
  | unlockStake r x => cases r <;> exact lift (u := 0) (Flow.refl _) rfl (Nat.zero_le _)
  | unlockVote r x => cases r <;> exact lift (u := 0) (Flow.refl _) rfl (Nat.zero_le _)
  | unlockMove r x y v =>
    refine lift (u := 0) ?_ ?_ (Nat.zero_le _)
    · simp only [effect]
      split
      · rename_i s hs
        exact unlock_flow hs
      · exact Flow.refl _
    · simp only [effect]; split <;> rfl

theorem step_supply (cfg : Cfg) (w : State) (op : Op) (hi : w.bank.Inv) :
    (step cfg w op).bank.Inv ∧ supply (step cfg w op) ≤ supply w + createdBy cfg w op := by
  obtain ⟨h1, h2⟩ := effect_supply cfg w op hi
  exact ⟨⟨h1.edPos, h1.issuance, h1.noDust⟩, h2⟩

/-! ### Theorems -/

/-- C105. The books are correct after every history: the total issuance is the sum of the balances of all
accounts, and no account is left below the existential deposit with nothing reserved. -/
theorem C105_books (cfg : Cfg) (w : State) (h : w.bank.Inv) (ops : List Op) :
    (run cfg w ops).bank.issuance = (run cfg w ops).bank.sumAll ∧
    ∀ a x, (run cfg w ops).bank.accts.get a = some x →
      (run cfg w ops).bank.ed ≤ x.free ∨ 0 < x.reserved := by
  have hi : (run cfg w ops).bank.Inv := by
    induction ops generalizing w with
    | nil => exact h
    | cons op ops ih => exact ih _ (step_supply cfg w op h).1
  refine ⟨hi.issuance, fun a x hx => ?_⟩
  have := hi.noDust a x hx
  omega

/-- C105. Money is created only by staking rewards, by the releases of the operation pallet and by minting
of the rest of the chain: in every history all balances and all channels together grow by no more than
these paid. -/
theorem C105_supply (cfg : Cfg) (w : State) (h : w.bank.Inv) (ops : List Op) :
    supply (run cfg w ops) ≤ supply w + created cfg w ops := by
  induction ops generalizing w with
  | nil => exact Nat.le_refl _
  | cons op ops ih =>
    obtain ⟨h1, h2⟩ := step_supply cfg w op h
    have := ih (step cfg w op) h1
    simp only [run, created]
    omega

/-! ### Example -/

def exCfg : Cfg :=
  ⟨DeeperNode.exCfg, Tips.exCfg, Council.exCfg, Operation.exCfg, Micropayment.exCfg, Ledger.exCfg⟩

def exWorld : State :=
  { bank := Council.exBank, node := DeeperNode.genesis Council.exBank [], tips := Tips.genesis Council.exBank [1, 2, 3]
    council := Council.exState, oper := Operation.genesis Council.exBank 1000 100
    micro := Micropayment.genesis Council.exBank 0 (fun _ => 0), ledger := Ledger.genesis Council.exBank 10
    others := fun _ => 0, rest := fun _ => 0, pins := fun _ => false }

theorem exWorld_genesis : Genesis exCfg exWorld :=
  ⟨⟨_, _, rfl⟩, ⟨_, _, rfl⟩, ⟨Council.exBank, fun _ => 0, [(4, 50)], rfl⟩, fun _ => rfl⟩

theorem exWorld_inv : exWorld.bank.Inv := by
  refine ⟨by decide, by decide, ?_⟩
  intro a x h
  have h' : Council.exBank.accts.get a = some x := h
  simp only [Council.exBank, FMap.get_insert, FMap.get_empty] at h'
  repeat' (split at h')
  all_goals first | (cases h'; decide) | cases h'

/-- Account 1 registers a device, reports a tip, becomes a candidate and votes; a locker member reserves 30
of it; another pallet takes 5 and returns 2; it opens a channel, bonds 100 and receives 11. -/
def exOps : List Op :=
  [.node (.register 1 DeeperNode.us), .tips (.report 1 [7] 5), .council (.submit 1 0 true), .council (.vote 1 [1] 200),
   .oper (.external 0 Council.exBank Operation.allPriv (fun _ => true)), .oper (.forceReserve 7 1 30), .hold 1 5, .release 1 2,
   .micro (.openChannel 1 2 50 100), .ledger (.bond 1 9 100 .staked true), .money (.mint 1 11)]

example :
    let w := run exCfg exWorld exOps
    w.bank.reserved 1 = 256 ∧ owed exCfg w 1 = 226 ∧ forced exCfg exWorld exOps 1 = 30 ∧ w.bank.free 1 = 705 ∧
    w.node.devices.contains 1 = true ∧
    (step exCfg w (.node (.unregister 1))).node.devices.contains 1 = false ∧
    (step exCfg w (.node (.unregister 1))).bank.reserved 1 = 156 ∧
    supply exWorld = 6000 ∧ supply w = 6011 ∧ w.bank.sumAll = 5961 ∧ created exCfg exWorld exOps = 11 := by
  decide +kernel

end Verif.World
