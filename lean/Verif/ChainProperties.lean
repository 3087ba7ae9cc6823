import Verif.Chain
import Verif.WorldLocks
import Verif.RewardsProperties
import Verif.SlashingProperties
import Verif.CreditParams
import Verif.StakingCreditProperties
import Verif.AdscProperties

/-!
# Properties of the chain as a whole: C109

Every history of the chain is, as far as accounts, deposits, locks and stakes are concerned, a history of `World`
(`refines`). Together with the mining pool this bounds the supply.
-/

namespace Verif.Chain

open Verif

/-! ### Specification -/

/-- What is left in the mining pool. -/
def pool (cfg : Cfg) (c : State) : Balance := c.stk.dele.pool.getD cfg.stk.dele.totalMining

/-- All money: balances of all accounts and what lies in payment channels. -/
def supply (c : State) : Balance := c.w.bank.sumAll + Micropayment.escrowAll c.w.micro

/-- Explicit decisions to create money: the root enlarges the mining pool or the pool of ADSC; the releases which the
operation pallet announces at the end of a block; minting by pallets outside of the model. -/
def granted (cfg : Cfg) (c : State) : Op → Balance
  | .dele (.increasePool true v) => v
  | .adsc (.addPool true v) => v
  | .world (.oper .finalize) => ((Operation.finalize cfg.world.oper { c.w.oper with bank := c.w.bank }).2.map (·.amount)).sum
  | .world (.money (.mint _ v)) => v
  | .world (.money (.mintExisting _ v)) => v
  | _ => 0

/-- Validators paid at the end of an era after which nothing is left in the pool. -/
def lastPaid (cfg : Cfg) (c : State) : Op → Nat
  | .dele (.endEra e) =>
    if pool cfg (step cfg c (.dele (.endEra e))) = 0 then ((c.stk.dele.erasValidators.get e).getD []).length else 0
  | _ => 0

/-- Sum over a history. -/
def total (f : State → Op → Nat) (cfg : Cfg) (c : State) : List Op → Nat
  | [] => 0
  | op :: ops => f c op + total f cfg (step cfg c op) ops

/-- At the start the books are correct, the locks are those of the pallets, and no era was paid. -/
structure Start (c : State) : Prop where
  books : c.w.bank.Inv
  locks : World.settle c.w = c.w
  points : c.stk.dele.points = ∅
  elected : c.stk.dele.erasValidators = ∅

/-- Storage is iterated without repetition. -/
def Iterates : Op → Prop
  | .dele (.newEra order) => order.Nodup
  | _ => True

/-- Steps of the staking ledger, payments and deposits into an account. -/
def inner : World.Op → Bool
  | .ledger op => World.ledgerOwn op
  | .money (.slash ..) => false
  | .money _ => true
  | _ => false

/-- What locker members have had reserved in a history. -/
def forced (cfg : Cfg) (c : State) : List Op → AccId → Balance
  | [], _ => 0
  | op :: ops, a => (match op with | .world o => World.forcedBy cfg.world c.w o a | _ => 0) + forced cfg (step cfg c op) ops a

/-! ### The staking pallet in terms of `World` -/

/-- The ledger fits to the locks of the other pallets. -/
structure Fits (w : World.State) (s : Ledger.State) : Prop where
  others : s.otherLocks = fun a => max (World.voteLock w a) (w.rest a)
  frozen : s.bank.frozen = fun a => max (World.voteLock w a) (max (Ledger.lockOf s a) (w.rest a))
  pinned : s.bank.pinned = fun a => s.bonded.contains a || w.pins a

/-- `World` gets there by steps of the ledger and payments. -/
def Gets (cfg : World.Cfg) (w w' : World.State) : Prop := ∃ ws, (∀ op ∈ ws, inner op = true) ∧ World.run cfg w ws = w'

theorem Gets.refl (cfg : World.Cfg) (w : World.State) : Gets cfg w w := ⟨[], by simp, rfl⟩

theorem run_append (cfg : World.Cfg) (l l' : List World.Op) : ∀ w, World.run cfg w (l ++ l') = World.run cfg (World.run cfg w l) l' := by
  induction l with
  | nil => intro w; rfl
  | cons op l ih => intro w; exact ih _

theorem Gets.trans {cfg : World.Cfg} {a b c : World.State} (h : Gets cfg a b) (h' : Gets cfg b c) : Gets cfg a c := by
  obtain ⟨l, i, rfl⟩ := h
  obtain ⟨l', i', rfl⟩ := h'
  refine ⟨l ++ l', ?_, run_append cfg l l' a⟩
  intro op ho
  rcases List.mem_append.1 ho with ho | ho
  · exact i op ho
  · exact i' op ho

theorem Gets.one {cfg : World.Cfg} {w : World.State} (op : World.Op) (h : inner op = true) : Gets cfg w (World.step cfg w op) :=
  ⟨[op], by simpa using h, rfl⟩

/-- With a fitting ledger the locks are settled. -/
theorem put_eq {w : World.State} {s : Ledger.State} (h : Fits w s) :
    put w s = { w with ledger := s, bank := s.bank, council := { w.council with otherLock := fun a => max (Ledger.lockOf s a) (w.rest a) } } := by
  have e : ({ s.bank with frozen := fun a => max (World.voteLock w a) (max (Ledger.lockOf s a) (w.rest a)), pinned := fun a => s.bonded.contains a || w.pins a } : Bank) = s.bank := by
    rw [← h.frozen, ← h.pinned]
  have e2 : ({ s with otherLocks := fun a => max (World.voteLock w a) (w.rest a), bank := s.bank } : Ledger.State) = s := by
    rw [← h.others]
  unfold put World.settle
  simp only [World.voteLock] at *
  rw [e]
  simp only [e2]

/-- A call of the ledger in `World`. -/
theorem ledger_step {cfg : World.Cfg} {w : World.State} {s : Ledger.State} (h : Fits w s) (op : Ledger.Op)
    (ho : World.ledgerOwn op = true) : World.step cfg (put w s) (.ledger op) = put w (Ledger.step cfg.ledger s op).1 := by
  rw [put_eq h]
  simp only [World.step, World.effect, ho, if_true]
  rfl

/-- A balance operation in `World`. -/
theorem money_step {cfg : World.Cfg} {w : World.State} {s : Ledger.State} (h : Fits w s) (m : World.Money) :
    World.step cfg (put w s) (.money m) = put w { s with bank := World.money s.bank m } := by
  rw [put_eq h]
  rfl

/-- The step of the staking pallet can be followed in `World`, and the ledger fits again. -/
def Follows (cfg : World.Cfg) (w : World.State) (s s' : Ledger.State) : Prop :=
  Fits w s → Fits w s' ∧ Gets cfg (put w s) (put w s')

theorem Follows.refl (cfg : World.Cfg) (w : World.State) (s : Ledger.State) : Follows cfg w s s :=
  fun h => ⟨h, Gets.refl cfg _⟩

theorem Follows.trans {cfg : World.Cfg} {w : World.State} {a b c : Ledger.State} (h : Follows cfg w a b)
    (h' : Follows cfg w b c) : Follows cfg w a c := by
  intro f
  obtain ⟨f1, g1⟩ := h f
  obtain ⟨f2, g2⟩ := h' f1
  exact ⟨f2, g1.trans g2⟩

theorem put_locks (b : Bank) (a : AccId) (x : Acct) : (b.put a x).frozen = b.frozen ∧ (b.put a x).pinned = b.pinned := by
  simp

theorem money_locks (b : Bank) (m : World.Money) : (World.money b m).frozen = b.frozen ∧ (World.money b m).pinned = b.pinned := by
  cases m with
  | transfer x y v k =>
    simp only [World.money, Bank.transfer]
    split
    · rename_i b' h
      split_ifs at h <;> cases h <;> simp
    · exact ⟨rfl, rfl⟩
  | withdraw a v k =>
    simp only [World.money, Bank.withdraw]
    split
    · rename_i b' h
      split_ifs at h <;> cases h <;> simp
    · exact ⟨rfl, rfl⟩
  | mint a v =>
    simp only [World.money, Bank.depositCreating]
    split_ifs <;> simp
  | mintExisting a v =>
    simp only [World.money, Bank.depositExisting]
    split
    · rename_i b' h
      split_ifs at h <;> cases h <;> simp
    · exact ⟨rfl, rfl⟩
  | slash a v =>
    simp only [World.money, Bank.slash]
    split <;> simp

theorem money_follows (cfg : World.Cfg) (w : World.State) (s : Ledger.State) (m : World.Money) (hm : inner (.money m) = true) :
    Follows cfg w s { s with bank := World.money s.bank m } := by
  intro h
  obtain ⟨l1, l2⟩ := money_locks s.bank m
  refine ⟨⟨h.others, l1.trans h.frozen, l2.trans h.pinned⟩, ?_⟩
  rw [← money_step h m]
  exact Gets.one _ hm

/-- A call of the ledger which leaves bonds as they are. -/
theorem step_follows {cfg : World.Cfg} {w : World.State} {s : Ledger.State} (op : Ledger.Op) (ho : World.ledgerOwn op = true)
    (hf : Fits w s → Fits w (Ledger.step cfg.ledger s op).1) : Follows cfg w s (Ledger.step cfg.ledger s op).1 := by
  intro h
  refine ⟨hf h, ?_⟩
  rw [← ledger_step h op ho]
  exact Gets.one _ ho

theorem update_fits {cfg : Ledger.Cfg} {w : World.State} {s : Ledger.State} (h : Fits w s) (c : AccId) (l : Ledger.Ledger) :
    Fits w (Ledger.updateLedger cfg s c l) := by
  unfold Ledger.updateLedger Ledger.setLock
  split
  · exact ⟨h.others, h.frozen, h.pinned⟩
  · refine ⟨h.others, ?_, h.pinned⟩
    funext x
    have e1 := congrFun h.frozen x
    have e2 := congrFun h.others x
    simp only [Ledger.putLock, Ledger.lockOf, FMap.get_insert]
    by_cases hx : x = l.stash
    · subst hx
      simp only [if_true, Option.getD_some, e2]
      omega
    · simp only [if_neg hx, e1]
      rfl

theorem fits_bank {w : World.State} {s : Ledger.State} (h : Fits w s) (b : Bank) (h1 : b.frozen = s.bank.frozen)
    (h2 : b.pinned = s.bank.pinned) : Fits w { s with bank := b } :=
  ⟨h.others, h1.trans h.frozen, h2.trans h.pinned⟩

theorem depositOr_locks (b : Bank) (a : AccId) (v : Balance) :
    (Ledger.depositOr b a v).frozen = b.frozen ∧ (Ledger.depositOr b a v).pinned = b.pinned := money_locks b (.mintExisting a v)

theorem payout_follows (cfg : World.Cfg) (w : World.State) (s : Ledger.State) (a : AccId) (v : Balance) :
    Follows cfg w s (Ledger.payout cfg.ledger s a v) := by
  refine step_follows (cfg := cfg) (.payout a v) rfl fun h => ?_
  show Fits w (Ledger.payout cfg.ledger s a v)
  have hd : ∀ x, Fits w { s with bank := s.bank.depositCreating x v } := fun x =>
    fits_bank h _ (money_locks s.bank (.mint x v)).1 (money_locks s.bank (.mint x v)).2
  have he : Fits w { s with bank := Ledger.depositOr s.bank a v } :=
    fits_bank h _ (depositOr_locks s.bank a v).1 (depositOr_locks s.bank a v).2
  unfold Ledger.payout
  split
  · split
    · exact h
    · exact hd _
  · exact he
  · split
    · exact h
    · split
      · exact h
      · exact update_fits he _ _
  · exact hd _

theorem slash_locks (b : Bank) (a : AccId) (v : Balance) : (b.slash a v).1.frozen = b.frozen ∧ (b.slash a v).1.pinned = b.pinned :=
  money_locks b (.slash a v)

theorem doSlash_follows (cfg : World.Cfg) (w : World.State) (s : Ledger.State) (a : AccId) (v : Balance) :
    Follows cfg w s (Ledger.doSlash cfg.ledger s a v).1 := by
  refine step_follows (cfg := cfg) (.slash a v) rfl fun h => ?_
  show Fits w (Ledger.doSlash cfg.ledger s a v).1
  unfold Ledger.doSlash
  split
  · exact h
  · split
    · exact h
    · simp only
      split
      · exact h
      · refine update_fits (fits_bank h _ (slash_locks s.bank _ _).1 (slash_locks s.bank _ _).2) _ _

theorem kick_follows (cfg : World.Cfg) (w : World.State) (s : Ledger.State) (a : AccId) :
    Follows cfg w s { s with validators := s.validators.erase a } :=
  step_follows (cfg := cfg) (.kick a) rfl fun h => ⟨h.others, h.frozen, h.pinned⟩

theorem era_follows (cfg : World.Cfg) (w : World.State) (s : Ledger.State) :
    Follows cfg w s { s with era := some (match s.era with | none => 0 | some e => e + 1) } :=
  step_follows (cfg := cfg) .newEra rfl fun h => ⟨h.others, h.frozen, h.pinned⟩

/-! ### Delegations and payouts -/

section
open Verif.Delegation

/-- A relation which holds for deposits. -/
structure Mints (R : Ledger.State → Ledger.State → Prop) : Prop where
  refl : ∀ s, R s s
  trans : ∀ {a b c}, R a b → R b c → R a c
  mint : ∀ s a v, R s { s with bank := s.bank.depositCreating a v }

/-- A relation which holds for everything that delegations and payouts do to the ledger. -/
structure Pays (lc : Ledger.Cfg) (R : Ledger.State → Ledger.State → Prop) : Prop extends Mints R where
  payout : ∀ s a v, R s (Ledger.payout lc s a v)
  era : ∀ s : Ledger.State, R s { s with era := some (match s.era with | none => 0 | some e => e + 1) }

theorem deposit_follows {R : Ledger.State → Ledger.State → Prop} (hR : Mints R) (s : Delegation.State) (a : AccId) (v : Balance) :
    R s.led (deposit s a v).led := hR.mint s.led a v

theorem payReward_follows {R : Ledger.State → Ledger.State → Prop} (hR : Mints R) (s : Delegation.State) (d : Delegator) (era : Nat) (p q : Balance) :
    R s.led (payReward s d era p q).1.led := hR.mint s.led d.who _

theorem payDelegator_follows {R : Ledger.State → Ledger.State → Prop} (hR : Mints R) (s : Delegation.State) (d : Delegator) (era : Nat) (p : Balance)
    (reward : AccId → Nat → Nat → Option Balance) : R s.led (payDelegator s d era p reward).1.led := by
  unfold payDelegator
  simp only
  split
  · exact hR.refl _
  · simp only [settle_led]
    split
    · exact hR.refl _
    · exact payReward_follows hR s d era p _

theorem payReferer_follows {R : Ledger.State → Ledger.State → Prop} (hR : Mints R) (s : Delegation.State) (d : AccId) (p q : Balance) :
    R s.led (payReferer s d p q).1.led := by
  unfold payReferer
  split
  · exact hR.refl _
  · split
    · exact hR.refl _
    · exact deposit_follows hR s _ _

theorem payLoop_follows {R : Ledger.State → Ledger.State → Prop} (hR : Mints R) (dc : Delegation.Cfg) (era : Nat)
    (reward : AccId → Nat → Nat → Option Balance) : ∀ (n : Nat) (l : Loop), R l.s.led (payLoop dc era reward n l).s.led := by
  intro n
  induction n with
  | zero => intro l; exact hR.refl _
  | succ n ih =>
    intro l
    unfold payLoop
    split
    · exact hR.refl _
    · split
      · exact hR.refl _
      · rename_i a _ d _
        simp only
        have h1 := payDelegator_follows hR l.s d era l.pool reward
        split
        · exact h1
        · have h2 := hR.trans h1 (payReferer_follows hR (payDelegator l.s d era l.pool reward).1 d.who
            (payDelegator l.s d era l.pool reward).2.1 (l.pool - (payDelegator l.s d era l.pool reward).2.1))
          split
          · exact h2
          · refine hR.trans h2 ?_
            generalize hl : Loop.mk _ _ _ _ _ = l'
            have e : l'.s = (payReferer (payDelegator l.s d era l.pool reward).1 d.who (payDelegator l.s d era l.pool reward).2.1 (l.pool - (payDelegator l.s d era l.pool reward).2.1)).1 := by rw [← hl]
            rw [← e]
            exact ih l'

theorem onBlock_follows {R : Ledger.State → Ledger.State → Prop} (hR : Mints R) (dc : Delegation.Cfg) (s : Delegation.State)
    (reward : AccId → Nat → Nat → Option Balance) : R s.led (onBlock dc s reward).1.led := by
  unfold onBlock payDelegators
  simp only
  split
  · exact hR.refl _
  · split
    · exact hR.refl _
    · split
      · exact hR.refl _
      · have h := payLoop_follows hR dc (creditEra dc { s with block := s.block + 1 }) reward s.perBlock
          ⟨{ s with block := s.block + 1 }, poolOf dc { s with block := s.block + 1 }, s.lastKey, true, []⟩
        exact h

theorem payEach_follows {lc : Ledger.Cfg} {R : Ledger.State → Ledger.State → Prop} (hR : Pays lc R) {dc : Delegation.Cfg} (hc : dc.led = lc) (p : Points) (v : Balance)
    (l : List AccId) : ∀ (s : Delegation.State) (t : Balance), R s.led (payEachValidator dc p v l s t).1.led := by
  induction l with
  | nil => intro s t; exact hR.refl _
  | cons x l ih =>
    intro s t
    unfold payEachValidator
    split
    · exact ih s t
    · simp only [hc]
      exact hR.trans (hR.payout s.led x _) (ih { s with led := Ledger.payout lc s.led x (validatorShare p v x) } _)

theorem payValidators_follows {lc : Ledger.Cfg} {R : Ledger.State → Ledger.State → Prop} (hR : Pays lc R) {dc : Delegation.Cfg} (hc : dc.led = lc)
    (s : Delegation.State) (e : Nat) : R s.led (payValidators dc s e).led := by
  unfold payValidators
  split
  · exact hR.refl _
  · exact payEach_follows hR hc _ _ _ s 0

theorem led_undelegateOf (s : Delegation.State) (d : AccId) : (undelegateOf s d).led = s.led := by
  unfold undelegateOf
  split
  · rfl
  · split
    · rfl
    · simp only; split <;> rfl

theorem led_undelegates (ds : List AccId) : ∀ s : Delegation.State, (ds.foldl undelegateOf s).led = s.led := by
  induction ds with
  | nil => intro s; rfl
  | cons d ds ih => intro s; rw [List.foldl_cons, ih, led_undelegateOf]

theorem led_doDelegate {dc : Delegation.Cfg} {s t : Delegation.State} {d : AccId} {vs : List AccId}
    (h : doDelegate dc s d vs true = .ok t) : t.led = s.led := by
  unfold doDelegate at h
  simp only [Bool.true_eq_false, if_false] at h
  cases hd : s.delegators.get d with
  | none => rw [hd] at h; cases h; rfl
  | some x => rw [hd] at h; cases h; rfl

theorem led_newEra (s : Delegation.State) (order : List AccId) :
    (newEra s order).1.led = { s.led with era := some (match s.led.era with | none => 0 | some e => e + 1) } := by
  have h1 : (enterEra s (nextEra s)).led = { s.led with era := some (nextEra s) } := by
    unfold enterEra; simp only; split <;> rfl
  have h2 : ∀ (u : Delegation.State) (l : Option (List AccId)) (e : Nat), (storeElected u e l).led = u.led := by
    intro u l e; cases l <;> rfl
  have h3 : ∀ (u : Delegation.State) (e : Nat), (elect u e order).1.led = u.led := by
    intro u e; unfold elect; simp only; split <;> rfl
  unfold newEra
  simp only
  rw [h2, h3, h1]
  rfl

theorem dele_carries {lc : Ledger.Cfg} {R : Ledger.State → Ledger.State → Prop} (hR : Pays lc R) {dc : Delegation.Cfg} (hc : dc.led = lc) (s : Delegation.State)
    (op : Delegation.Op) (ho : deleOwn op = true) : R s.led (Delegation.step dc s op).1.led := by
  have same : ∀ t : Delegation.State, t.led = s.led → R s.led t.led := by
    intro t e; rw [e]; exact hR.refl _
  unfold Delegation.step
  split
  case h_2 => exact hR.refl _
  case h_1 r hb =>
    cases op with
    | delegate d vs p =>
      obtain ⟨t, hd, rfl⟩ := map_ok hb
      exact same t (led_doDelegate (doDelegate_pass (delegate_do hd)))
    | delegateAny d o p =>
      obtain ⟨t, hd, rfl⟩ := map_ok hb
      unfold delegateAny at hd
      split at hd
      · cases hd
      · exact same t (led_doDelegate (doDelegate_pass hd))
    | undelegate d =>
      obtain ⟨t, hd, rfl⟩ := map_ok hb
      unfold undelegate at hd
      split at hd
      · cases hd
      · cases hd; exact same _ (led_undelegateOf s d)
    | forceUndelegate r ds =>
      simp only [body] at hb
      split at hb
      · cases hb
      · cases hb; exact same _ (led_undelegates ds s)
    | forceUnstaking k d =>
      simp only [body] at hb
      split at hb
      · cases hb
      · cases hb; exact same _ (led_undelegateOf s d)
    | setReferer k a r =>
      obtain ⟨t, hd, rfl⟩ := map_ok hb
      unfold setReferer at hd
      split at hd; · cases hd
      split at hd; · cases hd
      cases hd; exact same _ rfl
    | unsetReferer k a =>
      obtain ⟨t, hd, rfl⟩ := map_ok hb
      unfold unsetReferer at hd
      split at hd; · cases hd
      cases hd; exact same _ rfl
    | blackList k a e =>
      simp only [body] at hb
      split at hb
      · cases hb
      · cases hb; exact same _ rfl
    | npowMint k t v =>
      obtain ⟨u, hd, rfl⟩ := map_ok hb
      unfold npowMint at hd
      split at hd; · cases hd
      split at hd; · cases hd
      cases hd
      exact deposit_follows hR.toMints s t v
    | compensate k l d r p =>
      obtain ⟨u, hd, rfl⟩ := map_ok hb
      unfold compensate at hd
      split at hd; · cases hd
      split at hd; · cases hd
      cases hd
      exact deposit_follows hR.toMints s d _
    | increasePool r v =>
      obtain ⟨u, hd, rfl⟩ := map_ok hb
      unfold increasePool at hd
      split at hd; · cases hd
      cases hd
      exact same _ rfl
    | configure e c m w d => cases hb; exact same _ rfl
    | block r => cases hb; exact onBlock_follows hR.toMints dc s r
    | endEra e => cases hb; exact payValidators_follows hR hc s e
    | newEra o =>
      cases hb
      show R s.led (newEra s o).1.led
      rw [led_newEra]
      exact hR.era s.led
    | addPoints e v n => cases hb; exact same _ rfl
    | ledger op => cases ho

theorem dele_follows (cfg : World.Cfg) (w : World.State) {dc : Delegation.Cfg} (hc : dc.led = cfg.ledger) (s : Delegation.State)
    (op : Delegation.Op) (ho : deleOwn op = true) : Follows cfg w s.led (Delegation.step dc s op).1.led :=
  dele_carries ⟨⟨Follows.refl cfg w, Follows.trans, fun s a v => money_follows cfg w s (.mint a v) rfl⟩, payout_follows cfg w, era_follows cfg w⟩ hc s op ho

end

/-! ### Slashing -/

section
open Verif.Slashing

/-- A relation which holds for a slash and for deposits. -/
structure Punishes (lc : Ledger.Cfg) (R : Ledger.State → Ledger.State → Prop) : Prop where
  refl : ∀ s, R s s
  trans : ∀ {a b c}, R a b → R b c → R a c
  mint : ∀ s a v, R s { s with bank := s.bank.depositCreating a v }
  slash : ∀ s a v, R s (Ledger.doSlash lc s a v).1

theorem payEachReporter_follows {lc : Ledger.Cfg} {R : Ledger.State → Ledger.State → Prop} (hR : Punishes lc R) (per : Balance) (rs : List AccId) :
    ∀ s : Ledger.State, R s { s with bank := payEach s.bank per rs } := by
  induction rs with
  | nil => intro s; exact hR.refl s
  | cons r rs ih => intro s; exact hR.trans (hR.mint s r per) (ih _)

theorem payReporters_follows {lc : Ledger.Cfg} {R : Ledger.State → Ledger.State → Prop} (hR : Punishes lc R) (t : AccId) (p v : Balance)
    (rs : List AccId) (s : Ledger.State) : R s { s with bank := payReporters t s.bank p v rs } := by
  unfold payReporters
  split
  · exact hR.mint s t v
  · exact hR.trans (payEachReporter_follows hR _ rs s) (hR.mint _ t _)

theorem applySlash_carries {lc : Ledger.Cfg} {R : Ledger.State → Ledger.State → Prop} (hR : Punishes lc R) {sc : Slashing.Cfg} (hc : sc.led = lc)
    (s : Slashing.State) (u : Unapplied) : R s.led (applySlash sc s u).led := by
  unfold applySlash
  simp only [hc]
  exact hR.trans (hR.slash s.led u.validator u.own) (payReporters_follows hR sc.treasury _ _ u.reporters _)

theorem applySlash_follows (cfg : World.Cfg) (w : World.State) {sc : Slashing.Cfg} (hc : sc.led = cfg.ledger) (s : Slashing.State)
    (u : Unapplied) : Follows cfg w s.led (applySlash sc s u).led :=
  applySlash_carries ⟨Follows.refl cfg w, Follows.trans, fun s a v => money_follows cfg w s (.mint a v) rfl, doSlash_follows cfg w⟩ hc s u

/-- A relation which holds for everything that happens in slashing. -/
structure Carries (sc : Slashing.Cfg) (R : Ledger.State → Ledger.State → Prop) : Prop where
  refl : ∀ s, R s s
  trans : ∀ {a b c}, R a b → R b c → R a c
  kick : ∀ s a, R s { s with validators := s.validators.erase a }
  apply : ∀ (s : Slashing.State) u, R s.led (applySlash sc s u).led

theorem applyAll_follows {sc : Slashing.Cfg} {R : Ledger.State → Ledger.State → Prop} (hR : Carries sc R) (us : List Unapplied) :
    ∀ s : Slashing.State, R s.led (applyAll sc s us).led := by
  induction us with
  | nil => intro s; exact hR.refl _
  | cons u us ih => intro s; exact hR.trans (hR.apply s u) (ih _)

theorem applyEras_follows {sc : Slashing.Cfg} {R : Ledger.State → Ledger.State → Prop} (hR : Carries sc R) (es : List Nat) :
    ∀ s : Slashing.State, R s.led (applyEras sc s es).1.led := by
  induction es with
  | nil => intro s; exact hR.refl _
  | cons e es ih =>
    intro s
    exact hR.trans (applyAll_follows hR _ { s with unapplied := s.unapplied.erase e }) (ih _)

theorem applyUnapplied_follows {sc : Slashing.Cfg} {R : Ledger.State → Ledger.State → Prop} (hR : Carries sc R) (s : Slashing.State)
    (n : Nat) : R s.led (applyUnapplied sc s n).1.led := by
  unfold applyUnapplied
  split
  · exact hR.refl _
  · exact applyEras_follows hR _ s

theorem startEra_follows {sc : Slashing.Cfg} {R : Ledger.State → Ledger.State → Prop} (hR : Carries sc R) (s : Slashing.State)
    (n : Nat) : R s.led (startEra sc s n).1.led := by
  unfold startEra
  simp only
  generalize (match s.active with | some e => e + 1 | none => 0) = act
  have e : ∀ u : Slashing.State, u.led = s.led → ∀ n, R s.led (applyUnapplied sc u n).1.led := by
    intro u hu n
    rw [← hu]
    exact applyUnapplied_follows hR u n
  apply e
  rfl

theorem dropSpans_led (s : Slashing.State) (a : AccId) (sp : Spans) (d : Bool) (n : Nat) : (dropSpans s a sp d n).led = s.led := by
  unfold dropSpans
  split <;> rfl

theorem finish_follows {sc : Slashing.Cfg} {R : Ledger.State → Ledger.State → Prop} (hR : Carries sc R) (s : Slashing.State) (a : AccId) (sp : Spans) (d : Bool) (t : Option Nat)
    (n m : Nat) : R s.led (finish s a sp d t n m).led := by
  unfold finish
  split
  · simp only [dropSpans_led]
    exact hR.kick s.led a
  · rw [dropSpans_led]; exact hR.refl _

theorem fetchSpans_led (s : Slashing.State) (a : AccId) (n : Nat) : (fetchSpans s a n).1.led = s.led := by
  unfold fetchSpans
  split <;> rfl

theorem slashSpan_follows {sc : Slashing.Cfg} {R : Ledger.State → Ledger.State → Prop} (hR : Carries sc R) (s : Slashing.State) (a : AccId) (sp : Spans) (e n m : Nat) (v : Balance)
    (o : List AccId) : R s.led (slashSpan s a sp e n m v o).1.led := by
  unfold slashSpan
  split
  · simp only [dropSpans_led]; exact hR.refl _
  · rename_i x _
    simp only
    generalize compareRecord s.rewardProp v ((s.records.get (a, x.index)).getD ⟨0, 0⟩) = q
    have e : ∀ u : Slashing.State, u.led = s.led → ∀ sp', R s.led (finish u a sp' q.changed (some x.index) n m).led := by
      intro u hu sp'
      rw [← hu]
      exact finish_follows hR u a sp' _ _ _ _
    exact e _ (by split <;> rfl) _

theorem computeSlash_follows {sc : Slashing.Cfg} {R : Ledger.State → Ledger.State → Prop} (hR : Carries sc R) (s : Slashing.State) (a : AccId) (f e n m : Nat) :
    R s.led (computeSlash sc s a f e n m).1.led := by
  unfold computeSlash
  simp only
  split
  · unfold kickOut
    have h := finish_follows hR (fetchSpans s a n).1 a (fetchSpans s a n).2 false (((fetchSpans s a n).2.eraSpan e).map Span.index) n m
    rw [fetchSpans_led] at h
    exact h
  · split
    · exact hR.refl _
    · have h := slashSpan_follows hR (fetchSpans { s with eraSlash := s.eraSlash.insert e (((s.eraSlash.get e).getD ∅).insert a (f, perbill f (sc.exposure e a).own)) } a n).1 a
        (fetchSpans { s with eraSlash := s.eraSlash.insert e (((s.eraSlash.get e).getD ∅).insert a (f, perbill f (sc.exposure e a).own)) } a n).2 e n m
        (perbill f (sc.exposure e a).own) (sc.exposure e a).others
      rw [fetchSpans_led] at h
      exact h

theorem onOffence_follows {sc : Slashing.Cfg} {R : Ledger.State → Ledger.State → Prop} (hR : Carries sc R) (s : Slashing.State)
    (i j : Nat) (a : AccId) (f : Nat) (rs : List AccId) : R s.led (onOffence sc s i j a f rs).1.led := by
  unfold onOffence
  split
  · exact hR.refl _
  split
  · exact hR.refl _
  rename_i act _
  split
  · exact hR.refl _
  rename_i era _
  simp only
  split
  · exact hR.refl _
  have h := computeSlash_follows hR { s with earliest := some (s.earliest.getD act) } a f era (act - sc.led.bondingDuration) act
  split
  · exact h
  · refine hR.trans h ?_
    unfold enqueue
    split
    · exact hR.apply _ _
    · exact hR.refl _

theorem slash_carries {sc : Slashing.Cfg} {R : Ledger.State → Ledger.State → Prop} (hR : Carries sc R) (s : Slashing.State)
    (op : Slashing.Op) (ho : slashOwn op = true) : R s.led (Slashing.step sc s op).1.led := by
  cases op with
  | ledger op n => cases ho
  | startEra n => exact startEra_follows hR s n
  | offence i j a f r => exact onOffence_follows hR s i j a f r
  | cancel k e idx =>
    simp only [Slashing.step]
    split
    · rename_i h
      unfold cancel at h
      simp only at h
      split_ifs at h
      cases h
      exact hR.refl _
    · exact hR.refl _
  | setInvulnerables l => exact hR.refl _
  | setRewardProp p => exact hR.refl _

theorem slash_follows (cfg : World.Cfg) (w : World.State) {sc : Slashing.Cfg} (hc : sc.led = cfg.ledger) (s : Slashing.State)
    (op : Slashing.Op) (ho : slashOwn op = true) : Follows cfg w s.led (Slashing.step sc s op).1.led :=
  slash_carries ⟨Follows.refl cfg w, Follows.trans, kick_follows cfg w, applySlash_follows cfg w hc⟩ s op ho

/-- Slashing creates no money. -/
theorem slash_money (sc : Slashing.Cfg) (s : Slashing.State) (op : Slashing.Op) (ho : slashOwn op = true) :
    World.Flow 0 0 s.led.bank (Slashing.step sc s op).1.led.bank := by
  refine slash_carries (R := fun a b => World.Flow 0 0 a.bank b.bank) ⟨fun _ => World.Flow.refl _, fun h h' => ?_, fun _ _ => World.Flow.refl _, fun s u h => ?_⟩ s op ho
  · exact h.trans h'
  · have := C41_apply sc s u h
    exact ⟨this.1, this.2.1⟩

end

/-! ### Staking for credit, credit, ADSC -/

theorem stake_payer (sc : StakingCredit.Cfg) (s : StakingCredit.State) (op : StakingCredit.Op) :
    (StakingCredit.step sc s op).1.dele.led = s.dele.led ∨
    ∃ a d o v b, op = .stake a true d o ∧ s.dele.led.bank.transfer a sc.pallet v true = .ok b ∧
      (StakingCredit.step sc s op).1.dele.led = { s.dele.led with bank := b } := by
  have any : ∀ (u t : StakingCredit.State) (who : AccId) (order : List AccId), StakingCredit.delegateAny sc u who order = .ok t →
      t.dele.led = u.dele.led := by
    intro u t who order h
    unfold StakingCredit.delegateAny at h
    split at h
    · cases h
    · rename_i d hd
      cases h
      unfold Delegation.delegateAny at hd
      split at hd
      · cases hd
      · have := led_doDelegate (Delegation.doDelegate_pass hd)
        exact this
  have above : ∀ (u t : StakingCredit.State) (who : AccId) (dst : Nat) (order : List AccId),
      StakingCredit.delegateAbove sc u who dst order = .ok t → t.dele.led = u.dele.led := by
    intro u t who dst order h
    unfold StakingCredit.delegateAbove at h
    split at h
    · exact any _ _ _ _ h
    · cases h; rfl
  have add : ∀ (u t : StakingCredit.State) (who : AccId) (g n : Nat), StakingCredit.addCredit sc u who g n = .ok t →
      t.dele = u.dele := by
    intro u t who g n h
    unfold StakingCredit.addCredit at h
    split at h
    · cases h
    · cases h; rfl
  cases op with
  | stake who signed dst order =>
    simp only [StakingCredit.step]
    split
    · exact .inl rfl
    rename_i hs
    split
    · exact .inl rfl
    rename_i s' h
    unfold StakingCredit.doStakingDelegate at h
    simp only at h
    split at h; · cases h
    split at h; · cases h
    split at h
    · cases h
    split at h; · cases h
    right
    generalize ((Credit.creditBalance s.credit who (some s.credit.defaultCampaign)).getD dst 0 - _) = v at h
    cases hp : StakingCredit.pay sc s who v with
    | error e => rw [hp] at h; cases h
    | ok s1 =>
      rw [hp] at h
      simp only [Except.bind] at h
      split at h
      · cases h
      rename_i s2 h2
      have e1 := above _ _ _ _ _ h
      have e2 := add _ _ _ _ _ h2
      unfold StakingCredit.pay at hp
      split at hp
      · cases hp
      rename_i b hb
      cases hp
      refine ⟨who, dst, order, v, b, ?_, hb, by rw [e1, e2]⟩
      cases signed
      · exact absurd rfl hs
      · rfl
  | usdt admin who u d order =>
    simp only [StakingCredit.step]
    split
    · exact .inl rfl
    split
    · exact .inl rfl
    rename_i s' lvl h
    left
    unfold StakingCredit.doUsdt at h
    simp only at h
    split at h; · cases h
    split at h
    · cases h
    rename_i cur rem _
    generalize StakingCredit.climb _ _ _ _ _ = dst at h
    cases h1 : StakingCredit.addCredit sc s who (Credit.Level.gap (Credit.Level.ofU8 dst) (Credit.Level.ofU8 cur)) s.credit.defaultUsdtCampaign with
    | error e => rw [h1] at h; cases h
    | ok s1 =>
      rw [h1] at h
      simp only [Except.bind] at h
      obtain ⟨t, ht, e⟩ := World.map_ok h
      cases e
      have e1 := above _ _ _ _ _ ht
      rw [e1]
      have e2 := add _ _ _ _ _ h1
      show s1.dele.led = s.dele.led
      rw [e2]
  | unset admin who =>
    simp only [StakingCredit.step]
    split <;> exact .inl rfl

theorem stake_led (sc : StakingCredit.Cfg) (s : StakingCredit.State) (op : StakingCredit.Op) :
    (StakingCredit.step sc s op).1.dele.led = s.dele.led ∨
    ∃ a v b, s.dele.led.bank.transfer a sc.pallet v true = .ok b ∧
      (StakingCredit.step sc s op).1.dele.led = { s.dele.led with bank := b } := by
  rcases stake_payer sc s op with h | ⟨a, d, o, v, b, -, hb, h⟩
  · exact .inl h
  · exact .inr ⟨a, v, b, hb, h⟩

theorem stake_follows (cfg : World.Cfg) (w : World.State) (sc : StakingCredit.Cfg) (s : StakingCredit.State) (op : StakingCredit.Op) :
    Follows cfg w s.dele.led (StakingCredit.step sc s op).1.dele.led := by
  rcases stake_led sc s op with h | ⟨a, v, b, hb, h⟩
  · rw [h]; exact Follows.refl cfg w _
  · rw [h]
    have := money_follows cfg w s.dele.led (.transfer a sc.pallet v true) rfl
    simp only [World.money, hb] at this
    exact this

/-- What the credit pallet does with balances. -/
theorem credit_payer (kc : Credit.Cfg) (s : Credit.State) (op : Credit.Op) (ho : creditOwn op = true) :
    (Credit.step kc s op).1.bank = s.bank ∨
    ∃ a n v b, op = .burnForCredit a n ∧ s.bank.withdraw a v true = .ok b ∧ (Credit.step kc s op).1.bank = b.depositCreating kc.burnedTo v := by
  have upd : ∀ (l : List Credit.Setting) (u : Credit.State), (l.foldl Credit.updateSetting u).bank = u.bank := by
    intro l
    induction l with
    | nil => intro u; rfl
    | cons x l ih => intro u; exact ih _
  rcases Credit.step_cases (cfg := kc) s op with ⟨s', o, h, h2⟩ | h
  rotate_left
  · left; rw [h]
  rw [h2]
  clear h2
  show s'.bank = s.bank ∨ ∃ a n v b, op = .burnForCredit a n ∧ s.bank.withdraw a v true = .ok b ∧ s'.bank = b.depositCreating kc.burnedTo v
  cases op <;> simp only [Credit.body] at h
  case external => cases ho
  case burnForCredit a score =>
    obtain ⟨_, h1, h2⟩ := Credit.map_ok h
    cases h2
    obtain ⟨d, b, _, _, hb, rfl⟩ := Credit.burnForCredit_ok h1
    exact .inr ⟨_, _, _, b, rfl, hb, rfl⟩
  all_goals left
  case «initialize» =>
    cases h
    rcases Credit.onInitialize_cases kc s with h1 | ⟨k, h1⟩ <;> rw [h1]
    exact upd _ _
  case finalize =>
    cases h
    unfold Credit.setPrice
    split <;> rfl
  case runtimeUpgrade =>
    cases h
    unfold Credit.onRuntimeUpgrade
    simp only
    split <;> simp only [upd]
  case updateCreditSetting => cases h; rfl
  case setBurnPrice => cases h; rfl
  case setStakingBalance => cases h; rfl
  case burnRecord => cases h; rfl
  case initDelegatorHistory => cases h; rfl
  case forceModifyHistory => obtain ⟨_, _, h2⟩ := Credit.map_ok h; cases h2; rfl
  case slashCredit => obtain ⟨_, _, h2⟩ := Credit.map_ok h; cases h2; rfl
  case getReward => obtain ⟨_, _, h2⟩ := Credit.map_ok h; cases h2; rfl
  case tip => obtain ⟨_, _, h2⟩ := Credit.map_ok h; cases h2; rfl
  case evmUpdateCredit => obtain ⟨_, _, h2⟩ := Credit.map_ok h; cases h2; rfl
  case addOrUpdateCreditData =>
    split at h
    · obtain ⟨_, _, h2⟩ := Credit.map_ok h; cases h2; rfl
    · cases h
  case burnNft b cls ok =>
    obtain ⟨_, h1, h2⟩ := Credit.map_ok h
    cases h2
    obtain ⟨n, d, hn, hg, _, _, rfl⟩ := Credit.burnNft_ok h1
    rfl
  case traffic b =>
    obtain ⟨⟨x, y⟩, h1, h2⟩ := Credit.map_ok h
    cases h2
    unfold Credit.trafficCredit at h1
    split at h1
    · cases h1; rfl
    · simp only at h1
      split at h1
      · split at h1
        · split at h1 <;> cases h1
          rfl
        · cases h1; rfl
      · cases h1; rfl
  case unstakingSlash =>
    obtain ⟨_, h1, h2⟩ := Credit.map_ok h
    cases h2
    obtain ⟨_, _, _, _, rfl⟩ := Credit.unstakingSlash_ok h1
    rfl
  case addOrUpdateCredit =>
    obtain ⟨_, h1, h2⟩ := Credit.map_ok h
    cases h2
    unfold Credit.addOrUpdateCredit at h1
    obtain ⟨_, _, h2⟩ := Credit.map_ok h1
    cases h2
    rfl
  case setDprPrice =>
    obtain ⟨_, h1, h2⟩ := Credit.map_ok h
    cases h2
    obtain ⟨_, _, _, rfl⟩ := Credit.setDprPrice_ok h1
    rfl
  case setMaintain =>
    obtain ⟨_, h1, h2⟩ := Credit.map_ok h
    cases h2
    have h3 := (Credit.deviceAdmin_ok h1).2
    cases h3
    split <;> rfl
  case unsetMaintain =>
    obtain ⟨_, h1, h2⟩ := Credit.map_ok h
    cases h2
    have h3 := (Credit.deviceAdmin_ok h1).2
    cases h3
    rfl
  all_goals
    obtain ⟨_, h1, h2⟩ := Credit.map_ok h
    cases h2
    have h3 := (Credit.admin_ok h1).2
  all_goals first
    | (cases h3; rfl)
    | (split at h3
       · cases h3; rfl
       · cases h3)
    | (obtain ⟨_, _, _, _, rfl⟩ := Credit.unstakingSlash_ok h3; rfl)
    | (split at h3
       · obtain ⟨_, _, h2⟩ := Credit.map_ok h3; cases h2; rfl
       · cases h3)

theorem credit_bank (kc : Credit.Cfg) (s : Credit.State) (op : Credit.Op) (ho : creditOwn op = true) :
    (Credit.step kc s op).1.bank = s.bank ∨
    ∃ a v b, s.bank.withdraw a v true = .ok b ∧ (Credit.step kc s op).1.bank = b.depositCreating kc.burnedTo v := by
  rcases credit_payer kc s op ho with h | ⟨a, n, v, b, -, hb, h⟩
  · exact .inl h
  · exact .inr ⟨a, v, b, hb, h⟩

theorem adsc_reward_bank (ac : Adsc.Cfg) (s : Adsc.State) : (Adsc.reward ac s).1.bank = s.bank := by
  have sub : ∀ (l : List AccId) (u : Adsc.State), (l.foldl Adsc.subDay u).bank = u.bank := by
    intro l
    induction l with
    | nil => intro u; rfl
    | cons x l ih =>
      intro u
      rw [List.foldl_cons, ih]
      unfold Adsc.subDay
      split <;> rfl
  have rem : ∀ (l : List AccId) (u : Adsc.State), (l.foldl Adsc.removeStaker u).bank = u.bank := by
    intro l
    induction l with
    | nil => intro u; rfl
    | cons x l ih =>
      intro u
      rw [List.foldl_cons, ih]
      unfold Adsc.removeStaker
      simp only
      split
      · rfl
      · split <;> rfl
  unfold Adsc.reward
  split
  · rfl
  · simp only [sub, rem]

/-- What ADSC does with balances. -/
theorem adsc_bank (ac : Adsc.Cfg) (s : Adsc.State) (op : Adsc.Op) (ho : adscOwn op = true) :
    (Adsc.step ac s op).1.bank = s.bank ∨
    (∃ who n v b, op = .swap who n ∧ s.bank.transfer ac.pool who v false = .ok b ∧ (Adsc.step ac s op).1.bank = b) ∨
    ∃ v, op = .addPool true v ∧ (Adsc.step ac s op).1.bank = s.bank.depositCreating ac.pool v := by
  unfold Adsc.step
  split
  rotate_left
  · exact .inl rfl
  rename_i r h
  cases op <;> simp only [Adsc.body] at h
  case external => cases ho
  case setOffline => cases h; exact .inl rfl
  case init =>
    cases h
    left
    show (Adsc.blockInit ac s).1.bank = s.bank
    unfold Adsc.blockInit
    split
    · rfl
    · exact adsc_reward_bank ac s
  case addPool r v =>
    obtain ⟨t, ht, rfl⟩ := World.map_ok h
    unfold Adsc.addPool at ht
    split at ht
    · cases ht
    · rename_i hr
      cases ht
      cases r
      · exact absurd rfl hr
      · exact .inr (.inr ⟨v, rfl, rfl⟩)
  case swap who v =>
    obtain ⟨t, ht, rfl⟩ := World.map_ok h
    unfold Adsc.swap at ht
    split at ht
    · cases ht
    split at ht
    · cases ht
    simp only at ht
    obtain ⟨b, hb, rfl⟩ := World.map_ok ht
    right; left
    refine ⟨who, v, min (v * s.rate.2) (2 ^ 128 - 1) / s.rate.1, b, rfl, ?_, rfl⟩
    unfold Adsc.liftBank at hb
    split at hb
    · rename_i x hx; cases hb; exact hx
    · cases hb
  case addStaker w a =>
    obtain ⟨t, ht, rfl⟩ := World.map_ok h
    unfold Adsc.addStaker at ht
    split at ht <;> cases ht
    exact .inl rfl
  case addStakerNft w a i =>
    obtain ⟨t, ht, rfl⟩ := World.map_ok h
    unfold Adsc.addStakerNft at ht
    split at ht; · cases ht
    split at ht; · cases ht
    split at ht <;> cases ht
    exact .inl rfl
  case setPeriod w a =>
    obtain ⟨t, ht, rfl⟩ := World.map_ok h
    unfold Adsc.setPeriod at ht
    split at ht <;> cases ht
    exact .inl rfl
  case setTarget w a =>
    obtain ⟨t, ht, rfl⟩ := World.map_ok h
    unfold Adsc.setTarget at ht
    split at ht <;> cases ht
    exact .inl rfl
  case setBase w a =>
    obtain ⟨t, ht, rfl⟩ := World.map_ok h
    unfold Adsc.setBase at ht
    split at ht <;> cases ht
    exact .inl rfl
  case setRate w a =>
    obtain ⟨t, ht, rfl⟩ := World.map_ok h
    unfold Adsc.setRate at ht
    split at ht <;> cases ht
    exact .inl rfl
  case bridgeBurn w a v =>
    obtain ⟨t, ht, rfl⟩ := World.map_ok h
    unfold Adsc.bridgeBurn at ht
    split at ht; · cases ht
    obtain ⟨b, hb, rfl⟩ := World.map_ok ht
    exact .inl rfl
  case bridgeMint w a v =>
    obtain ⟨t, ht, rfl⟩ := World.map_ok h
    unfold Adsc.bridgeMint at ht
    split at ht; · cases ht
    obtain ⟨b, hb, rfl⟩ := World.map_ok ht
    exact .inl rfl

/-! ### What staking for credit leaves alone -/

theorem stake_rest (sc : StakingCredit.Cfg) (s : StakingCredit.State) (op : StakingCredit.Op) :
    (StakingCredit.step sc s op).1.dele.pool = s.dele.pool ∧
    Delegation.pts (StakingCredit.step sc s op).1.dele = Delegation.pts s.dele := by
  have any : ∀ (u t : StakingCredit.State) (who : AccId) (order : List AccId), StakingCredit.delegateAny sc u who order = .ok t →
      t.dele.pool = u.dele.pool ∧ Delegation.pts t.dele = Delegation.pts u.dele := by
    intro u t who order h
    unfold StakingCredit.delegateAny at h
    split at h
    · cases h
    · rename_i d hd
      cases h
      unfold Delegation.delegateAny at hd
      split at hd
      · cases hd
      · have h1 := (congrArg Prod.snd (Delegation.money_doDelegate (Delegation.doDelegate_pass hd)) :)
        have h2 := Delegation.pts_doDelegate (Delegation.doDelegate_pass hd)
        exact ⟨h1, h2⟩
  have above : ∀ (u t : StakingCredit.State) (who : AccId) (dst : Nat) (order : List AccId),
      StakingCredit.delegateAbove sc u who dst order = .ok t → t.dele.pool = u.dele.pool ∧ Delegation.pts t.dele = Delegation.pts u.dele := by
    intro u t who dst order h
    unfold StakingCredit.delegateAbove at h
    split at h
    · exact any _ _ _ _ h
    · cases h; exact ⟨rfl, rfl⟩
  have add : ∀ (u t : StakingCredit.State) (who : AccId) (g n : Nat), StakingCredit.addCredit sc u who g n = .ok t →
      t.dele = u.dele := by
    intro u t who g n h
    unfold StakingCredit.addCredit at h
    split at h
    · cases h
    · cases h; rfl
  cases op with
  | stake who signed dst order =>
    simp only [StakingCredit.step]
    split
    · exact ⟨rfl, rfl⟩
    split
    · exact ⟨rfl, rfl⟩
    rename_i s' h
    unfold StakingCredit.doStakingDelegate at h
    simp only at h
    split at h; · cases h
    split at h; · cases h
    split at h
    · cases h
    split at h; · cases h
    generalize ((Credit.creditBalance s.credit who (some s.credit.defaultCampaign)).getD dst 0 - _) = v at h
    cases hp : StakingCredit.pay sc s who v with
    | error e => rw [hp] at h; cases h
    | ok s1 =>
      rw [hp] at h
      simp only [Except.bind] at h
      split at h
      · cases h
      rename_i s2 h2
      have e1 := above _ _ _ _ _ h
      have e2 := add _ _ _ _ _ h2
      unfold StakingCredit.pay at hp
      split at hp
      · cases hp
      rename_i b hb
      cases hp
      rw [e2] at e1
      exact e1
  | usdt admin who u d order =>
    simp only [StakingCredit.step]
    split
    · exact ⟨rfl, rfl⟩
    split
    · exact ⟨rfl, rfl⟩
    rename_i s' lvl h
    unfold StakingCredit.doUsdt at h
    simp only at h
    split at h; · cases h
    split at h
    · cases h
    rename_i cur rem _
    generalize StakingCredit.climb _ _ _ _ _ = dst at h
    cases h1 : StakingCredit.addCredit sc s who (Credit.Level.gap (Credit.Level.ofU8 dst) (Credit.Level.ofU8 cur)) s.credit.defaultUsdtCampaign with
    | error e => rw [h1] at h; cases h
    | ok s1 =>
      rw [h1] at h
      simp only [Except.bind] at h
      obtain ⟨t, ht, e⟩ := World.map_ok h
      cases e
      have e1 := above _ _ _ _ _ ht
      have e2 := add _ _ _ _ _ h1
      have e3 : s'.dele.pool = s1.dele.pool ∧ Delegation.pts s'.dele = Delegation.pts s1.dele := e1
      rw [e2] at e3
      exact e3
  | unset admin who =>
    simp only [StakingCredit.step]
    split <;> exact ⟨rfl, rfl⟩

/-! ### One step of the chain is a history of `World` -/

theorem settle_settle (w : World.State) : World.settle (World.settle w) = World.settle w := rfl

theorem put_settled (w : World.State) (s : Ledger.State) : World.settle (put w s) = put w s := rfl

/-- With settled locks the ledger fits. -/
theorem fits {c : State} (h : World.settle c.w = c.w) : Fits c.w (led c) := by
  refine ⟨?_, ?_, ?_⟩
  · show c.w.ledger.otherLocks = _
    exact ((congrArg (fun w => w.ledger.otherLocks) h :)).symm
  · show c.w.bank.frozen = _
    exact ((congrArg (fun w => w.bank.frozen) h :)).symm
  · show c.w.bank.pinned = _
    exact ((congrArg (fun w => w.bank.pinned) h :)).symm

theorem put_led {c : State} (h : World.settle c.w = c.w) : put c.w (led c) = c.w := by
  refine Eq.trans ?_ h
  rfl

/-- A change of the balances only. -/
theorem put_bank (c : State) (b : Bank) : put c.w { led c with bank := b } = World.settle { c.w with bank := b } := rfl

theorem bond_led (sc : Slashing.Cfg) (s : Slashing.State) (op : Ledger.Op) (n : Nat) :
    (Slashing.ledgerCall sc s op n).1.led =
      (Ledger.step sc.led s.led (Slashing.withSpans (Slashing.spansOk s n (Slashing.target s.led op)) op)).1 := by
  unfold Slashing.ledgerCall
  simp only
  split
  · rfl
  · unfold Slashing.clearStash
    split <;> rfl

theorem settled_step (cfg : Cfg) {c : State} (op : Op) (h : World.settle c.w = c.w) :
    World.settle (step cfg c op).w = (step cfg c op).w := by
  cases op with
  | world op => simp only [step]; split; · rfl
                exact h
  | bond op n => simp only [step]; split; · rfl
                 exact h
  | dele op => simp only [step]; split; · rfl
               exact h
  | stake op => rfl
  | credit op => simp only [step]; split; · rfl
                 exact h
  | slash op => simp only [step]; split; · rfl
                exact h
  | adsc op => simp only [step]; split; · rfl
               exact h

theorem gets_step (cfg : Cfg) {c : State} (op : Op) (h : World.settle c.w = c.w) (hw : ∀ o, op ≠ .world o) :
    Gets cfg.world c.w (step cfg c op).w := by
  have use : ∀ s', Follows cfg.world c.w (led c) s' → Gets cfg.world c.w (put c.w s') := by
    intro s' hf
    have := (hf (fits h)).2
    rwa [put_led h] at this
  cases op with
  | world op => exact absurd rfl (hw op)
  | bond op n =>
    simp only [step]
    split
    · rename_i hb
      show Gets cfg.world c.w (put c.w (Slashing.ledgerCall cfg.offences { c.slash with led := led c } op n).1.led)
      rw [bond_led]
      generalize hop : Slashing.withSpans _ op = op'
      have ho : World.ledgerOwn op' = true := by
        rw [← hop]
        cases op <;> first | rfl | cases hb
      have e := ledger_step (cfg := cfg.world) (fits h) op' ho
      rw [put_led h] at e
      show Gets cfg.world c.w (put c.w (Ledger.step cfg.world.ledger (led c) op').1)
      rw [← e]
      exact Gets.one _ ho
    · exact Gets.refl _ _
  | dele op =>
    simp only [step]
    split
    · rename_i hd
      exact use _ (dele_follows cfg.world c.w rfl (stkOn c).dele op hd)
    · exact Gets.refl _ _
  | stake op => exact use _ (stake_follows cfg.world c.w cfg.stake (stkOn c) op)
  | credit op =>
    simp only [step]
    split
    · rename_i ho
      rcases credit_bank cfg.stk.credit { c.stk.credit with bank := c.w.bank } op ho with e | ⟨a, v, b, hb, e⟩
      · rw [e]
        show Gets cfg.world c.w (World.settle c.w)
        rw [h]
        exact Gets.refl _ _
      · rw [e, ← put_bank]
        refine use _ ?_
        have h1 := money_follows cfg.world c.w (led c) (.withdraw a v true) rfl
        have hb' : (led c).bank.withdraw a v true = .ok b := hb
        simp only [World.money, hb'] at h1
        exact h1.trans (money_follows cfg.world c.w { led c with bank := b } (.mint cfg.stk.credit.burnedTo v) rfl)
    · exact Gets.refl _ _
  | slash op =>
    simp only [step]
    split
    · rename_i hd
      exact use _ (slash_follows cfg.world c.w rfl { c.slash with led := led c } op hd)
    · exact Gets.refl _ _
  | adsc op =>
    simp only [step]
    split
    · rename_i ho
      rcases adsc_bank cfg.adsc { c.adsc with bank := c.w.bank } op ho with e | ⟨who, n, v, b, -, hb, e⟩ | ⟨v, -, e⟩
      · rw [e]
        show Gets cfg.world c.w (World.settle c.w)
        rw [h]
        exact Gets.refl _ _
      · rw [e, ← put_bank]
        refine use _ ?_
        have h1 := money_follows cfg.world c.w (led c) (.transfer cfg.adsc.pool who v false) rfl
        have hb' : (led c).bank.transfer cfg.adsc.pool who v false = .ok b := hb
        simp only [World.money, hb'] at h1
        exact h1
      · rw [e, ← put_bank]
        exact use _ (money_follows cfg.world c.w (led c) (.mint cfg.adsc.pool v) rfl)
    · exact Gets.refl _ _

theorem gets_inv {cfg : World.Cfg} {w w' : World.State} (h : Gets cfg w w') (hi : w.bank.Inv) : w'.bank.Inv := by
  obtain ⟨ws, -, rfl⟩ := h
  induction ws generalizing w with
  | nil => exact hi
  | cons op ws ih => exact ih (World.step_supply cfg w op hi).1

theorem books_step (cfg : Cfg) {c : State} (op : Op) (h : World.settle c.w = c.w) (hi : c.w.bank.Inv) :
    (step cfg c op).w.bank.Inv := by
  by_cases hw : ∃ o, op = .world o
  · obtain ⟨o, rfl⟩ := hw
    simp only [step]
    split
    · exact (World.step_supply cfg.world c.w o hi).1
    · exact hi
  · exact gets_inv (gets_step cfg op h fun o e => hw ⟨o, e⟩) hi

/-! ### Supply and pool in one step -/

structure Inv (c : State) : Prop where
  books : c.w.bank.Inv
  locks : World.settle c.w = c.w
  pts : Delegation.PInv c.stk.dele

theorem inv_step (cfg : Cfg) {c : State} (op : Op) (h : Inv c) (hi : Iterates op) : Inv (step cfg c op) := by
  refine ⟨books_step cfg op h.locks h.books, settled_step cfg op h.locks, ?_⟩
  cases op with
  | world op => simp only [step]; split <;> exact h.pts
  | bond op n => simp only [step]; split <;> exact h.pts
  | dele op =>
    simp only [step]
    split
    · refine Delegation.pinv_step cfg.dele (s := (stkOn c).dele) (Delegation.pinv_of h.pts rfl) ?_
      cases op <;> exact hi
    · exact h.pts
  | stake op => exact Delegation.pinv_of h.pts (stake_rest cfg.stake (stkOn c) op).2
  | credit op => exact h.pts
  | slash op => simp only [step]; split <;> exact h.pts
  | adsc op => exact h.pts

theorem supply_step (cfg : Cfg) {c : State} (op : Op) (h : Inv c) :
    2 * (supply (step cfg c op) + pool cfg (step cfg c op)) ≤ 2 * (supply c + pool cfg c + granted cfg c op) + lastPaid cfg c op := by
  have flow : ∀ (c' : State) (u : Nat), World.Flow u 0 c.w.bank c'.w.bank → c'.w.micro = c.w.micro → pool cfg c' = pool cfg c →
      u ≤ granted cfg c op → 2 * (supply c' + pool cfg c') ≤ 2 * (supply c + pool cfg c + granted cfg c op) + lastPaid cfg c op := by
    intro c' u hf hm hp hu
    have h2 := (hf h.books).2
    unfold supply
    rw [hm, hp]
    omega
  cases op with
  | world op =>
    simp only [step]
    split
    · rename_i ho
      have h2 := (World.step_supply cfg.world c.w op h.books).2
      have e : World.createdBy cfg.world c.w op ≤ granted cfg c (.world op) := by
        cases op with
        | ledger o => cases o <;> first | exact Nat.le_refl _ | cases ho
        | oper o => cases o <;> exact Nat.le_refl _
        | money m => cases m <;> exact Nat.le_refl _
        | _ => exact Nat.zero_le _
      have e1 : ∀ w, World.supply w = w.bank.sumAll + Micropayment.escrowAll w.micro := fun _ => rfl
      rw [e1, e1] at h2
      show 2 * (((World.step cfg.world c.w op).bank.sumAll + Micropayment.escrowAll (World.step cfg.world c.w op).micro) + pool cfg c) ≤
        2 * ((c.w.bank.sumAll + Micropayment.escrowAll c.w.micro) + pool cfg c + granted cfg c (.world op)) + 0
      omega
    · exact flow c 0 (World.Flow.refl _) rfl rfl (Nat.zero_le _)
  | bond op n =>
    simp only [step]
    split
    · rename_i hb
      refine flow _ 0 ?_ rfl rfl (Nat.zero_le _)
      show World.Flow 0 0 c.w.bank (put c.w (Slashing.ledgerCall cfg.offences { c.slash with led := led c } op n).1.led).bank
      rw [bond_led]
      generalize hop : Slashing.withSpans _ op = op'
      have ho : World.ledgerOwn op' = true := by
        rw [← hop]
        cases op <;> first | rfl | cases hb
      have hf := World.ledger_flow cfg.world.ledger (led c) op' ho
      have hf' : World.Flow 0 0 (led c).bank (Ledger.step cfg.world.ledger (led c) op').1.bank := by
        subst hop
        cases op <;> first | exact hf | cases hb
      exact hf'.trans (World.flow_locks _ _ _)
    · exact flow c 0 (World.Flow.refl _) rfl rfl (Nat.zero_le _)
  | dele op =>
    by_cases hd : deleOwn op = true
    · have hinv := books_step cfg (.dele op) h.locks h.books
      have hp := Delegation.pool_step cfg.dele (s := (stkOn c).dele) op (Delegation.pinv_of h.pts rfl) (by cases op <;> first | rfl | cases hd)
      have i0 : Delegation.issued (stkOn c).dele = c.w.bank.sumAll := h.books.issuance
      have i1 : Delegation.issued (Delegation.step cfg.dele (stkOn c).dele op).1 = (step cfg c (.dele op)).w.bank.sumAll := by
        have := hinv.issuance
        rw [← this]
        simp only [step, hd, if_true]
        rfl
      have p0 : Delegation.poolOf cfg.dele (stkOn c).dele = pool cfg c := rfl
      have p1 : Delegation.poolOf cfg.dele (Delegation.step cfg.dele (stkOn c).dele op).1 = pool cfg (step cfg c (.dele op)) := by
        simp only [step, hd, if_true]
        rfl
      have m1 : (step cfg c (.dele op)).w.micro = c.w.micro := by
        simp only [step, hd, if_true]
        rfl
      have ha : op.added = granted cfg c (.dele op) := by
        cases op with
        | increasePool r v => cases r <;> rfl
        | _ => rfl
      rw [i0, i1, p0, p1, ha] at hp
      unfold supply
      rw [m1]
      rcases hp with ⟨h1, -⟩ | ⟨e, rfl, h1, h2⟩
      · omega
      · have hl : lastPaid cfg c (.dele (.endEra e)) = ((c.stk.dele.erasValidators.get e).getD []).length := by
          exact if_pos h1
        rw [hl]
        have h2' : 2 * (step cfg c (.dele (.endEra e))).w.bank.sumAll ≤ 2 * (c.w.bank.sumAll + pool cfg c) + ((c.stk.dele.erasValidators.get e).getD []).length := h2
        omega
    · have e : step cfg c (.dele op) = c := by simp only [step, hd]; rfl
      rw [e]
      omega
  | stake op =>
    refine flow _ 0 ?_ rfl ?_ (Nat.zero_le _)
    · show World.Flow 0 0 c.w.bank (put c.w (StakingCredit.step cfg.stake (stkOn c) op).1.dele.led).bank
      rcases stake_led cfg.stake (stkOn c) op with e | ⟨a, v, b, hb, e⟩
      · rw [e]; exact World.flow_locks _ _ _
      · rw [e]
        have hb' : c.w.bank.transfer a cfg.stake.pallet v true = .ok b := hb
        exact (World.transfer_flow hb').trans (World.flow_locks _ _ _)
    · unfold pool
      show (StakingCredit.step cfg.stake (stkOn c) op).1.dele.pool.getD _ = _
      rw [(stake_rest cfg.stake (stkOn c) op).1]
      rfl
  | credit op =>
    refine flow _ 0 ?_ (by simp only [step]; split <;> rfl) rfl (Nat.zero_le _)
    simp only [step]
    split
    · rename_i ho
      rcases credit_bank cfg.stk.credit { c.stk.credit with bank := c.w.bank } op ho with e | ⟨a, v, b, hb, e⟩
      · rw [e]; exact World.flow_locks _ _ _
      · rw [e]
        have hb' : c.w.bank.withdraw a v true = .ok b := hb
        have h1 := (World.withdraw_flow hb').trans (World.depositCreating_flow b cfg.stk.credit.burnedTo v)
        exact (h1.trans (World.flow_locks _ _ _)).weaken (by omega)
    · exact World.Flow.refl _
  | slash op =>
    simp only [step]
    split
    · rename_i hd
      refine flow _ 0 ?_ rfl rfl (Nat.zero_le _)
      exact (slash_money cfg.offences { c.slash with led := led c } op hd).trans (World.flow_locks _ _ _)
    · exact flow c 0 (World.Flow.refl _) rfl rfl (Nat.zero_le _)
  | adsc op =>
    refine flow _ (granted cfg c (.adsc op)) ?_ (by simp only [step]; split <;> rfl) rfl (Nat.le_refl _)
    simp only [step]
    split
    · rename_i ho
      rcases adsc_bank cfg.adsc { c.adsc with bank := c.w.bank } op ho with e | ⟨who, n, v, b, -, hb, e⟩ | ⟨v, rfl, e⟩
      · rw [e]; exact (World.flow_locks _ _ _).weaken (by omega)
      · rw [e]
        have hb' : c.w.bank.transfer cfg.adsc.pool who v false = .ok b := hb
        exact ((World.transfer_flow hb').trans (World.flow_locks _ _ _)).weaken (by omega)
      · rw [e]
        exact ((World.depositCreating_flow c.w.bank cfg.adsc.pool v).trans (World.flow_locks _ _ _)).weaken (by simp only [granted]; omega)
    · exact (World.Flow.refl _).weaken (by omega)

/-! ### Theorems -/

/-- C109. With respect to accounts, deposits, locks and stakes, a step of the chain outside of the pallets of `World` is a
series of steps of the ledger and of payments. What was proved for every history of `World` holds for the chain. -/
theorem C109_refines (cfg : Cfg) (c : State) (h : World.settle c.w = c.w) (op : Op) (hw : ∀ o, op ≠ .world o) :
    ∃ ws, (∀ o ∈ ws, inner o = true) ∧ World.run cfg.world c.w ws = (step cfg c op).w :=
  gets_step cfg op h hw

/-- C109. The books stay correct: the total issuance is the sum of all balances, and no account is left below the
existential deposit with nothing reserved. -/
theorem C109_books (cfg : Cfg) (c : State) (h : Start c) (ops : List Op) :
    (run cfg c ops).w.bank.issuance = (run cfg c ops).w.bank.sumAll ∧
    ∀ a x, (run cfg c ops).w.bank.accts.get a = some x → (run cfg c ops).w.bank.ed ≤ x.free ∨ 0 < x.reserved := by
  have key : ∀ (ops : List Op) (c : State), c.w.bank.Inv → World.settle c.w = c.w → (run cfg c ops).w.bank.Inv := by
    intro ops
    induction ops with
    | nil => intro c h _; exact h
    | cons op ops ih => intro c h hl; exact ih _ (books_step cfg op hl h) (settled_step cfg op hl)
  have hi := key ops c h.books h.locks
  refine ⟨hi.issuance, fun a x hx => ?_⟩
  have := hi.noDust a x hx
  omega

/-- C109. Reserved money is the sum of the deposits, also with payouts, slashes, burning for credit and ADSC. -/
theorem C109_reserved (cfg : Cfg)
    (hinj : ∀ a b c d, cfg.world.tips.hashOf a b = cfg.world.tips.hashOf c d → a = c ∧ b = d)
    {c : State} (g : World.Genesis cfg.world c.w) (h : World.settle c.w = c.w) (ops : List Op) (a : AccId) :
    (run cfg c ops).w.bank.reserved a =
      c.w.bank.reserved a + World.owed cfg.world (run cfg c ops).w a + forced cfg c ops a := by
  have inn : ∀ (ws : List World.Op) (w : World.State), World.Inv cfg.world w → (∀ o ∈ ws, inner o = true) →
      World.Inv cfg.world (World.run cfg.world w ws) ∧ World.forced cfg.world w ws a = 0 := by
    intro ws
    induction ws with
    | nil => intro w hi _; exact ⟨hi, rfl⟩
    | cons o ws ih =>
      intro w hi ho
      obtain ⟨h1, h2⟩ := ih _ (World.step_inv hinj hi o) fun x hx => ho x (by simp [hx])
      refine ⟨h1, ?_⟩
      have : World.forcedBy cfg.world w o a = 0 := by
        have := ho o (by simp)
        cases o <;> first | rfl | cases this
      show World.forcedBy cfg.world w o a + _ = 0
      rw [this, h2]
  have key : ∀ (ops : List Op) (c : State), World.Inv cfg.world c.w → World.settle c.w = c.w →
      (run cfg c ops).w.bank.reserved a + World.owed cfg.world c.w a =
        c.w.bank.reserved a + World.owed cfg.world (run cfg c ops).w a + forced cfg c ops a := by
    intro ops
    induction ops with
    | nil => intro c _ _; rfl
    | cons op ops ih =>
      intro c hi hl
      have hstep : World.Inv cfg.world (step cfg c op).w ∧ (step cfg c op).w.bank.reserved a + World.owed cfg.world c.w a =
          c.w.bank.reserved a + World.owed cfg.world (step cfg c op).w a +
            (match op with | .world o => World.forcedBy cfg.world c.w o a | _ => 0) := by
        by_cases hw : ∃ o, op = .world o
        · obtain ⟨o, rfl⟩ := hw
          simp only [step]
          split
          · exact ⟨World.step_inv hinj hi o, World.step_reserved hinj hi o a⟩
          · rename_i hn
            refine ⟨hi, ?_⟩
            have : World.forcedBy cfg.world c.w o a = 0 := by
              cases o <;> first | rfl | (simp [worldOwn] at hn; done)
            simp only [this]
            omega
        · have hw' : ∀ o, op ≠ .world o := fun o e => hw ⟨o, e⟩
          obtain ⟨ws, i, e⟩ := C109_refines cfg c hl op hw'
          have h1 := inn ws c.w hi i
          have h2 := World.run_reserved hinj ws hi a
          rw [h1.2, e] at h2
          rw [e] at h1
          refine ⟨h1.1, ?_⟩
          cases op <;> first | exact h2 | exact absurd rfl (hw' _)
      have := ih _ hstep.1 (settled_step cfg op hl)
      have h2 := hstep.2
      show (run cfg (step cfg c op) ops).w.bank.reserved a + _ = _ + (_ + forced cfg (step cfg c op) ops a)
      simp only [run] at *
      omega
  have := key ops c (World.genesis_inv g) h
  rw [World.genesis_owed g a] at this
  omega

/-- C109. The supply is bounded by what there was, the mining pool, and explicit grants: whatever users and pallets do,
all balances, all payment channels and the rest of the pool together are at most what they were at the start, plus what
the root added to the pools, what the operation pallet released and what is minted outside of the model. The only
exception is half a unit for each validator paid at the end of an era which empties the pool. In particular no reward,
slash, staking for credit, burning for credit or swap creates money from nothing. -/
theorem C109_supply (cfg : Cfg) {c : State} (h : Start c) (ops : List Op) (hi : ∀ op ∈ ops, Iterates op) :
    2 * (supply (run cfg c ops) + pool cfg (run cfg c ops)) ≤
      2 * (supply c + pool cfg c + total (granted cfg) cfg c ops) + total (lastPaid cfg) cfg c ops := by
  have h0 : Inv c := ⟨h.books, h.locks, ⟨(by rw [h.points]; exact fun _ _ h => nomatch h), (by rw [h.elected]; exact fun _ _ h => nomatch h)⟩⟩
  clear h
  induction ops generalizing c with
  | nil => simp only [run, total]; omega
  | cons op ops ih =>
    have h1 := supply_step cfg op h0
    have h2 := ih (fun o ho => hi o (by simp [ho])) (inv_step cfg op h0 (hi op (by simp)))
    simp only [run, total]
    omega

/-! ### Examples and the exception -/

/-- The mining pool holds 1000. -/
def exCfg : Cfg := ⟨World.exCfg, StakingCredit.exCfg, Slashing.exCfg, Adsc.exCfg⟩

/-- Accounts 1 and 3 have credit scores of 130 and 40, account 4 administers credit; burning one point of credit costs 2. -/
def exStart : State :=
  { w := World.exWorld
    stk :=
      { credit := { Credit.genesis Council.exBank [] [(1, Credit.Data.new 8 130), (3, Credit.Data.new 8 40)] with creditBalances := [0, 50, 120, 200], isAdmin := fun a => decide (a = 4), burnPrice := 2 }
        dele := Delegation.genesis Council.exBank 10, balances := ∅ }
    slash := Slashing.genesis Council.exBank 10
    adsc := { Adsc.genesis Adsc.exCfg Council.exBank Adsc.exAsset 100 with priv := fun _ _ => true } }

theorem exStart_start : Start exStart := ⟨World.exWorld_inv, World.exWorld_start.locks, rfl, rfl⟩

/-- Two validators bond and are elected, 7 delegates and is paid, the validators are paid for an era, account 1 stakes for
credit, account 3 burns 10 for credit; validator 1 is slashed for 10% and, two eras later, loses it; the root fills the
pool of ADSC with 60, account 5 receives ADSC and swaps them. -/
def exOps : List Op :=
  [.bond (.bond 1 11 500 .staked true) 0, .bond (.validate 11 (0, false)) 0, .bond (.bond 2 12 500 .stash true) 0,
   .bond (.validate 12 (0, false)) 0, .dele (.configure 100 2 1 [] 84), .dele (.newEra [1, 2]), .slash (.startEra 0),
   .dele (.delegate 7 [1] true), .dele (.newEra [1, 2]), .slash (.startEra 6), .dele (.addPoints 0 1 20), .dele (.addPoints 0 2 60),
   .dele (.endEra 0)] ++ List.replicate 5 (.dele (.block fun _ e f => some (10 * (f + 1 - e)))) ++
  [.stake (.stake 1 true 3 [1, 2]), .credit (.burnForCredit 3 5), .slash (.setRewardProp 100000000), .slash (.offence 6 7 1 100000000 [5]), .slash (.startEra 12),
   .slash (.startEra 18), .adsc (.addPool true 60), .adsc (.bridgeMint 4 5 40), .adsc (.swap 5 40), .dele (.newEra [2, 1])]

theorem exOps_iterates : ∀ op ∈ exOps, Iterates op := by
  intro op h
  simp only [exOps, List.mem_append, List.mem_cons, List.mem_replicate, List.not_mem_nil, or_false] at h
  rcases h with (h | h) | h
  · rcases h with rfl | rfl | rfl | rfl | rfl | rfl | rfl | rfl | rfl | rfl | rfl | rfl | rfl <;> simp [Iterates]
  · rw [h.2]; simp [Iterates]
  · rcases h with rfl | rfl | rfl | rfl | rfl | rfl | rfl | rfl | rfl | rfl <;> simp [Iterates]

example :
    let c := run exCfg exStart exOps
    supply exStart = 6000 ∧ pool exCfg exStart = 1000 ∧ supply c = 6170 ∧ pool exCfg c = 890 ∧
    total (granted exCfg) exCfg exStart exOps = 60 ∧ total (lastPaid exCfg) exCfg exStart exOps = 0 := by
  decide +kernel

/-- Every part has happened: rewards of 25 and 75 for the validators and 10 for the delegator, 150 staked for credit and
10 burned, a slash of 50 of which 2 go to the reporter, and 20 for the ADSC. -/
example :
    let c := run exCfg exStart exOps
    c.w.ledger.ledgers.get 11 = some ⟨1, 475, 475, []⟩ ∧ c.w.bank.free 1 = 1000 + 25 - 150 - 50 ∧ c.w.bank.frozen 1 = 475 ∧
    c.w.bank.free 2 = 1075 ∧ c.w.bank.free 3 = 990 ∧ c.w.bank.free 5 = 1000 + 2 + 20 ∧ c.w.bank.free 7 = 10 ∧ c.w.bank.free 9 = 10 ∧
    c.w.bank.free 99 = 150 + 48 + 60 - 20 ∧ c.w.bank.reserved 1 = 0 := by
  decide +kernel

/-- Three validators with equal reward points and a pool of 8. -/
def exThree : List Op :=
  [.bond (.bond 1 11 100 .stash true) 0, .bond (.validate 11 (0, false)) 0, .bond (.bond 2 12 100 .stash true) 0,
   .bond (.validate 12 (0, false)) 0, .bond (.bond 3 13 100 .stash true) 0, .bond (.validate 13 (0, false)) 0,
   .dele (.configure 100 3 1 [] 84), .dele (.newEra [1, 2, 3]), .dele (.addPoints 0 1 20), .dele (.addPoints 0 2 20),
   .dele (.addPoints 0 3 20), .dele (.endEra 0)]

/-- C109, finding: the exception is real. Each of the three validators gets 3 out of a pool of 8, so that one unit is
created which nobody granted. -/
theorem C109_overshoot :
    let cfg : Cfg := { exCfg with stk := { exCfg.stk with dele := { exCfg.stk.dele with totalMining := 8 } } }
    let c := run cfg exStart exThree
    supply exStart + pool cfg exStart = 6008 ∧ supply c = 6009 ∧ pool cfg c = 0 ∧ total (granted cfg) cfg exStart exThree = 0 ∧
    total (lastPaid cfg) cfg exStart exThree = 3 := by
  decide +kernel

end Verif.Chain
