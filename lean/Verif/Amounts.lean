import Verif.ChainProperties
import Verif.ChainGenesis

/-!
# Sizes of amounts: C134

The runtime keeps amounts of money in unsigned integers of 128 bits (primitives/src/lib.rs, `Balance = u128`), and the
release build does not check additions (Cargo.toml, profile `release`). The models use unbounded numbers. Here it is proved that
nothing is lost by this: as long as what there is and what is granted fits, every amount fits after every history.
-/

namespace Verif.Chain

open Verif

/-! ### Specification -/

/-- What the integers of the runtime can hold. -/
def Fit (x : Nat) : Prop := x < 2 ^ 128

/-- Every amount of the state is a number of the runtime. -/
structure AllFit (cfg : Cfg) (c : State) : Prop where
  /-- the total issuance -/
  issuance : Fit c.w.bank.issuance
  /-- an account, free and reserved together -/
  account : ∀ a, Fit (c.w.bank.free a + c.w.bank.reserved a)
  /-- two accounts together, so that no transfer overflows -/
  two : ∀ a b, a ≠ b → Fit (c.w.bank.total a + c.w.bank.total b)
  /-- what is left in the mining pool, also together with all other money -/
  pool : Fit (supply c + pool cfg c)
  /-- all payment channels together -/
  channels : Fit (Micropayment.escrowAll c.w.micro)
  /-- a payment channel -/
  channel : ∀ k ch, c.w.micro.chans.get k = some ch → Fit ch.balance
  /-- a stake: the total, which is the active part and all that is being unbonded -/
  stake : ∀ a l, c.w.ledger.ledgers.get a = some l → Fit l.total ∧ l.total = l.active + (l.unlocking.map Ledger.Chunk.value).sum

/-- At the start every stake adds up and is covered by the money there is. -/
def StakesAdd (c : State) : Prop :=
  ∀ a l, c.w.ledger.ledgers.get a = some l → l.total = l.active + (l.unlocking.map Ledger.Chunk.value).sum ∧ l.total ≤ supply c

/-! ### Stakes in one step -/

/-- Every stake adds up and is at most half of `B`. -/
def Bnd (B : Nat) (m : FMap AccId Ledger.Ledger) : Prop := ∀ a l, m.get a = some l → l.Balanced ∧ 2 * l.total ≤ B

theorem Bnd.mono {B B' : Nat} {m : FMap AccId Ledger.Ledger} (h : Bnd B m) (hb : B ≤ B') : Bnd B' m :=
  fun a l hl => ⟨(h a l hl).1, Nat.le_trans (h a l hl).2 hb⟩

theorem Bnd.insert {B : Nat} {m : FMap AccId Ledger.Ledger} (h : Bnd B m) {c : AccId} {l : Ledger.Ledger} (hl : l.Balanced) (ht : 2 * l.total ≤ B) :
    Bnd B (m.insert c l) := by
  intro a x hx
  rw [FMap.get_insert] at hx
  split at hx
  · cases hx; exact ⟨hl, ht⟩
  · exact h a x hx

theorem Bnd.erase {B : Nat} {m : FMap AccId Ledger.Ledger} (h : Bnd B m) (c : AccId) : Bnd B (m.erase c) := by
  intro a x hx
  rw [FMap.get_erase] at hx
  split at hx
  · cases hx
  · exact h a x hx

section
open Verif.Ledger

theorem update_bnd {cfg : Ledger.Cfg} {s : Ledger.State} {B : Nat} (h : Bnd B s.ledgers) {c : AccId} {l : Ledger} (hl : l.Balanced)
    (ht : 2 * l.total ≤ B) : Bnd B (updateLedger cfg s c l).ledgers := by
  show Bnd B ((setLock cfg s l.stash l.total).ledgers.insert c l)
  rw [(setLock_fields cfg s l.stash l.total).2.1]
  exact h.insert hl ht

/-- What a payout can add to a stake. -/
def added : Ledger.Op → Balance
  | .payout _ v => v
  | _ => 0

theorem ledger_bnd (cfg : Ledger.Cfg) (s : Ledger.State) (op : Ledger.Op) {B : Nat} (h : Bnd B s.ledgers) (hf : ∀ a, 2 * s.bank.free a ≤ B) :
    Bnd (B + 2 * added op) (Ledger.step cfg s op).1.ledgers := by
  rcases step_cases cfg s op with ⟨r, hb, hs⟩ | ⟨e, hb, hs⟩
  rotate_left
  · rw [hs]; exact h.mono (by omega)
  rw [hs]
  cases op with
  | bond a c v p k =>
    simp only [body] at hb
    unfold bond at hb
    split at hb; · cases hb
    split at hb; · cases hb
    split at hb; · cases hb
    split at hb; · cases hb
    simp only [Except.ok.injEq] at hb
    subst hb
    refine update_bnd (s := { s with bonded := s.bonded.insert a c, payees := s.payees.insert a p }) h rfl ?_
    have := hf a
    show 2 * min v (s.bank.free a) ≤ B + 2 * 0
    omega
  | setMinBond k v =>
    simp only [body] at hb
    unfold setMinBond at hb
    split at hb; · cases hb
    split at hb; · cases hb
    cases hb; exact h
  | bondExtra a v =>
    simp only [body] at hb
    unfold bondExtra at hb
    split at hb; · cases hb
    split at hb; · cases hb
    split at hb; · cases hb
    rename_i l hl
    split at hb
    · cases hb; exact h
    simp only at hb
    split at hb; · cases hb
    cases hb
    obtain ⟨h1, h2⟩ := h _ l hl
    have := hf a
    refine update_bnd h ?_ ?_
    · unfold Ledger.Balanced at *; simp only; omega
    · simp only; omega
  | unbond c v =>
    simp only [body] at hb
    unfold unbond at hb
    split at hb; · cases hb
    split at hb; · cases hb
    rename_i l hl
    split at hb; · cases hb
    simp only at hb
    split at hb
    · cases hb; exact h
    cases hb
    obtain ⟨h1, h2⟩ := h _ l hl
    refine update_bnd h ?_ h2
    unfold Ledger.Balanced at *
    simp only [chunkSum_append, chunkSum_cons, chunkSum_nil]
    split <;> omega
  | withdraw c k =>
    simp only [body] at hb
    unfold withdraw at hb
    split at hb; · cases hb
    split at hb; · cases hb
    rename_i l hl
    simp only at hb
    split at hb
    · split at hb
      · cases hb
      rename_i s1 hk
      cases hb
      obtain ⟨c', hc', rfl⟩ := killStash_ok hk
      exact h.erase c'
    · cases hb
      obtain ⟨h1, h2⟩ := h _ l hl
      have key : (consolidateAt l s.era).Balanced ∧ (consolidateAt l s.era).total ≤ l.total := by
        unfold consolidateAt
        split
        · rename_i e _
          have := consolidate_balanced h1 e
          exact ⟨this.1, by omega⟩
        · exact ⟨h1, Nat.le_refl _⟩
      exact update_bnd h key.1 (by have := key.2; omega)
  | validate c p =>
    simp only [body] at hb
    unfold validate at hb
    split at hb; · cases hb
    split at hb; · cases hb
    cases hb; exact h
  | chill c =>
    simp only [body] at hb
    unfold chill at hb
    split at hb; · cases hb
    split at hb; · cases hb
    cases hb; exact h
  | setPayee c d =>
    simp only [body] at hb
    unfold setPayee at hb
    split at hb; · cases hb
    cases hb; exact h
  | setController a c =>
    simp only [body] at hb
    unfold setController at hb
    split at hb; · cases hb
    rename_i old hold
    split at hb; · cases hb
    split at hb
    · cases hb; exact h
    split at hb
    · cases hb; exact h
    · rename_i l hl
      cases hb
      exact (h.erase old).insert (h old l hl).1 (h old l hl).2
  | forceUnstake k a q =>
    simp only [body] at hb
    unfold forceUnstake at hb
    split at hb; · cases hb
    split at hb; · cases hb
    rename_i s1 hk
    cases hb
    obtain ⟨c', hc', rfl⟩ := killStash_ok hk
    exact h.erase c'
  | rebond c v =>
    simp only [body] at hb
    unfold rebond at hb
    split at hb; · cases hb
    split at hb; · cases hb
    rename_i l hl
    split at hb; · cases hb
    split at hb; · cases hb
    cases hb
    obtain ⟨h1, h2⟩ := h _ l hl
    exact update_bnd h (rebond_spec h1 v).1 (by rw [(rebond_spec h1 v).2.1]; exact h2)
  | reap a q =>
    simp only [body] at hb
    unfold reap at hb
    split at hb; · cases hb
    split at hb; · cases hb
    rename_i s1 hk
    cases hb
    obtain ⟨c', hc', rfl⟩ := killStash_ok hk
    exact h.erase c'
  | burn c v =>
    simp only [body] at hb
    unfold burn at hb
    split at hb; · cases hb
    rename_i l hl
    cases hb
    obtain ⟨h1, h2⟩ := h _ l hl
    obtain ⟨g1, g2, _⟩ := slash_spec h1 v s.bank.ed
    exact update_bnd (s := { removeLock s l.stash with bank := ((removeLock s l.stash).bank.slash l.stash (slashLedger l v s.bank.ed).2).1 }) h g1 (by omega)
  | slash a v =>
    simp only [body] at hb
    cases hb
    unfold doSlash
    split; · exact h
    split; · exact h
    rename_i l hl
    simp only
    split; · exact h
    obtain ⟨h1, h2⟩ := h _ l hl
    obtain ⟨g1, g2, _⟩ := slash_spec h1 v s.bank.ed
    exact update_bnd (s := { s with bank := (s.bank.slash a (slashLedger l v s.bank.ed).2).1 }) h g1 (by omega)
  | payout a v =>
    simp only [body] at hb
    cases hb
    have h' := h.mono (Nat.le_add_right B (2 * v))
    simp only [added]
    unfold payout
    split
    · split
      · exact h'
      · exact h'
    · exact h'
    · split; · exact h'
      split; · exact h'
      rename_i l hl
      obtain ⟨h1, h2⟩ := h _ l hl
      refine update_bnd (s := { s with bank := depositOr s.bank a v }) h' ?_ ?_
      · unfold Ledger.Balanced at *; simp only; omega
      · simp only; omega
    · exact h'
  | kick a => simp only [body] at hb; cases hb; exact h
  | newEra => simp only [body] at hb; cases hb; exact h
  | external b o k => simp only [body] at hb; cases hb; exact h

end

section
open Verif.Delegation

theorem payout_bnd (cfg : Ledger.Cfg) (s : Ledger.State) (a : AccId) (v : Balance) {B : Nat} (h : Bnd B s.ledgers) :
    Bnd (B + 2 * v) (Ledger.payout cfg s a v).ledgers := by
  have h' := h.mono (Nat.le_add_right B (2 * v))
  unfold Ledger.payout
  split
  · split
    · exact h'
    · exact h'
  · exact h'
  · split; · exact h'
    split; · exact h'
    rename_i l hl
    obtain ⟨h1, h2⟩ := h _ l hl
    refine update_bnd (s := { s with bank := Ledger.depositOr s.bank a v }) h' ?_ ?_
    · unfold Ledger.Ledger.Balanced at *; simp only; omega
    · simp only; omega
  · exact h'

theorem payEach_bnd (cfg : Delegation.Cfg) (p : Points) (v : Balance) (l : List AccId) : ∀ (s : Delegation.State) (t : Balance) {B : Nat},
    Bnd B s.led.ledgers → Bnd (B + 2 * ((payEachValidator cfg p v l s t).2 - t)) (payEachValidator cfg p v l s t).1.led.ledgers := by
  induction l with
  | nil => intro s t B h; exact h.mono (by omega)
  | cons x l ih =>
    intro s t B h
    unfold payEachValidator
    split
    · exact ih s t h
    · have h1 := ih { s with led := Ledger.payout cfg.led s.led x (validatorShare p v x) } (t + validatorShare p v x)
        (payout_bnd cfg.led s.led x (validatorShare p v x) h)
      have h2 := (payEach_issued cfg p v l { s with led := Ledger.payout cfg.led s.led x (validatorShare p v x) } (t + validatorShare p v x)).1
      simp only
      generalize payEachValidator cfg p v l _ _ = q at *
      exact h1.mono (by omega)

/-- The end of an era: what is added to stakes leaves the pool. -/
theorem era_bnd (cfg : Delegation.Cfg) {s : Delegation.State} (e : Nat) (h : PInv s) {B : Nat} (hb : Bnd B s.led.ledgers) :
    ∃ B', Bnd B' (payValidators cfg s e).led.ledgers ∧
      (B' + 2 * poolOf cfg (payValidators cfg s e) ≤ B + 2 * poolOf cfg s ∨
        (poolOf cfg (payValidators cfg s e) = 0 ∧ B' ≤ B + 2 * poolOf cfg s + ((s.erasValidators.get e).getD []).length)) := by
  unfold payValidators
  split
  · exact ⟨B, hb, .inl (Nat.le_refl _)⟩
  simp only
  obtain ⟨h1, -, -⟩ := payEach_issued cfg ((s.points.get e).getD ⟨0, ∅⟩) (min s.eraReward (poolOf cfg s)) ((s.erasValidators.get e).getD []) s 0
  have hn : ((s.erasValidators.get e).getD []).Nodup := by
    cases hg : s.erasValidators.get e with
    | none => exact List.nodup_nil
    | some l => exact h.nodup e l hg
  have ht : ((s.points.get e).getD ⟨0, ∅⟩).total = ((s.points.get e).getD ⟨0, ∅⟩).individual.sum fun _ x => x := by
    cases hg : s.points.get e with
    | none => rfl
    | some p => exact h.points e p hg
  have h3 := shares_le ((s.points.get e).getD ⟨0, ∅⟩) (min s.eraReward (poolOf cfg s)) ((s.erasValidators.get e).getD [])
    (by rw [ht]; exact sum_le_of_nodup _ _ hn)
  have h4 : rewarded ((s.points.get e).getD ⟨0, ∅⟩) ((s.erasValidators.get e).getD []) ≤ ((s.erasValidators.get e).getD []).length :=
    List.length_filter_le _ _
  have h5 : min s.eraReward (poolOf cfg s) ≤ poolOf cfg s := Nat.min_le_right _ _
  have h6 := payEach_bnd cfg ((s.points.get e).getD ⟨0, ∅⟩) (min s.eraReward (poolOf cfg s)) ((s.erasValidators.get e).getD []) s 0 hb
  refine ⟨_, h6, ?_⟩
  generalize payEachValidator cfg ((s.points.get e).getD ⟨0, ∅⟩) (min s.eraReward (poolOf cfg s)) ((s.erasValidators.get e).getD []) s 0 = q at *
  simp only [poolOf, Option.getD_some] at *
  omega

/-- The stakes are the same. -/
def Stakes (a b : Ledger.State) : Prop := b.ledgers = a.ledgers

theorem stakes_mints : Mints Stakes := ⟨fun _ => rfl, fun h h' => Eq.trans h' h, fun _ _ _ => rfl⟩

theorem dele_stakes (dc : Delegation.Cfg) (s : Delegation.State) (op : Delegation.Op) (ho : deleOwn op = true)
    (he : ∀ e, op ≠ .endEra e) : (Delegation.step dc s op).1.led.ledgers = s.led.ledgers := by
  have same : ∀ t : Delegation.State, t.led = s.led → t.led.ledgers = s.led.ledgers := by
    intro t e; rw [e]
  unfold Delegation.step
  split
  case h_2 => rfl
  case h_1 r hb =>
    cases op with
    | delegate d vs p =>
      obtain ⟨t, hd, rfl⟩ := map_ok hb
      exact same t (led_doDelegate (doDelegate_pass (delegate_do hd)))
    | delegateAny d o p =>
      obtain ⟨t, hd, rfl⟩ := map_ok hb
      unfold delegateAny at hd
      split at hd
      · cases hd
      · exact same t (led_doDelegate (doDelegate_pass hd))
    | undelegate d =>
      obtain ⟨t, hd, rfl⟩ := map_ok hb
      unfold undelegate at hd
      split at hd
      · cases hd
      · cases hd; exact same _ (led_undelegateOf s d)
    | forceUndelegate r ds =>
      simp only [body] at hb
      split at hb
      · cases hb
      · cases hb; exact same _ (led_undelegates ds s)
    | forceUnstaking k d =>
      simp only [body] at hb
      split at hb
      · cases hb
      · cases hb; exact same _ (led_undelegateOf s d)
    | setReferer k a r =>
      obtain ⟨t, hd, rfl⟩ := map_ok hb
      unfold setReferer at hd
      split at hd; · cases hd
      split at hd; · cases hd
      cases hd; rfl
    | unsetReferer k a =>
      obtain ⟨t, hd, rfl⟩ := map_ok hb
      unfold unsetReferer at hd
      split at hd; · cases hd
      cases hd; rfl
    | blackList k a e =>
      simp only [body] at hb
      split at hb
      · cases hb
      · cases hb; rfl
    | npowMint k t v =>
      obtain ⟨u, hd, rfl⟩ := map_ok hb
      unfold npowMint at hd
      split at hd; · cases hd
      split at hd; · cases hd
      cases hd; rfl
    | compensate k l d r p =>
      obtain ⟨u, hd, rfl⟩ := map_ok hb
      unfold compensate at hd
      split at hd; · cases hd
      split at hd; · cases hd
      cases hd; rfl
    | increasePool r v =>
      obtain ⟨u, hd, rfl⟩ := map_ok hb
      unfold increasePool at hd
      split at hd; · cases hd
      cases hd; rfl
    | configure e c m w d => cases hb; rfl
    | block r => cases hb; exact onBlock_follows stakes_mints dc s r
    | endEra e => exact absurd rfl (he e)
    | newEra o =>
      cases hb
      show (newEra s o).1.led.ledgers = _
      rw [led_newEra]
    | addPoints e v n => cases hb; rfl
    | ledger op => cases ho

end

theorem doSlash_bnd (cfg : Ledger.Cfg) (s : Ledger.State) (a : AccId) (v : Balance) {B : Nat} (h : Bnd B s.ledgers) :
    Bnd B (Ledger.doSlash cfg s a v).1.ledgers := by
  unfold Ledger.doSlash
  split; · exact h
  split; · exact h
  rename_i l hl
  simp only
  split; · exact h
  obtain ⟨h1, h2⟩ := h _ l hl
  obtain ⟨g1, g2, _⟩ := Ledger.slash_spec h1 v s.bank.ed
  exact update_bnd (s := { s with bank := (s.bank.slash a (Ledger.slashLedger l v s.bank.ed).2).1 }) h g1 (by omega)

/-- Slashing makes no stake larger. -/
theorem slash_bnd (sc : Slashing.Cfg) (s : Slashing.State) (op : Slashing.Op) (ho : slashOwn op = true) {B : Nat}
    (h : Bnd B s.led.ledgers) : Bnd B (Slashing.step sc s op).1.led.ledgers := by
  have key := slash_carries (sc := sc) (R := fun a b => ∀ B, Bnd B a.ledgers → Bnd B b.ledgers)
    ⟨fun _ _ h => h, fun h h' B hb => h' B (h B hb), fun _ _ _ h => h, ?_⟩ s op ho
  · exact key B h
  · intro s u
    exact applySlash_carries (lc := sc.led) (R := fun a b => ∀ B, Bnd B a.ledgers → Bnd B b.ledgers)
      ⟨fun _ _ h => h, fun h h' B hb => h' B (h B hb), fun _ _ _ _ h => h, fun s a v B h => doSlash_bnd sc.led s a v h⟩ rfl s u

theorem world_stakes (cfg : World.Cfg) (w : World.State) (op : World.Op) (ho : worldOwn op = true) :
    (World.step cfg w op).ledger.ledgers = w.ledger.ledgers := by
  show (World.effect cfg w op).ledger.ledgers = _
  cases op with
  | ledger o => cases o <;> first | rfl | cases ho
  | hold a v => simp only [World.effect]; split <;> rfl
  | release a v => simp only [World.effect]; split <;> rfl
  | unlockStake r a => simp only [World.effect]; split <;> rfl
  | unlockVote r a => simp only [World.effect]; split <;> rfl
  | unlockMove r x y v => simp only [World.effect]; split <;> rfl
  | _ => rfl

/-- Stakes, the pool and all money are covered by `K`. -/
structure Covered (cfg : Cfg) (K : Nat) (c : State) : Prop where
  money : 2 * (supply c + pool cfg c) ≤ K
  stakes : ∃ B, Bnd B c.w.ledger.ledgers ∧ B + 2 * pool cfg c ≤ K

theorem covered_step (cfg : Cfg) {c : State} (op : Op) (h : Inv c) {K : Nat} (hc : Covered cfg K c) :
    Covered cfg (K + 2 * granted cfg c op + lastPaid cfg c op) (step cfg c op) := by
  have hm := supply_step cfg op h
  have m0 := hc.money
  obtain ⟨B, hb, hB⟩ := hc.stakes
  refine ⟨by omega, ?_⟩
  have same : ∀ c' : State, c'.w.ledger.ledgers = c.w.ledger.ledgers → pool cfg c' = pool cfg c →
      ∃ B, Bnd B c'.w.ledger.ledgers ∧ B + 2 * pool cfg c' ≤ K + 2 * granted cfg c op + lastPaid cfg c op := by
    intro c' h1 h2
    refine ⟨B, by rw [h1]; exact hb, by rw [h2]; omega⟩
  cases op with
  | world op =>
    simp only [step]
    split
    · rename_i ho
      exact same { c with w := World.step cfg.world c.w op } (world_stakes cfg.world c.w op ho) rfl
    · exact same c rfl rfl
  | bond op n =>
    simp only [step]
    split
    · rename_i ho
      show ∃ B, Bnd B (Slashing.ledgerCall cfg.offences { c.slash with led := led c } op n).1.led.ledgers ∧ _
      rw [bond_led]
      generalize hop : Slashing.withSpans _ op = op'
      have ha : added op' = 0 := by
        rw [← hop]
        cases op <;> first | rfl | cases ho
      have hf : ∀ a, 2 * (led c).bank.free a ≤ max B (2 * supply c) := by
        intro a
        have h1 := Bank.total_le_sumAll c.w.bank a
        have h2 : (led c).bank.free a ≤ c.w.bank.total a := Nat.le_add_right _ _
        unfold supply
        omega
      have h1 := ledger_bnd cfg.world.ledger (led c) op' (hb.mono (Nat.le_max_left B (2 * supply c))) hf
      rw [ha] at h1
      refine ⟨_, h1, ?_⟩
      show max B (2 * supply c) + 2 * 0 + 2 * pool cfg c ≤ _
      omega
    · exact same c rfl rfl
  | dele op =>
    by_cases hd : deleOwn op = true
    · by_cases he : ∃ e, op = .endEra e
      · obtain ⟨e, rfl⟩ := he
        obtain ⟨B', h1, h2⟩ := era_bnd cfg.dele (s := (stkOn c).dele) e (Delegation.pinv_of h.pts rfl) (B := B) hb
        refine ⟨B', h1, ?_⟩
        have p0 : Delegation.poolOf cfg.dele (stkOn c).dele = pool cfg c := rfl
        have p1 : Delegation.poolOf cfg.dele (Delegation.payValidators cfg.dele (stkOn c).dele e) = pool cfg (step cfg c (.dele (.endEra e))) := rfl
        rw [p0, p1] at h2
        rcases h2 with h2 | ⟨h2, h3⟩
        · omega
        · have hl : lastPaid cfg c (.dele (.endEra e)) = ((c.stk.dele.erasValidators.get e).getD []).length := if_pos h2
          have h3' : B' ≤ B + 2 * pool cfg c + ((c.stk.dele.erasValidators.get e).getD []).length := h3
          omega
      · have h1 := dele_stakes cfg.dele (stkOn c).dele op hd fun e h => he ⟨e, h⟩
        have hp := Delegation.pool_step cfg.dele (s := (stkOn c).dele) op (Delegation.pinv_of h.pts rfl) (by cases op <;> first | rfl | cases hd)
        rcases hp with ⟨-, hp⟩ | ⟨e, h2, -⟩
        · have p0 : Delegation.poolOf cfg.dele (stkOn c).dele = pool cfg c := rfl
          have p1 : Delegation.poolOf cfg.dele (Delegation.step cfg.dele (stkOn c).dele op).1 = pool cfg (step cfg c (.dele op)) := by
            simp only [step, hd, if_true]
            rfl
          have ha : op.added = granted cfg c (.dele op) := by
            cases op with
            | increasePool r v => cases r <;> rfl
            | _ => rfl
          rw [p0, p1, ha] at hp
          refine ⟨B, ?_, by omega⟩
          simp only [step, hd, if_true]
          show Bnd B (Delegation.step cfg.dele (stkOn c).dele op).1.led.ledgers
          rw [h1]
          exact hb
        · exact absurd ⟨e, h2⟩ he
    · have e : step cfg c (.dele op) = c := by simp only [step, hd]; rfl
      rw [e]
      exact same c rfl rfl
  | stake op =>
    refine same _ ?_ ?_
    · show (StakingCredit.step cfg.stake (stkOn c) op).1.dele.led.ledgers = _
      rcases stake_led cfg.stake (stkOn c) op with e | ⟨a, v, b, -, e⟩ <;> rw [e] <;> rfl
    · unfold pool
      show (StakingCredit.step cfg.stake (stkOn c) op).1.dele.pool.getD _ = _
      rw [(stake_rest cfg.stake (stkOn c) op).1]
      rfl
  | credit op => exact same _ (by simp only [step]; split <;> rfl) rfl
  | slash op =>
    simp only [step]
    split
    · rename_i ho
      refine ⟨B, slash_bnd cfg.offences { c.slash with led := led c } op ho hb, ?_⟩
      show B + 2 * pool cfg c ≤ _
      omega
    · exact same c rfl rfl
  | adsc op => exact same _ (by simp only [step]; split <;> rfl) rfl

theorem covered_run (cfg : Cfg) (ops : List Op) : ∀ {c : State} {K : Nat}, Inv c → (∀ op ∈ ops, Iterates op) → Covered cfg K c →
    Inv (run cfg c ops) ∧ Covered cfg (K + 2 * total (granted cfg) cfg c ops + total (lastPaid cfg) cfg c ops) (run cfg c ops) := by
  induction ops with
  | nil => intro c K h _ hc; exact ⟨h, hc⟩
  | cons op ops ih =>
    intro c K h hi hc
    obtain ⟨h1, h2⟩ := ih (inv_step cfg op h (hi op (by simp))) (fun o ho => hi o (by simp [ho])) (covered_step cfg op h hc)
    refine ⟨h1, ?_⟩
    have e : K + 2 * total (granted cfg) cfg c (op :: ops) + total (lastPaid cfg) cfg c (op :: ops) =
        K + 2 * granted cfg c op + lastPaid cfg c op + 2 * total (granted cfg) cfg (step cfg c op) ops + total (lastPaid cfg) cfg (step cfg c op) ops := by
      simp only [total]; omega
    rw [e]
    exact h2

/-! ### Theorem -/

/-- C134. If all money at the start, the mining pool and everything that is granted during a history (see C109) can be
counted in 128 bits, then after the history every amount can: the issuance, every account, every two accounts, the pool, every
payment channel and all of them together, and every stake, which still is the sum of its parts. Hence no sum which
the runtime stores wraps around, although the release build would not notice, and calculating with unbounded numbers is exact. -/
theorem C134_amounts (cfg : Cfg) {c : State} (h : Start c) (hs : StakesAdd c) (ops : List Op) (hi : ∀ op ∈ ops, Iterates op)
    (hg : 2 * (supply c + pool cfg c + total (granted cfg) cfg c ops) + total (lastPaid cfg) cfg c ops < 2 * 2 ^ 128) :
    AllFit cfg (run cfg c ops) := by
  have h0 : Inv c := ⟨h.books, h.locks, ⟨(by rw [h.points]; exact fun _ _ h => nomatch h), (by rw [h.elected]; exact fun _ _ h => nomatch h)⟩⟩
  have hc : Covered cfg (2 * (supply c + pool cfg c)) c := by
    refine ⟨Nat.le_refl _, 2 * supply c, fun a l hl => ?_, by omega⟩
    have := hs a l hl
    exact ⟨this.1, by omega⟩
  obtain ⟨h1, h2, B, h3, h4⟩ := covered_run cfg ops h0 hi hc
  have e1 := h1.books.issuance
  have e2 : supply (run cfg c ops) = (run cfg c ops).w.bank.sumAll + Micropayment.escrowAll (run cfg c ops).w.micro := rfl
  have hch : ∀ k ch, (run cfg c ops).w.micro.chans.get k = some ch → ch.balance ≤ Micropayment.escrowAll (run cfg c ops).w.micro := by
    intro k ch hk
    have := FMap.at?_le_sum (run cfg c ops).w.micro.chans k fun _ ch => ch.balance
    simp only [FMap.at?, hk] at this
    exact this
  unfold Fit at *
  constructor
  · show _ < 2 ^ 128
    omega
  · intro a
    have : (run cfg c ops).w.bank.free a + (run cfg c ops).w.bank.reserved a ≤ _ := Bank.total_le_sumAll (run cfg c ops).w.bank a
    show _ < 2 ^ 128
    omega
  · intro a b hab
    have := Bank.total_add_le_sumAll (run cfg c ops).w.bank hab
    show _ < 2 ^ 128
    omega
  · show _ < 2 ^ 128
    omega
  · show _ < 2 ^ 128
    omega
  · intro k ch hk
    have := hch k ch hk
    show _ < 2 ^ 128
    omega
  · intro a l hl
    obtain ⟨g1, g2⟩ := h3 a l hl
    refine ⟨?_, g1⟩
    show _ < 2 ^ 128
    omega

/-! ### From the first block on -/

theorem total_append (f : State → Op → Nat) (cfg : Cfg) (l l' : List Op) : ∀ c, total f cfg c (l ++ l') = total f cfg c l + total f cfg (run cfg c l) l' := by
  induction l with
  | nil => intro c; simp [total, run]
  | cons op l ih =>
    intro c
    show f c op + total f cfg (step cfg c op) (l ++ l') = f c op + total f cfg (step cfg c op) l + total f cfg (run cfg (step cfg c op) l) l'
    rw [ih, Nat.add_assoc]

/-- Calls of the opening. -/
def Opens : Op → Prop
  | .dele (.configure ..) => True
  | .slash (.setRewardProp _) => True
  | .slash (.setInvulnerables _) => True
  | .bond (.bond ..) _ => True
  | .bond (.validate ..) _ => True
  | _ => False

theorem opening_opens (dpr : Balance) (g : ChainSpec.Args) : ∀ op ∈ ChainGenesis.opening dpr g, Opens op := by
  intro op h
  simp only [ChainGenesis.opening, ChainGenesis.authorityCalls, List.mem_append, List.mem_cons, List.mem_flatMap, List.not_mem_nil, or_false] at h
  rcases h with (rfl | rfl | rfl) | ⟨x, -, rfl | rfl⟩ <;> trivial

theorem opens_step (cfg : Cfg) (c : State) (op : Op) (h : Opens op) :
    supply (step cfg c op) = supply c ∧ pool cfg (step cfg c op) = pool cfg c ∧ granted cfg c op = 0 ∧ lastPaid cfg c op = 0 ∧ Iterates op := by
  have acc : ∀ op', (∃ a x v p r, op' = .bond a x v p r) ∨ (∃ x p, op' = .validate x p) →
      (Ledger.step cfg.world.ledger (led c) op').1.bank.accts = c.w.bank.accts := by
    intro op' h
    rcases Ledger.step_cases cfg.world.ledger (led c) op' with ⟨r, hb, hs⟩ | ⟨e, hb, hs⟩
    · rw [hs]
      rcases h with ⟨a, x, v, p, k, rfl⟩ | ⟨x, p, rfl⟩
      · simp only [Ledger.body] at hb
        unfold Ledger.bond at hb
        split at hb; · cases hb
        split at hb; · cases hb
        split at hb; · cases hb
        split at hb; · cases hb
        simp only [Except.ok.injEq] at hb
        subst hb
        unfold Ledger.updateLedger Ledger.setLock
        simp only
        split <;> rfl
      · simp only [Ledger.body] at hb
        unfold Ledger.validate at hb
        split at hb; · cases hb
        split at hb; · cases hb
        cases hb; rfl
    · rw [hs]; rfl
  have bnd : ∀ (o : Ledger.Op) (n : Nat), bondOwn o = true → (∃ a x v p r, o = .bond a x v p r) ∨ (∃ x p, o = .validate x p) →
      supply (step cfg c (.bond o n)) = supply c := by
    intro o n ho ht
    unfold supply
    simp only [step, ho, if_true]
    have e : (Slashing.ledgerCall cfg.offences { c.slash with led := led c } o n).1.led.bank.accts = c.w.bank.accts := by
      rw [bond_led]
      refine acc _ ?_
      rcases ht with ⟨a, x, v, p, r, rfl⟩ | ⟨x, p, rfl⟩
      · exact .inl ⟨a, x, v, p, r, rfl⟩
      · exact .inr ⟨x, p, rfl⟩
    show ((Slashing.ledgerCall cfg.offences { c.slash with led := led c } o n).1.led.bank.accts.sum _) + _ = _
    rw [e]
    rfl
  cases op with
  | dele o =>
    cases o <;> first | exact h.elim | skip
    exact ⟨rfl, rfl, rfl, rfl, trivial⟩
  | slash o =>
    cases o <;> first | exact h.elim | skip
    · exact ⟨rfl, rfl, rfl, rfl, trivial⟩
    · exact ⟨rfl, rfl, rfl, rfl, trivial⟩
  | bond o n =>
    cases o <;> first | exact h.elim | skip
    · exact ⟨bnd _ n rfl (.inl ⟨_, _, _, _, _, rfl⟩), rfl, rfl, rfl, trivial⟩
    · exact ⟨bnd _ n rfl (.inr ⟨_, _, rfl⟩), rfl, rfl, rfl, trivial⟩
  | _ => exact h.elim

theorem opens_run (cfg : Cfg) (ops : List Op) : ∀ c, (∀ op ∈ ops, Opens op) →
    supply (run cfg c ops) = supply c ∧ pool cfg (run cfg c ops) = pool cfg c ∧ total (granted cfg) cfg c ops = 0 ∧ total (lastPaid cfg) cfg c ops = 0 := by
  induction ops with
  | nil => intro c _; exact ⟨rfl, rfl, rfl, rfl⟩
  | cons op ops ih =>
    intro c h
    obtain ⟨h1, h2, h3, h4, -⟩ := opens_step cfg c op (h op (by simp))
    obtain ⟨g1, g2, g3, g4⟩ := ih (step cfg c op) fun o ho => h o (by simp [ho])
    refine ⟨g1.trans h1, g2.trans h2, ?_, ?_⟩
    · show granted cfg c op + total (granted cfg) cfg (step cfg c op) ops = 0
      omega
    · show lastPaid cfg c op + total (lastPaid cfg) cfg (step cfg c op) ops = 0
      omega

theorem first_stakes {cfg : Cfg} {ed dpr : Balance} {limit : Nat} (hed : 0 < ed) {g : ChainSpec.Args} {o : ChainGenesis.Others} {t : ChainSpec.First}
    (h : ChainSpec.build (ChainGenesis.specCfg cfg ed dpr limit) g = some t) (hapy : ∀ s ∈ g.settings, s.baseApy ≤ 100) {z : State}
    (hz : ChainGenesis.first cfg ed dpr g o = some z) : StakesAdd z := by
  obtain ⟨c, h1, h2, h3, hop, _⟩ := ChainGenesis.C128_first cfg ed dpr limit hed g o t h hapy
  unfold ChainGenesis.first at hz
  rw [h1] at hz
  cases hz
  obtain ⟨o1, o2, o3, o4⟩ := opens_run cfg (ChainGenesis.opening dpr g) c (opening_opens dpr g)
  have he : c.w.ledger.ledgers = ∅ := by
    unfold ChainGenesis.before at h1
    split at h1
    · cases h1
    split at h1
    · cases h1
    cases h1
    rfl
  have h0 : Inv c := ⟨h2.chain.books, h2.chain.locks, ⟨(by rw [h2.chain.points]; exact fun _ _ h => nomatch h), (by rw [h2.chain.elected]; exact fun _ _ h => nomatch h)⟩⟩
  have hc : Covered cfg (2 * (supply c + pool cfg c)) c :=
    ⟨Nat.le_refl _, 0, (by rw [he]; exact fun _ _ h => nomatch h), by omega⟩
  obtain ⟨-, -, B, h4, h5⟩ := covered_run cfg (ChainGenesis.opening dpr g) h0 (fun op ho => (opens_step cfg c op (opening_opens dpr g op ho)).2.2.2.2) hc
  intro a l hl
  obtain ⟨g1, g2⟩ := h4 a l hl
  refine ⟨g1, ?_⟩
  show l.total ≤ supply (run cfg c (ChainGenesis.opening dpr g))
  omega

/-- C134. From the first block of a specification on, every amount fits, as long as the amounts of the specification, each
account counted once, the mining reward and all grants do. -/
theorem C134_first (cfg : Cfg) (ed dpr : Balance) (limit : Nat) (hed : 0 < ed) (g : ChainSpec.Args) (o : ChainGenesis.Others) (t : ChainSpec.First)
    (h : ChainSpec.build (ChainGenesis.specCfg cfg ed dpr limit) g = some t) (hapy : ∀ s ∈ g.settings, s.baseApy ≤ 100)
    (as : List AccId) (hn : as.Nodup) (hm : ∀ a, a ∈ as ↔ ChainSpec.Named g a) :
    ∃ c, ChainGenesis.first cfg ed dpr g o = some c ∧ ∀ ops : List Op, (∀ op ∈ ops, Iterates op) →
      2 * ((as.map fun a => (ChainSpec.share g a).getD 0).sum + cfg.stk.dele.totalMining + total (granted cfg) cfg c ops) + total (lastPaid cfg) cfg c ops < 2 * 2 ^ 128 →
      AllFit cfg (run cfg c ops) := by
  obtain ⟨z, z1, z2, z3, _, _, z6, z7⟩ := ChainGenesis.first_start (o := o) hed h hapy
  have hs : supply z = (as.map fun a => (ChainSpec.share g a).getD 0).sum := by
    unfold supply
    rw [z7, Nat.add_zero, ← z3.books.issuance, z2.issuance]
    exact (ChainSpec.C122_balances _ g t h).2 as hn hm
  refine ⟨z, z1, fun ops hi hg => C134_amounts cfg z3 (first_stakes hed h hapy z1) ops hi ?_⟩
  rw [hs, z6]
  exact hg

/-- C134. On the development chain and the local test network, with the mining reward of the runtime: 370 million DPR, of
10 to the power 18 units each, take 89 of the 128 bits. Whatever happens, no amount gets too large before about
340 billion times a billion DPR have been granted explicitly. -/
theorem C134_node (cfg : Cfg) (hmin : cfg.stk.dele.totalMining = ChainGenesis.miningReward) (h13 : cfg.world.council.desiredMembers = 13)
    (acc : Nat → AccId) (hacc : Function.Injective acc) (n : Nat) (hn : n = 1 ∨ n = 2) (settings : List Credit.Setting) (users : List (AccId × Credit.Data))
    (hapy : ∀ s ∈ settings, s.baseApy ≤ 100) (o : ChainGenesis.Others) :
    ∃ c, ChainGenesis.first cfg (10 ^ 18 / 5) (10 ^ 18) (ChainSpec.nodeSpec acc n settings users) o = some c ∧
      supply c + pool cfg c < 2 ^ 89 ∧ ∀ ops : List Op, (∀ op ∈ ops, Iterates op) →
      total (granted cfg) cfg c ops ≤ 340 * 10 ^ 18 * 10 ^ 18 → total (lastPaid cfg) cfg c ops ≤ 10 ^ 18 → AllFit cfg (run cfg c ops) := by
  have hcfg : ChainGenesis.specCfg cfg (10 ^ 18 / 5) (10 ^ 18) 100 = ChainSpec.runtimeCfg cfg.stake cfg.world.council := by
    unfold ChainGenesis.specCfg ChainSpec.runtimeCfg
    have : { cfg.world.council with desiredMembers := 13 } = cfg.world.council := by rw [← h13]
    rw [this]
  obtain ⟨t, h1, h2, _⟩ := ChainSpec.C122_node cfg.stake cfg.world.council acc hacc n hn settings users
  rw [← hcfg] at h1
  have he : (0 : Nat) < 10 ^ 18 / 5 := by decide
  obtain ⟨z, z1, z2, z3, _, _, z6, z7⟩ := ChainGenesis.first_start (o := o) he h1 hapy
  have hs : supply z = 120000000 * 10 ^ 18 := by
    unfold supply
    rw [z7, Nat.add_zero, ← z3.books.issuance, z2.issuance, h2]
  have hm : ChainGenesis.miningReward < 250000000 * 10 ^ 18 := by decide
  have e1 : (120000000 * 10 ^ 18 : Nat) + 250000000 * 10 ^ 18 < 2 ^ 89 := by decide
  have e2 : (120000000 * 10 ^ 18 : Nat) + 250000000 * 10 ^ 18 + 340 * 10 ^ 18 * 10 ^ 18 + 10 ^ 18 < 2 ^ 128 := by decide
  refine ⟨z, z1, by rw [hs, z6, hmin]; omega, fun ops hi hg hl => ?_⟩
  refine C134_amounts cfg z3 (first_stakes he h1 hapy z1) ops hi ?_
  rw [hs, z6, hmin]
  omega

/-! ### Examples -/

/-- The hypotheses are met by the history of C109 with payouts, slashes and swaps. -/
example : AllFit exCfg (run exCfg exStart exOps) := by
  refine C134_amounts exCfg exStart_start (fun a l h => nomatch h) exOps exOps_iterates ?_
  have e1 : supply exStart + pool exCfg exStart = 7000 := by decide +kernel
  have e2 : total (granted exCfg) exCfg exStart exOps = 60 := by decide +kernel
  have e3 : total (lastPaid exCfg) exCfg exStart exOps = 0 := by decide +kernel
  omega

/-- In it a stake of 500 grows by a reward of 25 and shrinks by a slash of 50; the other one is 500. -/
example : ((run exCfg exStart exOps).w.ledger.ledgers.get 11).map Ledger.Ledger.total = some 475 ∧
    ((run exCfg exStart exOps).w.ledger.ledgers.get 12).map Ledger.Ledger.total = some 500 := by
  decide +kernel

/-- Without the bound on grants the claim is false: the root can add too much to the pool. -/
example : ¬ AllFit exCfg (run exCfg exStart [.dele (.increasePool true (2 ^ 128))]) := by
  intro h
  have : ¬ supply (run exCfg exStart [.dele (.increasePool true (2 ^ 128))]) + pool exCfg (run exCfg exStart [.dele (.increasePool true (2 ^ 128))]) < 2 ^ 128 := by
    decide +kernel
  exact this h.pool

end Verif.Chain
