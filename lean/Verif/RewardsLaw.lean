import Verif.RewardsProperties
import Verif.BankExact

/-
Property C91: what the payouts of a block bring to whom.
-/

namespace Verif.Delegation

open Verif

/-! ### Specification -/

/-- Referral bonus in tenths of a percent, by the number of referees. -/
def bonusPermille (n : Nat) : Nat :=
  if n = 0 then 0 else if n ≤ 20 then 50 else if n ≤ 50 then 60 else if n ≤ 100 then 75 else if n ≤ 200 then 90 else 120

/-- `p` thousandths of an amount, to the nearest, half down. -/
def permilleOf (p x : Nat) : Nat := if 500 < p * x % 1000 then p * x / 1000 + 1 else p * x / 1000

/-- What the delegator receives: nothing up to the era it is blacklisted for, otherwise what it has earned. -/
def dueOf (s : State) (era : Nat) (p : Payment) : Balance :=
  if era ≤ (s.blackList.get p.who).getD 0 then 0 else p.amount.getD 0

/-- What an account receives for a payment to a delegator it has referred. -/
def bonusOf (s : State) (r : AccId) (v : Balance) : Balance := permilleOf (bonusPermille ((s.refereeCount.get r).getD 0)) v

/-- The two credits of a payment. -/
def creditsOf (s : State) (era : Nat) (p : Payment) : List (AccId × Balance) :=
  (p.who, dueOf s era p) :: (s.referer.get p.who).toList.map fun r => (r, bonusOf s r (dueOf s era p))

/-- Deposits one after the other. -/
def credited (b : Bank) (l : List (AccId × Balance)) : Bank := l.foldl (fun b x => b.depositCreating x.1 x.2) b

def totalOf (l : List (AccId × Balance)) : Balance := (l.map Prod.snd).sum

/-- What an account gets out of a list of credits. -/
def shareOf (a : AccId) (l : List (AccId × Balance)) : Balance := totalOf (l.filter fun x => decide (x.1 = a))

/-- What the payments are worth to a delegator, whether credited or not. -/
def earnedBy (a : AccId) (l : List Payment) : Balance :=
  ((l.filter fun p => decide (p.who = a)).map fun p => p.amount.getD 0).sum

/-- The bonus of an account for a list of payments. -/
def referralsOf (s : State) (era : Nat) (a : AccId) (l : List Payment) : Balance :=
  ((l.filter fun p => decide (s.referer.get p.who = some a)).map fun p => bonusOf s a (dueOf s era p)).sum

/-! ### Single payments -/

theorem perbill_permille (p x : Nat) : Slashing.perbill (p * 1000000) x = permilleOf p x := by
  unfold Slashing.perbill divNearestDown permilleOf
  have e : x * (p * 1000000) = p * x * 1000000 := by
    rw [← Nat.mul_assoc, Nat.mul_comm x p]
  have e2 : (10 : Nat) ^ 9 = 1000 * 1000000 := by decide
  rw [e, e2, Nat.mul_mod_mul_right, Nat.mul_div_mul_right _ _ (by decide)]
  by_cases h : 500 < p * x % 1000
  · rw [if_pos h, if_pos (by omega)]
  · rw [if_neg h, if_neg (by omega)]

theorem permilleOf_zero (p : Nat) : permilleOf p 0 = 0 := by simp [permilleOf]

theorem permilleOf_none (x : Nat) : permilleOf 0 x = 0 := by simp [permilleOf]

theorem bonusRate_cases (n : Nat) : (bonusRate n = none ∧ bonusPermille n = 0) ∨ bonusRate n = some (bonusPermille n * 1000000) := by
  unfold bonusRate bonusPermille
  split
  · exact .inl ⟨rfl, rfl⟩
  right
  split; · rfl
  split; · rfl
  split; · rfl
  split <;> rfl

theorem depositCreating_zero (b : Bank) (a : AccId) : b.depositCreating a 0 = b := by
  simp [Bank.depositCreating]

/-- The part of the state payouts read. -/
def known (s : State) : FMap AccId Nat × FMap AccId AccId × FMap AccId Nat := (s.blackList, s.referer, s.refereeCount)

theorem known_eq {s t : State} (h : known t = known s) :
    t.blackList = s.blackList ∧ t.referer = s.referer ∧ t.refereeCount = s.refereeCount := by
  simpa [known] using h

theorem settle_known (s : State) (d : Delegator) (e : Nat) : known (settle s d e) = known s := by
  unfold settle; split <;> rfl

theorem settle_rewards (s : State) (d : Delegator) (e : Nat) : (settle s d e).rewards = s.rewards := by
  unfold settle; split <;> rfl

/-- Worth of an optional payment to an account. -/
def earnedOf (a : AccId) (o : Option Payment) : Balance := earnedBy a o.toList

theorem payDelegator_exact (s : State) (d : Delegator) (era : Nat) (pool : Balance) (reward : AccId → Nat → Nat → Option Balance)
    (hp : pool - (payDelegator s d era pool reward).2.1 ≠ 0) :
    let r := payDelegator s d era pool reward
    known r.1 = known s ∧ r.1.led = { s.led with bank := s.led.bank.depositCreating d.who r.2.1 } ∧
    ((r.2.2 = none ∧ r.2.1 = 0) ∨ ∃ p, r.2.2 = some p ∧ p.who = d.who ∧ r.2.1 = dueOf s era p) ∧
    ∀ a, (rewardOf r.1 a).receivedPoc = (rewardOf s a).receivedPoc + earnedOf a r.2.2 ∧
      (rewardOf r.1 a).totalReferee = (rewardOf s a).totalReferee ∧
      (rewardOf r.1 a).receivedReferee = (rewardOf s a).receivedReferee := by
  by_cases hf : d.since.getD era = era
  · have : payDelegator s d era pool reward = (s, 0, none) := by simp [payDelegator, hf]
    rw [this]
    refine ⟨rfl, by simp only [depositCreating_zero], .inl ⟨rfl, rfl⟩, fun a => ⟨by simp [earnedOf, earnedBy], rfl, rfl⟩⟩
  · unfold payDelegator at hp ⊢
    simp only [hf, if_false] at hp ⊢
    cases hr : reward d.who (d.since.getD era) (era - 1) with
    | none =>
      simp only [hr] at hp ⊢
      refine ⟨settle_known _ _ _, by rw [settle_led, depositCreating_zero], .inr ⟨_, rfl, rfl, ?_⟩, fun a => ?_⟩
      · unfold dueOf; simp
      · unfold rewardOf
        rw [settle_rewards]
        refine ⟨?_, rfl, rfl⟩
        simp only [earnedOf, earnedBy, Option.toList_some, List.filter_cons, List.filter_nil]
        split <;> simp
    | some poc =>
      simp only [hr] at hp ⊢
      have hk : known (settle (payReward s d era pool poc).1 d era) = known s := by rw [settle_known]; rfl
      refine ⟨hk, by rw [settle_led]; rfl, .inr ⟨_, rfl, rfl, ?_⟩, fun a => ?_⟩
      · unfold dueOf
        unfold payReward at hp ⊢
        simp only [Option.getD_some] at hp ⊢
        split
        · rfl
        · rename_i hb
          rw [if_neg hb] at hp
          omega
      · have e : rewardOf (settle (payReward s d era pool poc).1 d era) a =
            if a = d.who then { rewardOf s d.who with receivedPoc := (rewardOf s d.who).receivedPoc + poc, poc := poc } else rewardOf s a := by
          conv => lhs; unfold rewardOf
          rw [settle_rewards]
          unfold payReward deposit
          simp only [FMap.get_insert]
          split
          · rfl
          · rfl
        rw [e]
        simp only [earnedOf, earnedBy, Option.toList_some, List.filter_cons, List.filter_nil]
        by_cases ha : a = d.who
        · subst ha; simp
        · have : ¬ d.who = a := fun h => ha h.symm
          simp [ha, this]

theorem payReferer_exact (s : State) (d : AccId) (v pool : Balance) (hp : pool - (payReferer s d v pool).2 ≠ 0) :
    let q := payReferer s d v pool
    let cs := (s.referer.get d).toList.map fun r => (r, bonusOf s r v)
    known q.1 = known s ∧ q.1.led = { s.led with bank := credited s.led.bank cs } ∧ q.2 = totalOf cs ∧
    ∀ a, (rewardOf q.1 a).receivedPoc = (rewardOf s a).receivedPoc ∧
      (rewardOf q.1 a).totalReferee = (rewardOf s a).totalReferee + (if s.referer.get d = some a then bonusOf s a v else 0) ∧
      (rewardOf q.1 a).receivedReferee = (rewardOf s a).receivedReferee + (if s.referer.get d = some a then bonusOf s a v else 0) := by
  unfold payReferer at hp ⊢
  cases hr : s.referer.get d with
  | none =>
    simp only [Option.toList_none, List.map_nil]
    refine ⟨trivial, rfl, rfl, fun a => by simp⟩
  | some r =>
    simp only [hr] at hp
    simp only [Option.toList_some, List.map_cons, List.map_nil, Option.some.injEq]
    rcases bonusRate_cases (countOf s r) with ⟨h1, h2⟩ | h1
    · have hz : bonusOf s r v = 0 := by
        unfold bonusOf; unfold countOf at h2; rw [h2]; exact permilleOf_none _
      simp only [h1, hz]
      refine ⟨trivial, ?_, rfl, fun a => ?_⟩
      · simp [credited, depositCreating_zero]
      · have : (if r = a then bonusOf s a v else 0) = 0 := by
          split
          · rename_i h; subst h; exact hz
          · rfl
        rw [this]; simp
    · have hb : Slashing.perbill (bonusPermille (countOf s r) * 1000000) v = bonusOf s r v := perbill_permille _ _
      simp only [h1, hb] at hp ⊢
      have hm : min pool (bonusOf s r v) = bonusOf s r v := by omega
      rw [hm]
      refine ⟨rfl, rfl, by simp [totalOf], fun a => ?_⟩
      have e : ∀ x : RewardData, rewardOf { deposit s r (bonusOf s r v) with rewards := (deposit s r (bonusOf s r v)).rewards.insert r x } a =
          if a = r then x else rewardOf s a := by
        intro x
        unfold rewardOf
        simp only [FMap.get_insert]
        split
        · rfl
        · rfl
      rw [e]
      by_cases ha : a = r
      · subst ha
        simp only [if_true]
        exact ⟨rfl, rfl, rfl⟩
      · have : ¬ r = a := fun h => ha h.symm
        simp [ha, this]

/-! ### The loop -/

theorem totalOf_append (l l' : List (AccId × Balance)) : totalOf (l ++ l') = totalOf l + totalOf l' := by
  simp [totalOf]

theorem credited_append (b : Bank) (l l' : List (AccId × Balance)) : credited b (l ++ l') = credited (credited b l) l' := by
  simp [credited]

theorem earnedBy_append (a : AccId) (l l' : List Payment) : earnedBy a (l ++ l') = earnedBy a l + earnedBy a l' := by
  simp [earnedBy]

theorem referralsOf_append (s : State) (era : Nat) (a : AccId) (l l' : List Payment) :
    referralsOf s era a (l ++ l') = referralsOf s era a l + referralsOf s era a l' := by
  simp [referralsOf]

theorem bonusOf_zero (s : State) (r : AccId) : bonusOf s r 0 = 0 := permilleOf_zero _

/-- Payouts so far, beginning with `s` and the pool `pool`. -/
structure Exact (s : State) (pool : Balance) (era : Nat) (l : Loop) : Prop where
  known : known l.s = known s
  led : l.s.led = { s.led with bank := credited s.led.bank (l.paid.flatMap (creditsOf s era)) }
  pool : l.pool + totalOf (l.paid.flatMap (creditsOf s era)) = pool
  recs : ∀ a, (rewardOf l.s a).receivedPoc = (rewardOf s a).receivedPoc + earnedBy a l.paid ∧
    (rewardOf l.s a).totalReferee = (rewardOf s a).totalReferee + referralsOf s era a l.paid ∧
    (rewardOf l.s a).receivedReferee = (rewardOf s a).receivedReferee + referralsOf s era a l.paid

theorem exact_next {s : State} {pool : Balance} {era : Nat} {l : Loop} (h : Exact s pool era l) (d : Delegator)
    (reward : AccId → Nat → Nat → Option Balance) (last : Option Nat) (full : Bool) :
    let r := payDelegator l.s d era l.pool reward
    let q := payReferer r.1 d.who r.2.1 (l.pool - r.2.1)
    l.pool - r.2.1 ≠ 0 → l.pool - r.2.1 - q.2 ≠ 0 →
    Exact s pool era ⟨q.1, l.pool - r.2.1 - q.2, last, full, l.paid ++ r.2.2.toList⟩ := by
  have F1 := payDelegator_exact l.s d era l.pool reward
  revert F1
  generalize payDelegator l.s d era l.pool reward = r
  obtain ⟨r1, v, o⟩ := r
  simp only
  intro F1
  have F2 := payReferer_exact r1 d.who v (l.pool - v)
  revert F2
  generalize payReferer r1 d.who v (l.pool - v) = q
  obtain ⟨q1, w⟩ := q
  simp only
  intro F2 h1 h2
  obtain ⟨hk, hl, hc, hr⟩ := F1 h1
  obtain ⟨qk, ql, qt, qr⟩ := F2 h2
  obtain ⟨b1, b2, b3⟩ := known_eq (hk.trans h.known)
  obtain ⟨c1, c2, c3⟩ := known_eq h.known
  have hB : ∀ x v, bonusOf r1 x v = bonusOf s x v := by intro x v; unfold bonusOf; rw [b3]
  have hD : ∀ p, dueOf l.s era p = dueOf s era p := by intro p; unfold dueOf; rw [c1]
  rw [b2] at ql qt qr
  simp only [hB] at ql qt qr
  rcases hc with ⟨e1, e2⟩ | ⟨p, e1, e2, e3⟩
  · subst e1 e2
    simp only [bonusOf_zero] at ql qt qr
    have hz : totalOf ((s.referer.get d.who).toList.map fun r => (r, 0)) = 0 := by
      cases s.referer.get d.who <;> simp [totalOf]
    have hz2 : ∀ b : Bank, credited b ((s.referer.get d.who).toList.map fun r => (r, 0)) = b := by
      intro b; cases s.referer.get d.who <;> simp [credited, depositCreating_zero]
    rw [hz] at qt
    subst qt
    rw [depositCreating_zero] at hl
    rw [hz2] at ql
    refine ⟨qk.trans (hk.trans h.known), ?_, ?_, fun a => ?_⟩
    · simp only [Option.toList_none, List.append_nil]
      rw [← h.led, ql, hl]
    · simp only [Option.toList_none, List.append_nil]
      exact h.pool
    · simp only [Option.toList_none, List.append_nil]
      obtain ⟨k1, k2, k3⟩ := qr a
      obtain ⟨j1, j2, j3⟩ := hr a
      obtain ⟨i1, i2, i3⟩ := h.recs a
      simp only [ite_self, Nat.add_zero] at k2 k3
      have : earnedOf a none = 0 := rfl
      refine ⟨?_, ?_, ?_⟩ <;> omega
  · subst e1
    rw [hD] at e3
    have hcr : creditsOf s era p = (d.who, v) :: (s.referer.get d.who).toList.map fun x => (x, bonusOf s x v) := by
      unfold creditsOf; rw [e2, e3]
    have hfm : (l.paid ++ (some p).toList).flatMap (creditsOf s era) =
        l.paid.flatMap (creditsOf s era) ++ ((d.who, v) :: (s.referer.get d.who).toList.map fun x => (x, bonusOf s x v)) := by
      rw [List.flatMap_append]; simp [hcr]
    refine ⟨qk.trans (hk.trans h.known), ?_, ?_, fun a => ?_⟩
    · simp only [hfm]
      rw [credited_append, ql, hl, h.led]
      rfl
    · simp only [hfm]
      rw [totalOf_append]
      have : totalOf ((d.who, v) :: (s.referer.get d.who).toList.map fun x => (x, bonusOf s x v)) = v + w := by
        rw [qt]; simp [totalOf]
      rw [this]
      have := h.pool
      omega
    · obtain ⟨k1, k2, k3⟩ := qr a
      obtain ⟨j1, j2, j3⟩ := hr a
      obtain ⟨i1, i2, i3⟩ := h.recs a
      have hre : referralsOf s era a (some p).toList = if s.referer.get d.who = some a then bonusOf s a v else 0 := by
        simp only [referralsOf, Option.toList_some, List.filter_cons, List.filter_nil, e2]
        by_cases hra : s.referer.get d.who = some a
        · simp [hra, e3]
        · simp [hra]
      rw [earnedBy_append, referralsOf_append, hre]
      have : earnedOf a (some p) = earnedBy a (some p).toList := rfl
      simp only
      refine ⟨?_, ?_, ?_⟩ <;> omega

theorem payLoop_exact (cfg : Cfg) (s : State) (pool : Balance) (era : Nat) (reward : AccId → Nat → Nat → Option Balance) :
    ∀ (n : Nat) (l : Loop), Exact s pool era l → (payLoop cfg era reward n l).pool ≠ 0 →
    Exact s pool era (payLoop cfg era reward n l) := by
  intro n
  induction n with
  | zero => intro l h _; exact h
  | succ n ih =>
    intro l h hp
    unfold payLoop at hp ⊢
    split at hp
    · exact ⟨h.known, h.led, h.pool, h.recs⟩
    · rename_i a ha
      simp only [ha]
      split at hp
      · exact ⟨h.known, h.led, h.pool, h.recs⟩
      · rename_i d hd
        simp only at hp ⊢
        split at hp
        · rename_i h0; exact absurd h0 hp
        · rename_i h1
          rw [if_neg h1]
          split at hp
          · rename_i h0; exact absurd h0 hp
          · rename_i h2
            rw [if_neg h2]
            exact ih _ (exact_next h d reward _ _ h1 h2) hp

/-- What the loop does not touch. -/
def fixed (s : State) : Nat × Nat × Option Nat × Option Nat × FMap AccId Candidate × Nat :=
  (s.block, s.perBlock, s.lastKey, s.led.era, s.candidates, s.active)

theorem payDelegator_fixed (s : State) (d : Delegator) (era : Nat) (pool : Balance) (reward : AccId → Nat → Nat → Option Balance) :
    fixed (payDelegator s d era pool reward).1 = fixed s := by
  have hs : ∀ t : State, fixed (settle t d era) = fixed t := by intro t; unfold settle; split <;> rfl
  unfold payDelegator
  simp only
  split
  · rfl
  · rw [hs]
    cases reward d.who (d.since.getD era) (era - 1) <;> rfl

theorem payReferer_fixed (s : State) (d : AccId) (v p : Balance) : fixed (payReferer s d v p).1 = fixed s := by
  unfold payReferer
  split
  · rfl
  · split <;> rfl

theorem payLoop_fixed (cfg : Cfg) (era : Nat) (reward : AccId → Nat → Nat → Option Balance) : ∀ (n : Nat) (l : Loop),
    fixed (payLoop cfg era reward n l).s = fixed l.s := by
  intro n
  induction n with
  | zero => intro l; rfl
  | succ n ih =>
    intro l
    unfold payLoop
    split
    · rfl
    · split
      · rfl
      · simp only
        split
        · exact payDelegator_fixed _ _ _ _ _
        · split
          · exact (payReferer_fixed _ _ _ _).trans (payDelegator_fixed _ _ _ _ _)
          · exact (ih _).trans ((payReferer_fixed _ _ _ _).trans (payDelegator_fixed _ _ _ _ _))

theorem onBlock_block (cfg : Cfg) (s : State) (r : AccId → Nat → Nat → Option Balance) : (onBlock cfg s r).1.block = s.block + 1 := by
  unfold onBlock
  simp only
  split
  · rfl
  split
  · rfl
  unfold payDelegators
  split
  · rfl
  · exact congrArg Prod.fst (payLoop_fixed cfg _ r s.perBlock ⟨{ s with block := s.block + 1 }, _, s.lastKey, true, []⟩)

/-- C91: in a block after which the mining pool is not empty, every payment brings the delegator what it has earned,
or nothing if it is blacklisted for the era, and its referrer the bonus of the table; nothing else changes balances
and the pool shrinks by exactly these amounts. The record of rewards of every account grows by what it has earned
and by its bonuses. -/
theorem C91_block (cfg : Cfg) (s : State) (r : AccId → Nat → Nat → Option Balance) :
    let s' := (step cfg s (.block r)).1
    ∃ l, (step cfg s (.block r)).2 = .paid l ∧ (poolOf cfg s' ≠ 0 →
    let cs := l.flatMap (creditsOf s (creditEra cfg s'))
    s'.led = { s.led with bank := credited s.led.bank cs } ∧ poolOf cfg s' + totalOf cs = poolOf cfg s ∧
    ∀ a, (rewardOf s' a).receivedPoc = (rewardOf s a).receivedPoc + earnedBy a l ∧
      (rewardOf s' a).totalReferee = (rewardOf s a).totalReferee + referralsOf s (creditEra cfg s') a l ∧
      (rewardOf s' a).receivedReferee = (rewardOf s a).receivedReferee + referralsOf s (creditEra cfg s') a l) := by
  intro s'
  refine ⟨(onBlock cfg s r).2, rfl, fun hp => ?_⟩
  change poolOf cfg (onBlock cfg s r).1 ≠ 0 at hp
  change (onBlock cfg s r).1.led = _ ∧ poolOf cfg (onBlock cfg s r).1 + _ = _ ∧ ∀ a, (rewardOf (onBlock cfg s r).1 a).receivedPoc = _ ∧
    (rewardOf (onBlock cfg s r).1 a).totalReferee = _ ∧ (rewardOf (onBlock cfg s r).1 a).receivedReferee = _
  have he : creditEra cfg s' = creditEra cfg { s with block := s.block + 1 } := by
    change creditEra cfg (onBlock cfg s r).1 = _
    unfold creditEra
    rw [onBlock_block]
  rw [he]
  clear he
  have triv : ∀ t : State, t.led = s.led → poolOf cfg t = poolOf cfg s → t.rewards = s.rewards →
      t.led = { s.led with bank := credited s.led.bank (([] : List Payment).flatMap (creditsOf s (creditEra cfg { s with block := s.block + 1 }))) } ∧
      poolOf cfg t + totalOf (([] : List Payment).flatMap (creditsOf s (creditEra cfg { s with block := s.block + 1 }))) = poolOf cfg s ∧
      ∀ a, (rewardOf t a).receivedPoc = (rewardOf s a).receivedPoc + earnedBy a [] ∧
        (rewardOf t a).totalReferee = (rewardOf s a).totalReferee + referralsOf s (creditEra cfg { s with block := s.block + 1 }) a [] ∧
        (rewardOf t a).receivedReferee = (rewardOf s a).receivedReferee + referralsOf s (creditEra cfg { s with block := s.block + 1 }) a [] := by
    intro t h1 h2 h3
    refine ⟨h1, h2, fun a => ?_⟩
    unfold rewardOf
    rw [h3]
    exact ⟨rfl, rfl, rfl⟩
  unfold onBlock at hp ⊢
  simp only at hp ⊢
  split at hp
  · rename_i h0
    simp only [h0, if_true]
    exact triv _ rfl rfl rfl
  rename_i h0
  simp only [h0, if_false]
  split at hp
  · rename_i h1
    simp only [h1, if_true]
    exact triv _ rfl rfl rfl
  rename_i h1
  simp only [h1, if_false]
  unfold payDelegators at hp ⊢
  split at hp
  · rename_i h2
    rw [if_pos h2]
    exact triv _ rfl rfl rfl
  rename_i h2
  rw [if_neg h2]
  simp only at hp ⊢
  have h := payLoop_exact cfg { s with block := s.block + 1 } (poolOf cfg s) (creditEra cfg { s with block := s.block + 1 }) r s.perBlock
    ⟨{ s with block := s.block + 1 }, poolOf cfg { s with block := s.block + 1 }, s.lastKey, true, []⟩
    ⟨rfl, rfl, rfl, fun a => ⟨rfl, rfl, rfl⟩⟩ hp
  exact ⟨h.led, h.pool, h.recs⟩

theorem credited_inv {b : Bank} (h : b.Inv) (l : List (AccId × Balance)) : (credited b l).Inv := by
  induction l generalizing b with
  | nil => exact h
  | cons x l ih => exact ih (Bank.depositCreating_inv h _ _)

theorem credited_account {b : Bank} (h : b.Inv) (a : AccId) (l : List (AccId × Balance)) (hc : b.accts.contains a = true) :
    (credited b l).free a = b.free a + shareOf a l ∧ (credited b l).reserved a = b.reserved a := by
  induction l generalizing b with
  | nil => exact ⟨rfl, rfl⟩
  | cons x l ih =>
    have hi := ih (Bank.depositCreating_inv h x.1 x.2) (Bank.depositCreating_mono h x.1 x.2 hc)
    change (credited (b.depositCreating x.1 x.2) l).free a = _ ∧ (credited (b.depositCreating x.1 x.2) l).reserved a = _
    rw [hi.1, hi.2]
    by_cases hx : x.1 = a
    · subst hx
      obtain ⟨_, h2, h3, _⟩ := Bank.depositCreating_credit (v := x.2) h (.inl hc)
      rw [h2, h3]
      refine ⟨?_, rfl⟩
      simp [shareOf, totalOf, List.filter_cons, Nat.add_assoc]
    · have hne : a ≠ x.1 := fun h => hx h.symm
      have := (Bank.depositCreating_ne (b := b) x.2 hne).1
      rw [show (b.depositCreating x.1 x.2).free a = b.free a from congrArg Acct.free this,
        show (b.depositCreating x.1 x.2).reserved a = b.reserved a from congrArg Acct.reserved this]
      refine ⟨?_, rfl⟩
      simp [shareOf, totalOf, List.filter_cons, hx]

theorem credited_other (b : Bank) (a : AccId) (l : List (AccId × Balance)) (h : ∀ x ∈ l, x.1 ≠ a) : (credited b l).acct a = b.acct a := by
  induction l generalizing b with
  | nil => rfl
  | cons x l ih =>
    change (credited (b.depositCreating x.1 x.2) l).acct a = _
    rw [ih _ fun y hy => h y (List.mem_cons_of_mem _ hy)]
    exact (Bank.depositCreating_ne x.2 fun e => h x (by simp) e.symm).1

/-- C91: the balance of an existing account grows by its share of the payouts of the block; who is neither paid nor
the referrer of somebody paid keeps theirs. -/
theorem C91_balance (cfg : Cfg) (s : State) (r : AccId → Nat → Nat → Option Balance) (hb : s.led.bank.Inv) :
    let s' := (step cfg s (.block r)).1
    ∃ l, (step cfg s (.block r)).2 = .paid l ∧ (poolOf cfg s' ≠ 0 →
    let cs := l.flatMap (creditsOf s (creditEra cfg s'))
    ∀ a, (s.led.bank.accts.contains a = true →
        s'.led.bank.free a = s.led.bank.free a + shareOf a cs ∧ s'.led.bank.reserved a = s.led.bank.reserved a) ∧
      ((∀ p ∈ l, p.who ≠ a ∧ s.referer.get p.who ≠ some a) → s'.led.bank.acct a = s.led.bank.acct a)) := by
  intro s'
  obtain ⟨l, hl, h⟩ := C91_block cfg s r
  refine ⟨l, hl, fun hp => ?_⟩
  obtain ⟨h1, _⟩ := h hp
  have h1 : s'.led = _ := h1
  rw [h1]
  refine fun a => ⟨fun hc => credited_account hb a _ hc, fun hn => credited_other _ a _ ?_⟩
  intro x hx
  obtain ⟨p, hp, hx⟩ := List.mem_flatMap.1 hx
  unfold creditsOf at hx
  rw [List.mem_cons] at hx
  rcases hx with rfl | hx
  · exact (hn p hp).1
  · obtain ⟨y, hy, rfl⟩ := List.mem_map.1 hx
    intro e
    simp only at e
    subst e
    exact (hn p hp).2 (by simpa using hy)

/-- Delegators 7, 8 and 9 in era 1; 9 is referred by 8, 8 by 1, and 7 is blacklisted up to era 1. -/
def exReferred : List Op :=
  exDelegate ++ [.setReferer true 9 8, .setReferer true 8 1, .blackList true 7 (some 1)]

def exEarn : AccId → Nat → Nat → Option Balance := fun a e f => some (10 * a * (f + 1 - e))

/-- The pool holds 1000; 7 gets nothing, 8 gets 80 and 5 % of 90 rounded down, 9 gets 90, and 1 gets 5 % of 80. -/
example :
    let s := (run exCfg (genesis exBank 10) exReferred).1
    let t := run exCfg s [.block exEarn, .block exEarn]
    paymentsOf t.2 = [⟨7, 0, 0, some 70⟩, ⟨8, 0, 0, some 80⟩, ⟨9, 0, 0, some 90⟩] ∧
    t.1.led.bank.free 7 = 0 ∧ t.1.led.bank.free 8 = 84 ∧ t.1.led.bank.free 9 = 90 ∧ t.1.led.bank.free 1 = 1004 ∧
    s.led.bank.free 1 = 1000 ∧ poolOf exCfg s = 1000 ∧ poolOf exCfg t.1 = 822 := by
  decide +kernel

/-- C91, finding: the record of rewards of a blacklisted delegator shows a reward that was not paid, and the record
of the last bonus is overwritten with zero by the next block that comes across the delegator. -/
theorem C91_record_differs :
    let ops : List Op := exStart ++ [.delegate 6 [1] true, .delegate 7 [1] true, .delegate 8 [1] true, .delegate 9 [2] true,
      .setReferer true 9 1, .blackList true 7 (some 1)] ++ List.replicate 6 (.block exEarn)
    let s := (run exCfg (genesis exBank 10) ops).1
    let t := (step exCfg s (.block exEarn)).1
    s.rewards.get 7 = some ⟨0, 0, 0, 70, 70⟩ ∧ s.led.bank.free 7 = 0 ∧
    s.rewards.get 1 = some ⟨4, 4, 4, 0, 0⟩ ∧ t.rewards.get 1 = some ⟨4, 4, 0, 0, 0⟩ := by
  decide +kernel

end Verif.Delegation
