import Verif.RewardsLaw
import Verif.DelegationLaw
import Mathlib.Data.List.Induction

/-
Property C106: the record of rewards of an account sums up its history.
-/

namespace Verif.Delegation

open Verif

/-! ### Specification -/

/-- What an event of the history adds to the rewards of an account for its own credit: the payments to it in a block,
whether credited in full or not, and compensations. -/
def settledBy (a : AccId) (e : State × Op × Out) : Balance :=
  match e.2.1, e.2.2 with
  | .block _, .paid l => earnedBy a l
  | .compensate _ _ d _ poc, .done => if d = a then poc else 0
  | _, _ => 0

def settled (a : AccId) (tr : List (State × Op × Out)) : Balance := (tr.map (settledBy a)).sum

/-- Compensations of an account for referral bonuses. -/
def compensatedBy (a : AccId) (e : State × Op × Out) : Balance :=
  match e.2.1, e.2.2 with
  | .compensate _ _ d referee _, .done => if d = a then referee else 0
  | _, _ => 0

def compensated (a : AccId) (tr : List (State × Op × Out)) : Balance := (tr.map (compensatedBy a)).sum

/-- The last of the payments to an account that has an amount, `v` if there is none. -/
def lastPaid (a : AccId) (v : Balance) (l : List Payment) : Balance :=
  l.foldl (fun v p => if p.who = a then p.amount.getD v else v) v

/-- The last reward of an account for its own credit. -/
def latestBy (a : AccId) (v : Balance) (e : State × Op × Out) : Balance :=
  match e.2.1, e.2.2 with
  | .block _, .paid l => lastPaid a v l
  | .compensate _ _ d _ poc, .done => if d = a then poc else v
  | _, _ => v

def latest (a : AccId) (tr : List (State × Op × Out)) : Balance := tr.foldl (latestBy a) 0

/-! ### Single payments -/

/-- What a part `l` of the payments does to the record of `a`. -/
structure Records (a : AccId) (s t : State) (l : List Payment) : Prop where
  poc : (rewardOf t a).receivedPoc = (rewardOf s a).receivedPoc + earnedBy a l
  last : (rewardOf t a).poc = lastPaid a (rewardOf s a).poc l
  gap : (rewardOf t a).receivedReferee + (rewardOf s a).totalReferee = (rewardOf s a).receivedReferee + (rewardOf t a).totalReferee
  mono : (rewardOf s a).totalReferee ≤ (rewardOf t a).totalReferee
  only : (∀ p ∈ l, s.referer.get p.who ≠ some a) → (rewardOf t a).totalReferee = (rewardOf s a).totalReferee
  referer : t.referer = s.referer

theorem Records.refl (a : AccId) (s : State) : Records a s s [] :=
  ⟨rfl, rfl, by omega, Nat.le_refl _, fun _ => rfl, rfl⟩

theorem Records.same {a : AccId} {s t u : State} {l : List Payment} (h : Records a s t l) (e : u.rewards = t.rewards)
    (e' : u.referer = t.referer) : Records a s u l := by
  have : rewardOf u a = rewardOf t a := by unfold rewardOf; rw [e]
  exact ⟨by rw [this]; exact h.poc, by rw [this]; exact h.last, by rw [this]; exact h.gap, by rw [this]; exact h.mono,
    by rw [this]; exact h.only, e'.trans h.referer⟩

theorem settle_records (s : State) (d : Delegator) (era : Nat) :
    (settle s d era).rewards = s.rewards ∧ (settle s d era).referer = s.referer := by
  unfold settle
  split <;> exact ⟨rfl, rfl⟩

theorem rewardOf_insert (s : State) (m : FMap AccId RewardData) (b a : AccId) (r : RewardData) (h : s.rewards = m.insert b r) :
    rewardOf s a = if a = b then r else (m.get a).getD ⟨0, 0, 0, 0, 0⟩ := by
  unfold rewardOf
  rw [h, FMap.get_insert]
  split <;> rfl

theorem Records.payment {a : AccId} {s t : State} {l : List Payment} (h : Records a s t l) (d : Delegator) (era : Nat) (pool : Balance)
    (reward : AccId → Nat → Nat → Option Balance) :
    Records a s (payDelegator t d era pool reward).1 (l ++ (payDelegator t d era pool reward).2.2.toList) := by
  unfold payDelegator
  simp only
  split
  · simpa using h
  simp only [Option.toList]
  obtain ⟨e1, e2⟩ := settle_records (match reward d.who (d.since.getD era) (era - 1) with
      | none => (t, 0)
      | some poc => payReward t d era pool poc).1 d era
  refine Records.same ?_ e1 e2
  cases hr : reward d.who (d.since.getD era) (era - 1) with
  | none =>
    simp only
    refine ⟨?_, ?_, h.gap, h.mono, fun hp => h.only fun p hm => hp p (by simp [hm]), h.referer⟩
    · rw [h.poc]; unfold earnedBy
      by_cases e : d.who = a <;> simp [List.filter_append, e]
    · rw [h.last]; unfold lastPaid
      rw [List.foldl_append]
      simp
  | some v =>
    simp only
    have hrew : (payReward t d era pool v).1.rewards =
        t.rewards.insert d.who { rewardOf t d.who with receivedPoc := (rewardOf t d.who).receivedPoc + v, poc := v } := rfl
    have href : (payReward t d era pool v).1.referer = t.referer := rfl
    have he := rewardOf_insert (payReward t d era pool v).1 _ _ a _ hrew
    by_cases e : a = d.who
    · subst e
      rw [if_pos rfl] at he
      refine ⟨?_, ?_, ?_, ?_, fun hp => ?_, href.trans h.referer⟩
      · rw [he]; show (rewardOf t d.who).receivedPoc + v = _
        rw [h.poc]; unfold earnedBy
        simp [List.filter_append]; omega
      · rw [he]; unfold lastPaid
        rw [List.foldl_append]
        simp
      · rw [he]; exact h.gap
      · rw [he]; exact h.mono
      · rw [he]; exact h.only fun p hm => hp p (by simp [hm])
    · rw [if_neg e] at he
      have he' : rewardOf (payReward t d era pool v).1 a = rewardOf t a := he
      have e' : ¬ d.who = a := fun x => e x.symm
      refine ⟨?_, ?_, ?_, ?_, fun hp => ?_, href.trans h.referer⟩
      · rw [he', h.poc]; unfold earnedBy
        simp [List.filter_append, e']
      · rw [he', h.last]; unfold lastPaid
        rw [List.foldl_append]
        simp [e']
      · rw [he']; exact h.gap
      · rw [he']; exact h.mono
      · rw [he']; exact h.only fun p hm => hp p (by simp [hm])

theorem perbill_zero (r : Nat) : Slashing.perbill r 0 = 0 := by
  simp [Slashing.perbill, divNearestDown]

theorem payReferer_shape (t : State) (d : AccId) (paid pool : Balance) :
    (payReferer t d paid pool).1 = t ∨ ∃ r v, t.referer.get d = some r ∧ (paid = 0 → v = 0) ∧
      (payReferer t d paid pool).1.referer = t.referer ∧
      (payReferer t d paid pool).1.rewards = t.rewards.insert r { rewardOf t r with totalReferee := (rewardOf t r).totalReferee + v, receivedReferee := (rewardOf t r).receivedReferee + v, referee := v } := by
  unfold payReferer
  cases hr : t.referer.get d with
  | none => exact Or.inl rfl
  | some r =>
    simp only
    cases hb : bonusRate (countOf t r) with
    | none => exact Or.inl rfl
    | some rate =>
      refine Or.inr ⟨r, min pool (Slashing.perbill rate paid), rfl, fun h => ?_, rfl, rfl⟩
      rw [h, perbill_zero, Nat.min_zero]

theorem Records.bonus {a : AccId} {s t : State} {l : List Payment} (h : Records a s t l) (d : AccId) (paid pool : Balance)
    (hm : (∃ p ∈ l, p.who = d) ∨ paid = 0) : Records a s (payReferer t d paid pool).1 l := by
  rcases payReferer_shape t d paid pool with e | ⟨r, v, hr, h0, href, hrew⟩
  · rw [e]; exact h
  have he := rewardOf_insert (payReferer t d paid pool).1 _ _ a _ hrew
  by_cases e : a = r
  · subst e
    rw [if_pos rfl] at he
    have hg := h.gap
    have hmo := h.mono
    refine ⟨by rw [he]; exact h.poc, by rw [he]; exact h.last, ?_, ?_, fun hp => ?_, href.trans h.referer⟩
    · rw [he]; simp only; omega
    · rw [he]; simp only; omega
    · rw [he]
      simp only
      have := h.only hp
      rcases hm with ⟨p, hp1, hp2⟩ | hm
      · exact absurd (by rw [hp2, ← h.referer]; exact hr) (hp p hp1)
      · rw [h0 hm, this]
        rfl
  · rw [if_neg e] at he
    have he' : rewardOf (payReferer t d paid pool).1 a = rewardOf t a := he
    exact ⟨by rw [he']; exact h.poc, by rw [he']; exact h.last, by rw [he']; exact h.gap, by rw [he']; exact h.mono,
      by rw [he']; exact h.only, href.trans h.referer⟩

theorem payDelegator_none {s : State} {d : Delegator} {era : Nat} {pool : Balance} {reward : AccId → Nat → Nat → Option Balance}
    (l : List Payment) :
    (∃ p ∈ l ++ (payDelegator s d era pool reward).2.2.toList, p.who = d.who) ∨ (payDelegator s d era pool reward).2.1 = 0 := by
  unfold payDelegator
  simp only
  split
  · exact Or.inr rfl
  · exact Or.inl ⟨⟨d.who, _, _, _⟩, List.mem_append_right _ (List.mem_singleton.2 rfl), rfl⟩

theorem Records.loop {a : AccId} {s : State} (cfg : Cfg) (era : Nat) (reward : AccId → Nat → Nat → Option Balance) : ∀ (n : Nat) (l : Loop),
    Records a s l.s l.paid → Records a s (payLoop cfg era reward n l).s (payLoop cfg era reward n l).paid := by
  intro n
  induction n with
  | zero => intro l h; exact h
  | succ n ih =>
    intro l h
    unfold payLoop
    split
    · exact h
    · split
      · exact h
      · rename_i d _
        have h1 := h.payment d era l.pool reward
        have h2 := h1.bonus d.who (payDelegator l.s d era l.pool reward).2.1 (l.pool - (payDelegator l.s d era l.pool reward).2.1)
          (payDelegator_none l.paid)
        simp only
        split
        · exact h1
        · split
          · exact h2
          · exact ih _ h2

theorem Records.block {a : AccId} (cfg : Cfg) (s : State) (r : AccId → Nat → Nat → Option Balance) :
    Records a s (onBlock cfg s r).1 (onBlock cfg s r).2 := by
  have h0 : Records a s { s with block := s.block + 1 } [] := (Records.refl a s).same rfl rfl
  unfold onBlock
  simp only
  split
  · exact h0
  split
  · exact h0.same rfl rfl
  unfold payDelegators
  split
  · exact h0
  · exact (Records.loop cfg _ r s.perBlock ⟨{ s with block := s.block + 1 }, _, s.lastKey, true, []⟩ h0).same rfl rfl

/-! ### Other calls -/

theorem rewards_undelegates (ds : List AccId) : ∀ s : State, (ds.foldl undelegateOf s).rewards = s.rewards := by
  have h1 : ∀ (s : State) (d : AccId), (undelegateOf s d).rewards = s.rewards := by
    intro s d
    unfold undelegateOf
    split
    · rfl
    · split
      · rfl
      · simp only
        split <;> rfl
  induction ds with
  | nil => intro s; rfl
  | cons d ds ih => intro s; rw [List.foldl_cons, ih, h1]

theorem rewards_doDelegate {cfg : Cfg} {s t : State} {d : AccId} {vs : List AccId} (h : doDelegate cfg s d vs true = .ok t) :
    t.rewards = s.rewards := by
  unfold doDelegate at h
  simp only [Bool.true_eq_false, if_false] at h
  cases hd : s.delegators.get d with
  | none => rw [hd] at h; cases h; rfl
  | some x => rw [hd] at h; cases h; rfl

theorem rewards_newEra (s : State) (order : List AccId) : (newEra s order).1.rewards = s.rewards := by
  have h1 : (enterEra s (nextEra s)).rewards = s.rewards := by unfold enterEra; simp only; split <;> rfl
  have h2 : ∀ (u : State) (l : Option (List AccId)) (e : Nat), (storeElected u e l).rewards = u.rewards := by
    intro u l e; cases l <;> rfl
  have h3 : ∀ (u : State) (e : Nat), (elect u e order).1.rewards = u.rewards := by
    intro u e; unfold elect; simp only; split <;> rfl
  unfold newEra
  simp only
  rw [h2, h3, h1]

theorem rewards_payEachValidator (cfg : Cfg) (p : Points) (v : Balance) (vs : List AccId) : ∀ (s : State) (t : Balance),
    (payEachValidator cfg p v vs s t).1.rewards = s.rewards := by
  induction vs with
  | nil => intro s t; rfl
  | cons x vs ih =>
    intro s t
    unfold payEachValidator
    split
    · exact ih s t
    · rw [ih]

/-- Calls other than compensations and blocks leave all records alone, and so do failed calls. -/
theorem rewards_step (cfg : Cfg) (s : State) (op : Op) (h1 : ∀ r, op ≠ .block r)
    (h2 : ∀ k l d r p, op = .compensate k l d r p → (step cfg s op).2 ≠ .done) : (step cfg s op).1.rewards = s.rewards := by
  unfold step at h2 ⊢
  split
  case h_2 => rfl
  case h_1 r hb =>
    cases op with
    | delegate d vs p =>
      obtain ⟨t, hd, rfl⟩ := map_ok hb
      exact rewards_doDelegate (doDelegate_pass (delegate_do hd))
    | delegateAny d o p =>
      obtain ⟨t, hd, rfl⟩ := map_ok hb
      unfold delegateAny at hd
      split at hd
      · cases hd
      · exact rewards_doDelegate (doDelegate_pass hd)
    | undelegate d =>
      obtain ⟨t, hd, rfl⟩ := map_ok hb
      unfold undelegate at hd
      split at hd
      · cases hd
      · cases hd; exact rewards_undelegates [d] s
    | forceUndelegate r ds =>
      simp only [body] at hb
      split at hb
      · cases hb
      · cases hb; exact rewards_undelegates ds s
    | forceUnstaking k d =>
      simp only [body] at hb
      split at hb
      · cases hb
      · cases hb; exact rewards_undelegates [d] s
    | setReferer k a r =>
      obtain ⟨t, hd, rfl⟩ := map_ok hb
      unfold setReferer at hd
      split at hd; · cases hd
      split at hd; · cases hd
      cases hd; rfl
    | unsetReferer k a =>
      obtain ⟨t, hd, rfl⟩ := map_ok hb
      unfold unsetReferer at hd
      split at hd; · cases hd
      cases hd; rfl
    | blackList k a e =>
      simp only [body] at hb
      split at hb
      · cases hb
      · cases hb; rfl
    | npowMint k t v =>
      obtain ⟨t, hd, rfl⟩ := map_ok hb
      unfold npowMint at hd
      split at hd; · cases hd
      split at hd; · cases hd
      cases hd; rfl
    | compensate k l d r p =>
      rw [hb] at h2
      obtain ⟨t, hd, rfl⟩ := map_ok hb
      exact absurd rfl (h2 k l d r p rfl)
    | increasePool r v =>
      obtain ⟨t, hd, rfl⟩ := map_ok hb
      unfold increasePool at hd
      split at hd; · cases hd
      cases hd; rfl
    | configure e c m w d => cases hb; rfl
    | block r => exact absurd rfl (h1 r)
    | endEra e =>
      cases hb
      show (payValidators cfg s e).rewards = s.rewards
      unfold payValidators
      split
      · rfl
      · exact rewards_payEachValidator cfg _ _ _ s 0
    | newEra o => cases hb; exact rewards_newEra s o
    | addPoints e v n => cases hb; rfl
    | ledger op => cases hb; rfl

theorem compensate_record {cfg : Cfg} {s : State} {k l : Bool} {d : AccId} {r p : Balance}
    (h : (step cfg s (.compensate k l d r p)).2 = .done) (a : AccId) :
    rewardOf (step cfg s (.compensate k l d r p)).1 a = if a = d then { rewardOf s d with receivedReferee := (rewardOf s d).receivedReferee + r, referee := r, receivedPoc := (rewardOf s d).receivedPoc + p, poc := p } else rewardOf s a := by
  obtain ⟨t, ht⟩ := (step_done (e := compensate cfg s k l d r p) rfl).1 h
  rw [step_ok (e := compensate cfg s k l d r p) rfl ht]
  unfold compensate at ht
  split at ht
  · cases ht
  split at ht
  · cases ht
  cases ht
  exact rewardOf_insert _ s.rewards d a _ rfl

/-! ### C106 -/

/-- C106: after every history, the recorded total of an account's rewards for its own credit is the sum of all its
payments and compensations, the recorded last reward is the last of them, and the referral bonuses it is recorded to
have received are those recorded as earned plus its compensations. -/
theorem C106_records (cfg : Cfg) (bank : Bank) (m : Balance) (ops : List Op) (a : AccId) :
    let h := run cfg (genesis bank m) ops
    (rewardOf h.1 a).receivedPoc = settled a h.2 ∧ (rewardOf h.1 a).poc = latest a h.2 ∧
    (rewardOf h.1 a).receivedReferee = (rewardOf h.1 a).totalReferee + compensated a h.2 := by
  induction ops using List.reverseRecOn with
  | nil => exact ⟨rfl, rfl, rfl⟩
  | append_singleton ops op ih =>
    simp only [run_snoc]
    simp only at ih
    generalize run cfg (genesis bank m) ops = h at ih
    obtain ⟨i1, i2, i3⟩ := ih
    simp only [settled, compensated, latest, List.map_append, List.sum_append, List.map_cons, List.map_nil, List.sum_cons,
      List.sum_nil, Nat.add_zero, List.foldl_append, List.foldl_cons, List.foldl_nil]
    unfold settled at i1
    unfold latest at i2
    unfold compensated at i3
    rw [← i1, ← i2]
    by_cases hb : ∃ r, op = .block r
    · obtain ⟨r, rfl⟩ := hb
      have hr := Records.block (a := a) cfg h.1 r
      have e : step cfg h.1 (.block r) = ((onBlock cfg h.1 r).1, .paid (onBlock cfg h.1 r).2) := rfl
      rw [e]
      have hg := hr.gap
      refine ⟨hr.poc, hr.last, ?_⟩
      simp only [compensatedBy]
      omega
    by_cases hc : ∃ k l d r p, op = .compensate k l d r p ∧ (step cfg h.1 op).2 = .done
    · obtain ⟨k, l, d, r, p, rfl, hd⟩ := hc
      rw [compensate_record hd, hd]
      simp only [settledBy, compensatedBy, latestBy]
      by_cases e : a = d
      · subst e
        simp only [if_true]
        refine ⟨trivial, trivial, ?_⟩
        omega
      · have e' : ¬ d = a := fun x => e x.symm
        simp only [if_neg e, if_neg e']
        exact ⟨rfl, trivial, i3⟩
    · have hs := rewards_step cfg h.1 op (fun r e => hb ⟨r, e⟩) (fun k l d r p e hd => hc ⟨k, l, d, r, p, e, hd⟩)
      have e : rewardOf (step cfg h.1 op).1 a = rewardOf h.1 a := by unfold rewardOf; rw [hs]
      have n1 : settledBy a (h.1, op, (step cfg h.1 op).2) = 0 := by
        cases op with
        | block r => exact absurd ⟨r, rfl⟩ hb
        | compensate k l d r p =>
          have hd : (step cfg h.1 (.compensate k l d r p)).2 ≠ .done := fun x => hc ⟨k, l, d, r, p, rfl, x⟩
          cases ho : (step cfg h.1 (.compensate k l d r p)).2 with
          | done => exact absurd ho hd
          | _ => rfl
        | _ => rfl
      have n2 : compensatedBy a (h.1, op, (step cfg h.1 op).2) = 0 := by
        cases op with
        | compensate k l d r p =>
          have hd : (step cfg h.1 (.compensate k l d r p)).2 ≠ .done := fun x => hc ⟨k, l, d, r, p, rfl, x⟩
          cases ho : (step cfg h.1 (.compensate k l d r p)).2 with
          | done => exact absurd ho hd
          | _ => rfl
        | _ => rfl
      have n3 : ∀ v, latestBy a v (h.1, op, (step cfg h.1 op).2) = v := by
        intro v
        cases op with
        | block r => exact absurd ⟨r, rfl⟩ hb
        | compensate k l d r p =>
          have hd : (step cfg h.1 (.compensate k l d r p)).2 ≠ .done := fun x => hc ⟨k, l, d, r, p, rfl, x⟩
          cases ho : (step cfg h.1 (.compensate k l d r p)).2 with
          | done => exact absurd ho hd
          | _ => rfl
        | _ => rfl
      rw [e, n1, n2, n3]
      exact ⟨rfl, rfl, by omega⟩

/-- C106, bonuses: the recorded bonuses of an account never shrink, and they grow only in a block in which a delegator
it has referred is paid. -/
theorem C106_bonus (cfg : Cfg) (s : State) (op : Op) (a : AccId) :
    let t := step cfg s op
    (rewardOf s a).totalReferee ≤ (rewardOf t.1 a).totalReferee ∧
    ((rewardOf t.1 a).totalReferee ≠ (rewardOf s a).totalReferee →
      ∃ r l p, op = .block r ∧ t.2 = .paid l ∧ p ∈ l ∧ s.referer.get p.who = some a) := by
  intro t
  by_cases hb : ∃ r, op = .block r
  · obtain ⟨r, rfl⟩ := hb
    have hr := Records.block (a := a) cfg s r
    refine ⟨hr.mono, fun hne => ?_⟩
    refine Classical.byContradiction fun hn => hne (hr.only fun p hp e => hn ⟨r, _, p, rfl, rfl, hp, e⟩)
  have key : (rewardOf t.1 a).totalReferee = (rewardOf s a).totalReferee := by
    by_cases hc : ∃ k l d r p, op = .compensate k l d r p ∧ (step cfg s op).2 = .done
    · obtain ⟨k, l, d, r, p, rfl, hd⟩ := hc
      show (rewardOf (step cfg s (.compensate k l d r p)).1 a).totalReferee = _
      rw [compensate_record hd]
      by_cases e : a = d
      · subst e; rw [if_pos rfl]
      · rw [if_neg e]
    · have hs := rewards_step cfg s op (fun r e => hb ⟨r, e⟩) (fun k l d r p e hd => hc ⟨k, l, d, r, p, e, hd⟩)
      show ((((step cfg s op).1.rewards).get a).getD _).totalReferee = _
      rw [hs]; rfl
  exact ⟨by omega, fun hne => absurd key hne⟩

/-- C106, compensations: the record of the account and no other one. -/
theorem C106_compensate (cfg : Cfg) (s : State) (k l : Bool) (d : AccId) (r p : Balance)
    (h : (step cfg s (.compensate k l d r p)).2 = .done) (a : AccId) :
    let t := (step cfg s (.compensate k l d r p)).1
    (a ≠ d → t.rewards.get a = s.rewards.get a) ∧ (rewardOf t d).totalReferee = (rewardOf s d).totalReferee ∧
    (rewardOf t d).referee = r ∧ (rewardOf t d).poc = p := by
  intro t
  have hd := compensate_record h d
  rw [if_pos rfl] at hd
  refine ⟨fun ha => ?_, ?_, ?_, ?_⟩
  · obtain ⟨u, hu⟩ := (step_done (e := compensate cfg s k l d r p) rfl).1 h
    show (step cfg s (.compensate k l d r p)).1.rewards.get a = _
    rw [step_ok (e := compensate cfg s k l d r p) rfl hu]
    unfold compensate at hu
    split at hu
    · cases hu
    split at hu
    · cases hu
    cases hu
    exact FMap.get_insert_ne _ _ ha
  · exact (congrArg RewardData.totalReferee hd).trans rfl
  · exact congrArg RewardData.referee hd
  · exact congrArg RewardData.poc hd

/-- Accounts 6 to 9 delegate, 9 was referred by 1 and 7 is blacklisted: its record grows although it is paid nothing.
Account 9 is compensated twice. -/
example :
    let ops : List Op := exStart ++ [.delegate 6 [1] true, .delegate 7 [1] true, .delegate 8 [1] true, .delegate 9 [2] true,
      .setReferer true 9 1, .blackList true 7 (some 1)] ++ List.replicate 6 (.block exEarn) ++
      [.compensate true true 9 3 5, .compensate false true 9 1 1, .compensate true true 9 4 6]
    let h := run exCfg (genesis exBank 10) ops
    settled 7 h.2 = 70 ∧ settled 9 h.2 = (rewardOf h.1 9).receivedPoc ∧ 11 < settled 9 h.2 ∧ compensated 9 h.2 = 7 ∧ latest 9 h.2 = 6 ∧
    (rewardOf h.1 1).totalReferee = 4 := by
  decide +kernel

end Verif.Delegation
