import Verif.DelegationProperties

/-
Helper lemmas for C46: issuance and pool of the payout functions, shares of the validators, reward points.
-/

namespace Verif.Delegation

open Verif

/-! ### Helper lemmas -/

theorem put_issuance_le (b : Bank) (a : AccId) (x : Acct) : (b.put a x).issuance ≤ b.issuance := by
  unfold Bank.put
  split
  · exact Nat.sub_le _ _
  · exact Nat.le_refl _

theorem depositCreating_issuance (b : Bank) (a : AccId) (v : Balance) : (b.depositCreating a v).issuance ≤ b.issuance + v := by
  unfold Bank.depositCreating
  split
  · omega
  split
  · omega
  exact put_issuance_le _ _ _

theorem depositOr_issuance (b : Bank) (a : AccId) (v : Balance) : (Ledger.depositOr b a v).issuance ≤ b.issuance + v := by
  unfold Ledger.depositOr Bank.depositExisting
  split_ifs
  · exact Nat.le_add_right _ _
  · exact Nat.le_add_right _ _
  · exact put_issuance_le _ _ _

theorem updateLedger_issuance (cfg : Ledger.Cfg) (s : Ledger.State) (c : AccId) (l : Ledger.Ledger) :
    (Ledger.updateLedger cfg s c l).bank.issuance = s.bank.issuance := by
  unfold Ledger.updateLedger Ledger.setLock
  split_ifs <;> rfl

theorem payout_issuance (cfg : Ledger.Cfg) (s : Ledger.State) (a : AccId) (v : Balance) :
    (Ledger.payout cfg s a v).bank.issuance ≤ s.bank.issuance + v := by
  unfold Ledger.payout
  split
  · split
    · exact Nat.le_add_right _ _
    · exact depositCreating_issuance _ _ _
  · exact depositOr_issuance _ _ _
  · split
    · exact Nat.le_add_right _ _
    · split
      · exact Nat.le_add_right _ _
      · rw [updateLedger_issuance]; exact depositOr_issuance _ _ _
  · exact depositCreating_issuance _ _ _

/-- Total issuance. -/
def issued (s : State) : Balance := s.led.bank.issuance

theorem payReward_issued (s : State) (d : Delegator) (era : Nat) (pool poc : Balance) :
    issued (payReward s d era pool poc).1 ≤ issued s + (payReward s d era pool poc).2 ∧ (payReward s d era pool poc).2 ≤ pool := by
  unfold payReward
  refine ⟨depositCreating_issuance _ _ _, ?_⟩
  simp only
  split <;> omega

theorem settle_led (s : State) (d : Delegator) (e : Nat) : (settle s d e).led = s.led := by
  unfold settle
  split <;> rfl

theorem payDelegator_issued (s : State) (d : Delegator) (era : Nat) (pool : Balance) (reward : AccId → Nat → Nat → Option Balance) :
    issued (payDelegator s d era pool reward).1 ≤ issued s + (payDelegator s d era pool reward).2.1 ∧
      (payDelegator s d era pool reward).2.1 ≤ pool := by
  unfold payDelegator
  simp only
  split
  · exact ⟨Nat.le_refl _, Nat.zero_le _⟩
  · cases hr : reward d.who (d.since.getD era) (era - 1) with
    | none =>
      refine ⟨?_, Nat.zero_le _⟩
      unfold issued
      rw [settle_led]
      exact Nat.le_refl _
    | some v =>
      refine ⟨?_, (payReward_issued s d era pool v).2⟩
      unfold issued
      rw [settle_led]
      exact (payReward_issued s d era pool v).1

theorem payReferer_issued (s : State) (d : AccId) (paid pool : Balance) :
    issued (payReferer s d paid pool).1 ≤ issued s + (payReferer s d paid pool).2 ∧ (payReferer s d paid pool).2 ≤ pool := by
  unfold payReferer
  split
  · exact ⟨Nat.le_refl _, Nat.zero_le _⟩
  · split
    · exact ⟨Nat.le_refl _, Nat.zero_le _⟩
    · exact ⟨depositCreating_issuance _ _ _, Nat.min_le_left _ _⟩

theorem payLoop_issued (cfg : Cfg) (era : Nat) (reward : AccId → Nat → Nat → Option Balance) : ∀ (n : Nat) (l : Loop),
    issued (payLoop cfg era reward n l).s + (payLoop cfg era reward n l).pool ≤ issued l.s + l.pool := by
  intro n
  induction n with
  | zero => intro l; exact Nat.le_refl _
  | succ n ih =>
    intro l
    unfold payLoop
    split
    · exact Nat.le_refl _
    · split
      · exact Nat.le_refl _
      · rename_i d hd
        obtain ⟨h1, h2⟩ := payDelegator_issued l.s d era l.pool reward
        simp only
        obtain ⟨h3, h4⟩ := payReferer_issued (payDelegator l.s d era l.pool reward).1 d.who
            (payDelegator l.s d era l.pool reward).2.1 (l.pool - (payDelegator l.s d era l.pool reward).2.1)
        split
        · simp only at *; omega
        · split
          · simp only at *; omega
          · refine Nat.le_trans (ih _) ?_
            simp only
            omega

theorem payLoop_pool (cfg : Cfg) (era : Nat) (reward : AccId → Nat → Nat → Option Balance) : ∀ (n : Nat) (l : Loop),
    (payLoop cfg era reward n l).pool ≤ l.pool := by
  intro n
  induction n with
  | zero => intro l; exact Nat.le_refl _
  | succ n ih =>
    intro l
    unfold payLoop
    split
    · exact Nat.le_refl _
    · split
      · exact Nat.le_refl _
      · simp only
        split
        · exact Nat.sub_le _ _
        · split
          · simp only; omega
          · refine Nat.le_trans (ih _) ?_
            simp only
            omega

theorem onBlock_pool (cfg : Cfg) (s : State) (reward : AccId → Nat → Nat → Option Balance) :
    poolOf cfg (onBlock cfg s reward).1 ≤ poolOf cfg s := by
  unfold onBlock
  simp only
  split
  · exact Nat.le_refl _
  split
  · exact Nat.le_refl _
  unfold payDelegators
  split
  · exact Nat.le_refl _
  · exact payLoop_pool cfg _ reward _ ⟨_, _, _, true, []⟩

theorem onBlock_issued (cfg : Cfg) (s : State) (reward : AccId → Nat → Nat → Option Balance) :
    issued (onBlock cfg s reward).1 + poolOf cfg (onBlock cfg s reward).1 ≤ issued s + poolOf cfg s := by
  unfold onBlock
  simp only
  split
  · exact Nat.le_refl _
  split
  · exact Nat.le_refl _
  unfold payDelegators
  split
  · exact Nat.le_refl _
  · exact payLoop_issued cfg _ reward _ ⟨_, _, _, true, []⟩

/-! ### Shares of validators -/

theorem sum_le_of_nodup (l : List AccId) : ∀ (m : FMap AccId Nat), l.Nodup →
    (l.map fun v => (m.get v).getD 0).sum ≤ m.sum (fun _ x => x) := by
  induction l with
  | nil => intro m _; exact Nat.zero_le _
  | cons v l ih =>
    intro m h
    obtain ⟨hv, hl⟩ := List.nodup_cons.mp h
    have e := FMap.sum_erase m v (fun _ x => x)
    have hle := FMap.at?_le_sum m v (fun _ x => x)
    have h1 := ih (m.erase v) hl
    have h2 : (l.map fun w => ((m.erase v).get w).getD 0) = l.map fun w => (m.get w).getD 0 := by
      refine List.map_congr_left fun w hw => ?_
      rw [FMap.get_erase_ne _ (fun (h : w = v) => hv (h ▸ hw))]
    rw [h2] at h1
    have h3 : m.at? (fun _ x => x) v = (m.get v).getD 0 := by
      cases hg : m.get v with
      | none => rw [FMap.at?_none hg]; rfl
      | some x => rw [FMap.at?_some hg]; rfl
    simp only [List.map_cons, List.sum_cons]
    omega

/-- Validators of the list with reward points. -/
def rewarded (p : Points) (l : List AccId) : Nat := (l.filter fun v => decide ((p.individual.get v).getD 0 ≠ 0)).length

theorem shares_sum (p : Points) (payout : Balance) (l : List AccId) :
    2 * 10 ^ 9 * (l.map (validatorShare p payout)).sum ≤
      2 * payout * (l.map fun v => 10 ^ 9 * ((p.individual.get v).getD 0) / p.total).sum + rewarded p l * 10 ^ 9 := by
  induction l with
  | nil => simp
  | cons v l ih =>
    simp only [List.map_cons, List.sum_cons, rewarded, List.filter_cons]
    unfold rewarded at ih
    by_cases h : (p.individual.get v).getD 0 = 0
    · simp only [validatorShare, h, if_true, ne_eq, not_true, decide_false, Nat.mul_zero, Nat.zero_div, Nat.zero_add]
      exact ih
    · simp only [validatorShare, h, if_false, ne_eq, not_false_iff, decide_true, if_true, List.length_cons]
      have hb := divNearestDown_bounds (payout * (10 ^ 9 * ((p.individual.get v).getD 0) / p.total)) (10 ^ 9) (by decide)
      unfold Slashing.perbill
      generalize divNearestDown (payout * (10 ^ 9 * ((p.individual.get v).getD 0) / p.total)) (10 ^ 9) = sh at hb ⊢
      generalize 10 ^ 9 * ((p.individual.get v).getD 0) / p.total = part at hb ⊢
      generalize hS : (l.map fun v => 10 ^ 9 * ((p.individual.get v).getD 0) / p.total).sum = S at ih ⊢
      have e : 2 * payout * (part + S) = 2 * (payout * part) + 2 * payout * S := by
        rw [Nat.mul_add, Nat.mul_assoc]
      have e2 : (l.filter fun v => decide ¬(p.individual.get v).getD 0 = 0).length =
        (l.filter fun v => decide ((p.individual.get v).getD 0 ≠ 0)).length := rfl
      rw [e, e2]
      generalize (l.filter fun v => decide ((p.individual.get v).getD 0 ≠ 0)).length = n at *
      generalize 2 * payout * S = X at *
      generalize payout * part = Y at *
      omega

theorem parts_sum (p : Points) (l : List AccId) (h : (l.map fun v => (p.individual.get v).getD 0).sum ≤ p.total) :
    (l.map fun v => 10 ^ 9 * ((p.individual.get v).getD 0) / p.total).sum ≤ 10 ^ 9 := by
  have hm : (l.map fun v => 10 ^ 9 * ((p.individual.get v).getD 0) / p.total).sum * p.total ≤
      10 ^ 9 * (l.map fun v => (p.individual.get v).getD 0).sum := by
    clear h
    induction l with
    | nil => simp
    | cons v l ih =>
      simp only [List.map_cons, List.sum_cons, Nat.add_mul, Nat.mul_add]
      have := Nat.div_mul_le_self (10 ^ 9 * ((p.individual.get v).getD 0)) p.total
      omega
  by_cases h0 : p.total = 0
  · have : (l.map fun v => 10 ^ 9 * ((p.individual.get v).getD 0) / p.total).sum = 0 := by
      rw [h0]
      simp
    omega
  · refine Nat.le_of_mul_le_mul_right (Nat.le_trans hm ?_) (Nat.pos_of_ne_zero h0)
    exact Nat.mul_le_mul_left _ h

theorem shares_le (p : Points) (payout : Balance) (l : List AccId) (h : (l.map fun v => (p.individual.get v).getD 0).sum ≤ p.total) :
    2 * (l.map (validatorShare p payout)).sum ≤ 2 * payout + rewarded p l := by
  have h1 := shares_sum p payout l
  have h2 := Nat.mul_le_mul_left (2 * payout) (parts_sum p l h)
  omega

theorem payEach_issued (cfg : Cfg) (p : Points) (payout : Balance) (l : List AccId) : ∀ (s : State) (t : Balance),
    (payEachValidator cfg p payout l s t).2 = t + (l.map (validatorShare p payout)).sum ∧
    issued (payEachValidator cfg p payout l s t).1 + t ≤ issued s + (payEachValidator cfg p payout l s t).2 ∧
    (payEachValidator cfg p payout l s t).1.pool = s.pool := by
  induction l with
  | nil => intro s t; exact ⟨rfl, Nat.le_refl _, rfl⟩
  | cons v l ih =>
    intro s t
    unfold payEachValidator
    split
    · rename_i h
      obtain ⟨h1, h2, h3⟩ := ih s t
      refine ⟨?_, h2, h3⟩
      rw [h1]
      simp [validatorShare, h]
    · obtain ⟨h1, h2, h3⟩ := ih { s with led := Ledger.payout cfg.led s.led v (validatorShare p payout v) } (t + validatorShare p payout v)
      have h4 := payout_issuance cfg.led s.led v (validatorShare p payout v)
      simp only
      refine ⟨?_, ?_, h3⟩
      · rw [h1]; simp only [List.map_cons, List.sum_cons]; omega
      · unfold issued at *
        simp only at h2
        omega

/-! ### Points and elected lists of a history -/

/-- Every account occurs at most once when the validators are iterated. -/
def Op.Iterates : Op → Prop
  | .newEra order => order.Nodup
  | _ => True

/-- Points add up and elected lists have no duplicates. -/
structure PInv (s : State) : Prop where
  points : ∀ e p, s.points.get e = some p → p.total = p.individual.sum fun _ x => x
  nodup : ∀ e l, s.erasValidators.get e = some l → l.Nodup

/-- The part of the state `PInv` is about. -/
def pts (s : State) : FMap Nat Points × FMap Nat (List AccId) := (s.points, s.erasValidators)

theorem pts_payEachValidator (cfg : Cfg) (p : Points) (v : Balance) (vs : List AccId) : ∀ (s : State) (t : Balance),
    pts (payEachValidator cfg p v vs s t).1 = pts s := by
  induction vs with
  | nil => intro s t; rfl
  | cons x vs ih =>
    intro s t
    unfold payEachValidator
    split
    · exact ih s t
    · rw [ih]; rfl

theorem pts_payDelegator (s : State) (d : Delegator) (era : Nat) (pool : Balance) (reward : AccId → Nat → Nat → Option Balance) :
    pts (payDelegator s d era pool reward).1 = pts s := by
  have hs : ∀ t : State, pts (settle t d era) = pts t := by
    intro t; unfold settle; split <;> rfl
  unfold payDelegator
  simp only
  split
  · rfl
  · rw [hs]
    split <;> rfl

theorem pts_payReferer (s : State) (d : AccId) (v p : Balance) : pts (payReferer s d v p).1 = pts s := by
  unfold payReferer
  split
  · rfl
  · split <;> rfl

theorem pts_payLoop (cfg : Cfg) (era : Nat) (reward : AccId → Nat → Nat → Option Balance) : ∀ (n : Nat) (l : Loop),
    pts (payLoop cfg era reward n l).s = pts l.s := by
  intro n
  induction n with
  | zero => intro l; rfl
  | succ n ih =>
    intro l
    unfold payLoop
    split
    · rfl
    · split
      · rfl
      · simp only
        split
        · exact pts_payDelegator _ _ _ _ _
        · split
          · rw [pts_payReferer, pts_payDelegator]
          · rw [ih, pts_payReferer, pts_payDelegator]

theorem pts_onBlock (cfg : Cfg) (s : State) (reward : AccId → Nat → Nat → Option Balance) : pts (onBlock cfg s reward).1 = pts s := by
  unfold onBlock
  simp only
  split
  · rfl
  split
  · rfl
  unfold payDelegators
  split
  · rfl
  · exact pts_payLoop cfg _ reward _ _

theorem pts_undelegateOf (s : State) (d : AccId) : pts (undelegateOf s d) = pts s := by
  unfold undelegateOf
  split
  · rfl
  · split
    · rfl
    · simp only
      split <;> rfl

theorem pts_undelegates (ds : List AccId) : ∀ s : State, pts (ds.foldl undelegateOf s) = pts s := by
  induction ds with
  | nil => intro s; rfl
  | cons d ds ih => intro s; rw [List.foldl_cons, ih, pts_undelegateOf]

theorem pts_doDelegate {cfg : Cfg} {s t : State} {d : AccId} {vs : List AccId} (h : doDelegate cfg s d vs true = .ok t) : pts t = pts s := by
  unfold doDelegate at h
  simp only [Bool.true_eq_false, if_false] at h
  cases hd : s.delegators.get d with
  | none => rw [hd] at h; cases h; rfl
  | some x => rw [hd] at h; cases h; rfl

theorem mem_insertEntry (x y : Entry) (l : List Entry) : y ∈ insertEntry x l ↔ y = x ∨ y ∈ l := by
  induction l with
  | nil => simp [insertEntry]
  | cons z l ih =>
    unfold insertEntry
    split
    · simp
    · simp only [List.mem_cons, ih]; tauto

theorem mem_sortEntries (y : Entry) (l : List Entry) : y ∈ sortEntries l ↔ y ∈ l := by
  induction l with
  | nil => rfl
  | cons x l ih => simp only [sortEntries, mem_insertEntry, ih, List.mem_cons]

theorem nodup_insertEntry (x : Entry) (l : List Entry) (hx : x.who ∉ l.map Entry.who) (h : (l.map Entry.who).Nodup) :
    ((insertEntry x l).map Entry.who).Nodup := by
  induction l with
  | nil => simp [insertEntry]
  | cons z l ih =>
    unfold insertEntry
    split
    · exact List.nodup_cons.mpr ⟨hx, h⟩
    · simp only [List.map_cons, List.nodup_cons] at h hx ⊢
      simp only [List.mem_cons, not_or] at hx
      refine ⟨?_, ih hx.2 h.2⟩
      intro hm
      obtain ⟨y, hy, he⟩ := List.mem_map.mp hm
      rcases (mem_insertEntry x y l).mp hy with rfl | hy
      · exact hx.1 he
      · exact h.1 (he ▸ List.mem_map_of_mem hy)

theorem nodup_sortEntries (l : List Entry) (h : (l.map Entry.who).Nodup) : ((sortEntries l).map Entry.who).Nodup := by
  induction l with
  | nil => exact h
  | cons x l ih =>
    simp only [List.map_cons, List.nodup_cons] at h
    refine nodup_insertEntry x _ ?_ (ih h.2)
    intro hm
    obtain ⟨y, hy, he⟩ := List.mem_map.mp hm
    exact h.1 (he ▸ List.mem_map_of_mem ((mem_sortEntries y l).mp hy))

theorem entries_who (s : State) (order : List AccId) : (entries s order).map Entry.who = order.filter (trusted s) := by
  unfold entries
  rw [List.map_map]
  exact List.map_id _

theorem elect_nodup {s : State} {era : Nat} {order l : List AccId} (ho : order.Nodup) (h : (elect s era order).2 = some l) : l.Nodup := by
  unfold elect at h
  simp only at h
  split at h
  · cases h
  · cases h
    rw [List.map_take]
    refine (nodup_sortEntries _ ?_).sublist (List.take_sublist _ _)
    rw [entries_who]
    exact ho.filter _

theorem pinv_of {s t : State} (h : PInv s) (e : pts t = pts s) : PInv t := by
  simp only [pts, Prod.mk.injEq] at e
  exact ⟨by rw [e.1]; exact h.points, by rw [e.2]; exact h.nodup⟩

theorem pinv_newEra {s : State} {order : List AccId} (h : PInv s) (ho : order.Nodup) : PInv (newEra s order).1 := by
  have h1 : PInv (enterEra s (nextEra s)) := by
    unfold enterEra
    simp only
    split
    · refine ⟨fun e p hp => ?_, fun e l hl => ?_⟩
      · simp only [clearEra, FMap.get_erase] at hp
        split at hp
        · cases hp
        · exact h.points e p hp
      · simp only [clearEra, FMap.get_erase] at hl
        split at hl
        · cases hl
        · exact h.nodup e l hl
    · exact ⟨h.points, h.nodup⟩
  have h2 : PInv (elect (enterEra s (nextEra s)) (nextEra s) order).1 := by
    refine pinv_of h1 ?_
    unfold elect
    simp only
    split <;> rfl
  unfold newEra
  simp only
  cases he : (elect (enterEra s (nextEra s)) (nextEra s) order).2 with
  | none => exact h2
  | some l =>
    refine ⟨h2.points, fun e l' hl => ?_⟩
    simp only [storeElected, FMap.get_insert] at hl
    split at hl
    · cases hl; exact elect_nodup ho he
    · exact h2.nodup e l' hl

theorem pinv_step (cfg : Cfg) {s : State} {op : Op} (h : PInv s) (hi : op.Iterates) : PInv (step cfg s op).1 := by
  unfold step
  split
  case h_2 => exact h
  case h_1 r hb =>
    cases op with
    | delegate d vs p =>
      obtain ⟨t, hd, rfl⟩ := map_ok hb
      exact pinv_of h (pts_doDelegate (doDelegate_pass (delegate_do hd)))
    | delegateAny d o p =>
      obtain ⟨t, hd, rfl⟩ := map_ok hb
      unfold delegateAny at hd
      split at hd
      · cases hd
      · exact pinv_of h (pts_doDelegate (doDelegate_pass hd))
    | undelegate d =>
      obtain ⟨t, hd, rfl⟩ := map_ok hb
      unfold undelegate at hd
      split at hd
      · cases hd
      · cases hd; exact pinv_of h (pts_undelegateOf s d)
    | forceUndelegate r ds =>
      simp only [body] at hb
      split at hb
      · cases hb
      · cases hb; exact pinv_of h (pts_undelegates ds s)
    | forceUnstaking k d =>
      simp only [body] at hb
      split at hb
      · cases hb
      · cases hb; exact pinv_of h (pts_undelegateOf s d)
    | setReferer k a r =>
      obtain ⟨t, hd, rfl⟩ := map_ok hb
      unfold setReferer at hd
      split at hd; · cases hd
      split at hd; · cases hd
      cases hd; exact pinv_of h rfl
    | unsetReferer k a =>
      obtain ⟨t, hd, rfl⟩ := map_ok hb
      unfold unsetReferer at hd
      split at hd; · cases hd
      cases hd; exact pinv_of h rfl
    | blackList k a e =>
      simp only [body] at hb
      split at hb
      · cases hb
      · cases hb; exact pinv_of h rfl
    | npowMint k t v =>
      obtain ⟨t, hd, rfl⟩ := map_ok hb
      unfold npowMint at hd
      split at hd; · cases hd
      split at hd; · cases hd
      cases hd; exact pinv_of h rfl
    | compensate k l d r p =>
      obtain ⟨t, hd, rfl⟩ := map_ok hb
      unfold compensate at hd
      split at hd; · cases hd
      split at hd; · cases hd
      cases hd; exact pinv_of h rfl
    | increasePool r v =>
      obtain ⟨t, hd, rfl⟩ := map_ok hb
      unfold increasePool at hd
      split at hd; · cases hd
      cases hd; exact pinv_of h rfl
    | configure e c m w d => cases hb; exact pinv_of h rfl
    | block r => cases hb; exact pinv_of h (pts_onBlock cfg s r)
    | endEra e =>
      cases hb
      refine pinv_of h ?_
      show pts (payValidators cfg s e) = pts s
      unfold payValidators
      split
      · rfl
      · exact pts_payEachValidator cfg _ _ _ s 0
    | newEra o => cases hb; exact pinv_newEra h hi
    | addPoints e v n =>
      cases hb
      refine ⟨fun e' p hp => ?_, h.nodup⟩
      simp only [addPoints, FMap.get_insert] at hp
      split at hp
      · cases hp
        simp only
        have hs : ((s.points.get e).getD ⟨0, ∅⟩).total = ((s.points.get e).getD ⟨0, ∅⟩).individual.sum fun _ x => x := by
          cases hg : s.points.get e with
          | none => rfl
          | some p => exact h.points e p hg
        generalize (s.points.get e).getD ⟨0, ∅⟩ = p at hs ⊢
        have e1 := FMap.sum_insert p.individual v ((p.individual.get v).getD 0 + n) (fun _ x => x)
        have e2 := FMap.at?_le_sum p.individual v (fun _ x => x)
        have h3 : p.individual.at? (fun _ x => x) v = (p.individual.get v).getD 0 := by
          cases hg : p.individual.get v with
          | none => rw [FMap.at?_none hg]; rfl
          | some x => rw [FMap.at?_some hg]; rfl
        omega
      · exact h.points e' p hp
    | ledger op => cases hb; exact pinv_of h rfl

/-! ### Steps that leave balances and pool alone -/

/-- Balances and pool. -/
def money (s : State) : Bank × Option Balance := (s.led.bank, s.pool)

theorem money_undelegateOf (s : State) (d : AccId) : money (undelegateOf s d) = money s := by
  unfold undelegateOf
  split
  · rfl
  · split
    · rfl
    · simp only
      split <;> rfl

theorem money_undelegates (ds : List AccId) : ∀ s : State, money (ds.foldl undelegateOf s) = money s := by
  induction ds with
  | nil => intro s; rfl
  | cons d ds ih => intro s; rw [List.foldl_cons, ih, money_undelegateOf]

theorem money_doDelegate {cfg : Cfg} {s t : State} {d : AccId} {vs : List AccId} (h : doDelegate cfg s d vs true = .ok t) : money t = money s := by
  unfold doDelegate at h
  simp only [Bool.true_eq_false, if_false] at h
  cases hd : s.delegators.get d with
  | none => rw [hd] at h; cases h; rfl
  | some x => rw [hd] at h; cases h; rfl

theorem money_newEra (s : State) (order : List AccId) : money (newEra s order).1 = money s := by
  have h1 : money (enterEra s (nextEra s)) = money s := by unfold enterEra; simp only; split <;> rfl
  have h2 : ∀ (u : State) (l : Option (List AccId)) (e : Nat), money (storeElected u e l) = money u := by
    intro u l e; cases l <;> rfl
  have h3 : ∀ (u : State) (e : Nat), money (elect u e order).1 = money u := by
    intro u e; unfold elect; simp only; split <;> rfl
  unfold newEra
  simp only
  rw [h2, h3, h1]

theorem payValidators_pool (cfg : Cfg) (s : State) (e : Nat) : poolOf cfg (payValidators cfg s e) ≤ poolOf cfg s := by
  unfold payValidators
  split
  · exact Nat.le_refl _
  · exact Nat.sub_le _ _

theorem payValidators_issued (cfg : Cfg) {s : State} (e : Nat) (h : PInv s) :
    issued (payValidators cfg s e) + poolOf cfg (payValidators cfg s e) ≤ issued s + poolOf cfg s ∨
    (poolOf cfg (payValidators cfg s e) = 0 ∧
      2 * issued (payValidators cfg s e) ≤ 2 * (issued s + poolOf cfg s) + ((s.erasValidators.get e).getD []).length) := by
  unfold payValidators
  split
  · exact .inl (Nat.le_refl _)
  simp only
  obtain ⟨h1, h2, _⟩ := payEach_issued cfg ((s.points.get e).getD ⟨0, ∅⟩) (min s.eraReward (poolOf cfg s)) ((s.erasValidators.get e).getD []) s 0
  have hn : ((s.erasValidators.get e).getD []).Nodup := by
    cases hg : s.erasValidators.get e with
    | none => exact List.nodup_nil
    | some l => exact h.nodup e l hg
  have ht : ((s.points.get e).getD ⟨0, ∅⟩).total = ((s.points.get e).getD ⟨0, ∅⟩).individual.sum fun _ x => x := by
    cases hg : s.points.get e with
    | none => rfl
    | some p => exact h.points e p hg
  have h3 := shares_le ((s.points.get e).getD ⟨0, ∅⟩) (min s.eraReward (poolOf cfg s)) ((s.erasValidators.get e).getD [])
    (by rw [ht]; exact sum_le_of_nodup _ _ hn)
  have h4 : rewarded ((s.points.get e).getD ⟨0, ∅⟩) ((s.erasValidators.get e).getD []) ≤ ((s.erasValidators.get e).getD []).length :=
    List.length_filter_le _ _
  have h5 : min s.eraReward (poolOf cfg s) ≤ poolOf cfg s := Nat.min_le_right _ _
  generalize payEachValidator cfg ((s.points.get e).getD ⟨0, ∅⟩) (min s.eraReward (poolOf cfg s)) ((s.erasValidators.get e).getD []) s 0 = q at *
  unfold issued at *
  simp only [poolOf, Option.getD_some] at *
  omega

end Verif.Delegation
