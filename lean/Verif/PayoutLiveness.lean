import Verif.RewardsLaw
import Mathlib.Data.List.Perm.Subperm

/-
Property C92: every delegator is paid in every era.
-/

namespace Verif.Delegation

open Verif

/-! ### Specification -/

def isBlock : Op → Bool
  | .block _ => true
  | _ => false

/-- Calls that may add a record. -/
def isJoin : Op → Bool
  | .delegate _ _ _ => true
  | .delegateAny _ _ _ => true
  | _ => false

/-- Calls that end the delegation of an account. -/
def endsFor (a : AccId) : Op → Bool
  | .undelegate d => decide (d = a)
  | .forceUndelegate _ ds => decide (a ∈ ds)
  | .forceUnstaking _ d => decide (d = a)
  | _ => false

/-! ### The loop -/

theorem minKey_none {key : AccId → Nat} {l : List AccId} (h : minKey key l = none) : l = [] := by
  cases l with
  | nil => rfl
  | cons a l =>
    simp only [minKey] at h
    split at h
    · cases h
    · split at h <;> cases h

theorem minKey_mem {key : AccId → Nat} {l : List AccId} : ∀ {a : AccId}, minKey key l = some a → a ∈ l ∧ ∀ b ∈ l, key a ≤ key b := by
  induction l with
  | nil => intro a h; cases h
  | cons x l ih =>
    intro a h
    simp only [minKey] at h
    split at h
    · rename_i hn
      cases h
      rw [minKey_none hn]
      simp
    · rename_i b hb
      obtain ⟨h1, h2⟩ := ih hb
      split at h
      · rename_i hle
        cases h
        refine ⟨by simp, fun y hy => ?_⟩
        rw [List.mem_cons] at hy
        rcases hy with rfl | hy
        · exact Nat.le_refl _
        · exact Nat.le_trans hle (h2 y hy)
      · rename_i hle
        cases h
        refine ⟨List.mem_cons_of_mem _ h1, fun y hy => ?_⟩
        rw [List.mem_cons] at hy
        rcases hy with rfl | hy
        · omega
        · exact h2 y hy

/-- Records from the cursor up to `a`. -/
def ahead (cfg : Cfg) (D : FMap AccId Delegator) (last : Option Nat) (a : AccId) : List AccId :=
  D.keys.filter fun x => behind last (cfg.key x) && decide (cfg.key x ≤ cfg.key a)

theorem mem_ahead {cfg : Cfg} {D : FMap AccId Delegator} {last : Option Nat} {a x : AccId} :
    x ∈ ahead cfg D last a ↔ (∃ d, D.get x = some d) ∧ behind last (cfg.key x) = true ∧ cfg.key x ≤ cfg.key a := by
  simp only [ahead, List.mem_filter, FMap.mem_keys_iff, Bool.and_eq_true, decide_eq_true_eq]

theorem ahead_nodup (cfg : Cfg) (D : FMap AccId Delegator) (last : Option Nat) (a : AccId) : (ahead cfg D last a).Nodup :=
  List.Nodup.filter _ D.nodup

theorem length_le {l l' : List AccId} (hn : l.Nodup) (h : ∀ x ∈ l, x ∈ l') : l.length ≤ l'.length :=
  (hn.subperm h).length_le

theorem payLoop_keeps (cfg : Cfg) (era : Nat) (reward : AccId → Nat → Nat → Option Balance) : ∀ (n : Nat) (l : Loop) (p : Payment),
    p ∈ l.paid → p ∈ (payLoop cfg era reward n l).paid := by
  intro n
  induction n with
  | zero => intro l p h; exact h
  | succ n ih =>
    intro l p h
    unfold payLoop
    split
    · exact h
    · split
      · exact h
      · simp only
        split
        · exact List.mem_append_left _ h
        · split
          · exact List.mem_append_left _ h
          · exact ih _ p (List.mem_append_left _ h)

theorem settle_others (s : State) (d : Delegator) (era : Nat) (x : AccId) (h : x ≠ d.who) :
    (settle s d era).delegators.get x = s.delegators.get x := by
  unfold settle
  split
  · exact FMap.get_insert_ne _ _ h
  · exact FMap.get_erase_ne _ h

theorem payDelegator_others (s : State) (d : Delegator) (era : Nat) (pool : Balance) (reward : AccId → Nat → Nat → Option Balance)
    (x : AccId) (h : x ≠ d.who) : (payDelegator s d era pool reward).1.delegators.get x = s.delegators.get x := by
  rcases payDelegator_cases s d era pool reward with ⟨_, e⟩ | ⟨_, t, ht, e, _⟩
  · rw [e]
  · rw [e, settle_others _ _ _ _ h, (graph_eq ht).1]

theorem payDelegator_who (s : State) (d : Delegator) (era : Nat) (pool : Balance) (reward : AccId → Nat → Nat → Option Balance)
    (hw : ∀ x y, s.delegators.get x = some y → y.who = x) (hd : s.delegators.get d.who = some d) :
    ∀ x y, (payDelegator s d era pool reward).1.delegators.get x = some y → y.who = x := by
  intro x y h
  by_cases hx : x = d.who
  · rcases payDelegator_cases s d era pool reward with ⟨_, e⟩ | ⟨_, t, ht, e, _⟩
    · rw [e] at h; exact hw x y h
    · rw [e] at h
      subst hx
      unfold settle at h
      rw [(graph_eq ht).1, hd] at h
      split at h
      · simp only [FMap.get_insert_self, Option.getD_some] at h
        cases h; rfl
      · simp only [FMap.get_erase_self] at h
        cases h
  · rw [payDelegator_others s d era pool reward x hx] at h
    exact hw x y h

/-- The loop pays `a`, or spends all its payments on records before `a`. -/
theorem payLoop_progress (cfg : Cfg) (hinj : Function.Injective cfg.key) (era : Nat) (reward : AccId → Nat → Nat → Option Balance)
    (a : AccId) (n : Nat) (hn : n ≠ era) : ∀ (m : Nat) (l : Loop) (d : Delegator),
    (∀ x y, l.s.delegators.get x = some y → y.who = x) → l.s.delegators.get a = some d → d.since = some n →
    behind l.last (cfg.key a) = true → (payLoop cfg era reward m l).pool ≠ 0 →
    let r := payLoop cfg era reward m l
    (∃ p ∈ r.paid, p.who = a ∧ p.first = n ∧ p.last = era - 1) ∨
    (r.full = l.full ∧ r.s.delegators.get a = some d ∧ behind r.last (cfg.key a) = true ∧
      (ahead cfg r.s.delegators r.last a).length + m ≤ (ahead cfg l.s.delegators l.last a).length) := by
  intro m
  induction m with
  | zero => intro l d _ hd _ hb _; exact .inr ⟨rfl, hd, hb, Nat.le_refl _⟩
  | succ m ih =>
    intro l d hw hd hs hb hp
    have ha : a ∈ l.s.delegators.keys.filter (fun x => behind l.last (cfg.key x)) := by
      rw [List.mem_filter, FMap.mem_keys_iff]; exact ⟨⟨d, hd⟩, hb⟩
    unfold payLoop at hp ⊢
    cases hnx : nextDelegator cfg l.s l.last with
    | none =>
      have := minKey_none (show minKey cfg.key (l.s.delegators.keys.filter (fun x => behind l.last (cfg.key x))) = none from hnx)
      rw [this] at ha; cases ha
    | some b =>
      obtain ⟨hbm, hmin⟩ := minKey_mem (show minKey cfg.key (l.s.delegators.keys.filter (fun x => behind l.last (cfg.key x))) = some b from hnx)
      rw [List.mem_filter, FMap.mem_keys_iff] at hbm
      obtain ⟨⟨e, he⟩, hbb⟩ := hbm
      have hba := hmin a ha
      have hew : e.who = b := hw b e he
      simp only [hnx, he] at hp ⊢
      split at hp
      · rename_i h0; exact absurd h0 hp
      rename_i h1
      rw [if_neg h1]
      split at hp
      · rename_i h0; exact absurd h0 hp
      rename_i h2
      rw [if_neg h2]
      have hdel : (payReferer (payDelegator l.s e era l.pool reward).1 e.who (payDelegator l.s e era l.pool reward).2.1
          (l.pool - (payDelegator l.s e era l.pool reward).2.1)).1.delegators = (payDelegator l.s e era l.pool reward).1.delegators :=
        (graph_eq (payReferer_graph _ _ _ _)).1
      by_cases hab : a = b
      · left
        subst hab
        rw [hd] at he
        cases he
        rcases payDelegator_cases l.s d era l.pool reward with ⟨hz, _⟩ | ⟨_, t, _, _, hpay⟩
        · rw [hs] at hz; exact absurd hz hn
        · rw [hs] at hpay
          exact ⟨_, payLoop_keeps cfg era reward m _ ⟨d.who, n, era - 1, reward d.who n (era - 1)⟩ (by rw [hpay]; simp), hew, rfl, rfl⟩
      · have hlt : cfg.key b < cfg.key a := Nat.lt_of_le_of_ne hba fun h => hab (hinj h).symm
        have hae : a ≠ e.who := by rw [hew]; exact hab
        have hd' := payDelegator_others l.s e era l.pool reward a hae
        have hw' := payDelegator_who l.s e era l.pool reward hw (by rw [hew]; exact he)
        have key := ih _ d (by rw [hdel]; exact hw') (by rw [hdel, hd']; exact hd) hs
          (show behind (some (cfg.key b)) (cfg.key a) = true by simpa [behind] using hlt) hp
        rcases key with h | ⟨k1, k2, k3, k4⟩
        · exact .inl h
        · refine .inr ⟨k1, k2, k3, ?_⟩
          simp only at k4 ⊢
          rw [hdel] at k4
          have hnd : (b :: ahead cfg (payDelegator l.s e era l.pool reward).1.delegators (some (cfg.key b)) a).Nodup := by
            rw [List.nodup_cons]
            refine ⟨fun hm => ?_, ahead_nodup _ _ _ _⟩
            rw [mem_ahead] at hm
            have := hm.2.1
            simp [behind] at this
          have := length_le (l' := ahead cfg l.s.delegators l.last a) hnd (by
            intro x hx
            rw [List.mem_cons] at hx
            rw [mem_ahead]
            rcases hx with rfl | hx
            · exact ⟨⟨e, he⟩, hbb, Nat.le_of_lt hlt⟩
            · rw [mem_ahead] at hx
              obtain ⟨⟨y, hy⟩, hx2, hx3⟩ := hx
              have hxb : cfg.key b < cfg.key x := by simpa [behind] using hx2
              have hne : x ≠ e.who := by rw [hew]; intro h; rw [h] at hxb; omega
              rw [payDelegator_others l.s e era l.pool reward x hne] at hy
              refine ⟨⟨y, hy⟩, ?_, hx3⟩
              unfold behind at hbb ⊢
              split
              · rfl
              · rename_i k hk
                simp only [hk, decide_eq_true_eq] at hbb ⊢
                omega)
          simp only [List.length_cons] at this
          omega

/-! ### Other calls -/

/-- Data of the loop. -/
def cursor (s : State) : Nat × Nat × Option Nat := (s.block, s.perBlock, s.lastKey)

/-- What calls other than blocks do. -/
structure PFrame (s s' : State) (a : AccId) (op : Op) : Prop where
  cursor : cursor s' = cursor s
  era : s.led.era.getD 0 ≤ s'.led.era.getD 0
  mark : ∀ d n, s.delegators.get a = some d → d.since = some n → ∃ d', s'.delegators.get a = some d' ∧ d'.since = some n
  stays : ∀ d, s.delegators.get a = some d → d.delegating = true → ∃ d', s'.delegators.get a = some d' ∧ d'.delegating = true
  keys : ∃ K : List AccId, K.length ≤ [op].countP isJoin ∧ ∀ x d, s'.delegators.get x = some d → x ∈ K ∨ ∃ d, s.delegators.get x = some d

theorem PFrame.same {s s' : State} {a : AccId} {op : Op} (h1 : Delegation.cursor s' = Delegation.cursor s)
    (h2 : s.led.era.getD 0 ≤ s'.led.era.getD 0) (h3 : s'.delegators = s.delegators) : PFrame s s' a op :=
  ⟨h1, h2, fun d n h4 h5 => ⟨d, by rw [h3]; exact h4, h5⟩, fun d h4 h5 => ⟨d, by rw [h3]; exact h4, h5⟩, [], Nat.zero_le _, fun x d h => .inr ⟨d, by rw [← h3]; exact h⟩⟩

theorem doDelegate_frame {cfg : Cfg} {s t : State} {d : AccId} {vs : List AccId} {p : Bool} (a : AccId) (op : Op) (hj : isJoin op = true)
    (h : doDelegate cfg s d vs p = .ok t) : PFrame s t a op := by
  unfold doDelegate at h
  split at h
  · cases h
  cases h
  have hK : [d].length ≤ [op].countP isJoin := by simp [hj]
  cases ho : s.delegators.get d with
  | none =>
    simp only [ho]
    refine ⟨rfl, Nat.le_refl _, fun x n h1 h2 => ?_, fun x h1 h2 => ?_, [d], hK, fun x y h => ?_⟩
    · have hne : a ≠ d := by intro e; rw [e, ho] at h1; cases h1
      exact ⟨x, by simp only [FMap.get_insert_ne _ _ hne]; exact h1, h2⟩
    · have hne : a ≠ d := by intro e; rw [e, ho] at h1; cases h1
      exact ⟨x, by simp only [FMap.get_insert_ne _ _ hne]; exact h1, h2⟩
    · by_cases hx : x = d
      · left; simp [hx]
      · right; simp only [FMap.get_insert_ne _ _ hx] at h; exact ⟨y, h⟩
  | some old =>
    simp only [ho]
    refine ⟨rfl, Nat.le_refl _, fun x n h1 h2 => ?_, fun x h1 h2 => ?_, [d], hK, fun x y h => ?_⟩
    · by_cases hne : a = d
      · subst hne
        rw [ho] at h1; cases h1
        exact ⟨_, FMap.get_insert_self _ _ _, by rw [h2]; rfl⟩
      · exact ⟨x, by simp only [FMap.get_insert_ne _ _ hne]; exact h1, h2⟩
    · by_cases hne : a = d
      · subst hne
        exact ⟨_, FMap.get_insert_self _ _ _, rfl⟩
      · exact ⟨x, by simp only [FMap.get_insert_ne _ _ hne]; exact h1, h2⟩
    · by_cases hx : x = d
      · left; simp [hx]
      · right; simp only [FMap.get_insert_ne _ _ hx] at h; exact ⟨y, h⟩

theorem undelegateOf_cursor (s : State) (d : AccId) : cursor (undelegateOf s d) = cursor s ∧ (undelegateOf s d).led = s.led := by
  unfold undelegateOf
  split
  · exact ⟨rfl, rfl⟩
  · split
    · exact ⟨rfl, rfl⟩
    · simp only
      split <;> exact ⟨rfl, rfl⟩

theorem undelegateOf_get (s : State) (d a : AccId) (h : a ≠ d) : (undelegateOf s d).delegators.get a = s.delegators.get a := by
  unfold undelegateOf
  split
  · rfl
  · split
    · rfl
    · simp only
      split
      · exact FMap.get_erase_ne _ h
      · exact FMap.get_insert_ne _ _ h

theorem undelegateOf_keys (s : State) (d x : AccId) {y : Delegator} (h : (undelegateOf s d).delegators.get x = some y) :
    ∃ y, s.delegators.get x = some y := by
  by_cases hx : x = d
  · subst hx
    cases ho : s.delegators.get x with
    | none =>
      unfold undelegateOf at h
      simp only [ho] at h
      cases h
    | some z => exact ⟨z, rfl⟩
  · rw [undelegateOf_get s d x hx] at h; exact ⟨y, h⟩

theorem undelegates_frame (a : AccId) (op : Op) (ds : List AccId) (ha : a ∉ ds) : ∀ s : State, PFrame s (ds.foldl undelegateOf s) a op := by
  induction ds with
  | nil => intro s; exact PFrame.same rfl (Nat.le_refl _) rfl
  | cons d ds ih =>
    intro s
    have hd : a ≠ d := fun h => ha (by simp [h])
    obtain ⟨h1, h2, h3, h6, K, h4, h5⟩ := ih (fun h => ha (List.mem_cons_of_mem _ h)) (undelegateOf s d)
    obtain ⟨c1, c2⟩ := undelegateOf_cursor s d
    refine ⟨h1.trans c1, by rw [← c2]; exact h2, fun x n k1 k2 => h3 x n ?_ k2, fun x k1 k2 => h6 x ?_ k2, K, h4, fun x y hx => ?_⟩
    · rw [undelegateOf_get s d a hd]; exact k1
    · rw [undelegateOf_get s d a hd]; exact k1
    · rcases h5 x y hx with h | ⟨z, hz⟩
      · exact .inl h
      · exact .inr (undelegateOf_keys s d x hz)

theorem payEachValidator_frame (cfg : Cfg) (p : Points) (v : Balance) (vs : List AccId) : ∀ (s : State) (t : Balance),
    cursor (payEachValidator cfg p v vs s t).1 = cursor s ∧ (payEachValidator cfg p v vs s t).1.led.era = s.led.era ∧
    (payEachValidator cfg p v vs s t).1.delegators = s.delegators := by
  induction vs with
  | nil => intro s t; exact ⟨rfl, rfl, rfl⟩
  | cons x vs ih =>
    intro s t
    unfold payEachValidator
    split
    · exact ih s t
    · obtain ⟨h1, h2, h3⟩ := ih { s with led := Ledger.payout cfg.led s.led x (validatorShare p v x) } (t + validatorShare p v x)
      refine ⟨h1, h2.trans ?_, h3⟩
      rcases Ledger.step_era_eq cfg.led s.led (.payout x (validatorShare p v x)) with h | h
      · cases h
      · exact h

theorem elect_cursor (s : State) (e : Nat) (o : List AccId) :
    cursor (elect s e o).1 = cursor s ∧ (elect s e o).1.led = s.led ∧ (elect s e o).1.delegators = s.delegators := by
  unfold elect
  simp only
  split <;> exact ⟨rfl, rfl, rfl⟩

theorem storeElected_cursor (s : State) (e : Nat) (o : Option (List AccId)) :
    cursor (storeElected s e o) = cursor s ∧ (storeElected s e o).led = s.led ∧ (storeElected s e o).delegators = s.delegators := by
  cases o <;> exact ⟨rfl, rfl, rfl⟩

theorem enterEra_cursor (s : State) (e : Nat) :
    cursor (enterEra s e) = cursor s ∧ (enterEra s e).led.era = some e ∧ (enterEra s e).delegators = s.delegators := by
  unfold enterEra
  simp only
  split <;> exact ⟨rfl, rfl, rfl⟩

theorem step_pframe (cfg : Cfg) (s : State) (a : AccId) (op : Op) (hb : isBlock op = false) (he : endsFor a op = false) :
    PFrame s (step cfg s op).1 a op := by
  unfold step
  split
  case h_2 => exact PFrame.same rfl (Nat.le_refl _) rfl
  case h_1 r hr =>
    cases op with
    | delegate d vs p =>
      obtain ⟨t, h, rfl⟩ := map_ok hr
      exact doDelegate_frame a _ rfl (delegate_do h)
    | delegateAny d o p =>
      obtain ⟨t, h, rfl⟩ := map_ok hr
      unfold delegateAny at h
      split at h
      · cases h
      · exact doDelegate_frame a _ rfl h
    | undelegate d =>
      obtain ⟨t, h, rfl⟩ := map_ok hr
      unfold undelegate at h
      split at h
      · cases h
      · cases h
        exact undelegates_frame a _ [d] (by simp only [endsFor, decide_eq_false_iff_not] at he; simpa using fun h => he h.symm) s
    | forceUndelegate k ds =>
      simp only [body] at hr
      split at hr
      · cases hr
      · cases hr
        exact undelegates_frame a _ ds (by simpa [endsFor] using he) s
    | forceUnstaking k d =>
      simp only [body] at hr
      split at hr
      · cases hr
      · cases hr
        exact undelegates_frame a _ [d] (by simp only [endsFor, decide_eq_false_iff_not] at he; simpa using fun h => he h.symm) s
    | setReferer k x y =>
      obtain ⟨t, h, rfl⟩ := map_ok hr
      unfold setReferer at h
      split at h; · cases h
      split at h; · cases h
      cases h; exact PFrame.same rfl (Nat.le_refl _) rfl
    | unsetReferer k x =>
      obtain ⟨t, h, rfl⟩ := map_ok hr
      unfold unsetReferer at h
      split at h; · cases h
      cases h; exact PFrame.same rfl (Nat.le_refl _) rfl
    | blackList k x e =>
      simp only [body] at hr
      split at hr
      · cases hr
      · cases hr; exact PFrame.same rfl (Nat.le_refl _) rfl
    | npowMint k t v =>
      obtain ⟨t, h, rfl⟩ := map_ok hr
      unfold npowMint at h
      split at h; · cases h
      split at h; · cases h
      cases h; exact PFrame.same rfl (Nat.le_refl _) rfl
    | compensate k l d r p =>
      obtain ⟨t, h, rfl⟩ := map_ok hr
      unfold compensate at h
      split at h; · cases h
      split at h; · cases h
      cases h; exact PFrame.same rfl (Nat.le_refl _) rfl
    | increasePool r v =>
      obtain ⟨t, h, rfl⟩ := map_ok hr
      unfold increasePool at h
      split at h; · cases h
      cases h; exact PFrame.same rfl (Nat.le_refl _) rfl
    | configure e c m w d => cases hr; exact PFrame.same rfl (Nat.le_refl _) rfl
    | block r => cases hb
    | endEra e =>
      cases hr
      unfold payValidators
      split
      · exact PFrame.same rfl (Nat.le_refl _) rfl
      · obtain ⟨h1, h2, h3⟩ := payEachValidator_frame cfg ((s.points.get e).getD ⟨0, ∅⟩) (min s.eraReward (poolOf cfg s))
          ((s.erasValidators.get e).getD []) s 0
        exact PFrame.same h1 (Nat.le_of_eq (by rw [← h2])) h3
    | newEra o =>
      cases hr
      obtain ⟨h1, h2, h3⟩ := enterEra_cursor s (nextEra s)
      obtain ⟨k1, k2, k3⟩ := elect_cursor (enterEra s (nextEra s)) (nextEra s) o
      obtain ⟨j1, j2, j3⟩ := storeElected_cursor (elect (enterEra s (nextEra s)) (nextEra s) o).1 (nextEra s)
        (elect (enterEra s (nextEra s)) (nextEra s) o).2
      refine PFrame.same (j1.trans (k1.trans h1)) ?_ (j3.trans (k3.trans h3))
      show s.led.era.getD 0 ≤ (storeElected (elect (enterEra s (nextEra s)) (nextEra s) o).1 (nextEra s)
        (elect (enterEra s (nextEra s)) (nextEra s) o).2).led.era.getD 0
      rw [j2, k2, h2]
      unfold nextEra
      cases s.led.era with
      | none => exact Nat.le_refl _
      | some e => exact Nat.le_succ e
    | addPoints e v n => cases hr; exact PFrame.same rfl (Nat.le_refl _) rfl
    | ledger op => cases hr; exact PFrame.same rfl (Ledger.step_era cfg.led s.led op) rfl

/-! ### Histories -/

theorem pool_head {cfg : Cfg} {s : State} {ops : List Op} (h : ∀ e ∈ (run cfg s ops).2, poolOf cfg e.1 ≠ 0)
    (h' : poolOf cfg (run cfg s ops).1 ≠ 0) : poolOf cfg s ≠ 0 := by
  cases ops with
  | nil => exact h'
  | cons op ops => exact h (s, op, (step cfg s op).2) (by simp [run])

/-- A block within an era. -/
theorem block_progress (cfg : Cfg) (hinj : Function.Injective cfg.key) (s : State) (r : AccId → Nat → Nat → Option Balance)
    (a : AccId) (d : Delegator) (n k : Nat) (hg : GInv s) (hd : s.delegators.get a = some d) (hs : d.since = some n) (hn : n < k)
    (hk : (s.block + 1) / cfg.blocksPerEra = k) (hm : (s.block + 1) % cfg.blocksPerEra ≠ 0) (he : s.led.era.getD 0 ≠ 0)
    (hb : behind s.lastKey (cfg.key a) = true) (hp : poolOf cfg s ≠ 0) (hp' : poolOf cfg (onBlock cfg s r).1 ≠ 0) :
    let q := onBlock cfg s r
    (∃ p ∈ q.2, p.who = a ∧ p.first = n ∧ p.last + 1 = k) ∨
    (q.1.delegators.get a = some d ∧ q.1.perBlock = s.perBlock ∧ q.1.led.era = s.led.era ∧
      behind q.1.lastKey (cfg.key a) = true ∧
      (ahead cfg q.1.delegators q.1.lastKey a).length + s.perBlock ≤ (ahead cfg s.delegators s.lastKey a).length) := by
  unfold onBlock at hp' ⊢
  simp only [he, if_false, hm] at hp' ⊢
  have hpz : poolOf cfg { s with block := s.block + 1 } ≠ 0 := hp
  unfold payDelegators at hp' ⊢
  rw [if_neg hpz] at hp' ⊢
  simp only at hp' ⊢
  have hera : creditEra cfg { s with block := s.block + 1 } = k := hk
  rw [hera] at hp' ⊢
  have hfix := payLoop_fixed cfg k r s.perBlock ⟨{ s with block := s.block + 1 }, poolOf cfg { s with block := s.block + 1 }, s.lastKey, true, []⟩
  have key := payLoop_progress cfg hinj k r a n (by omega) s.perBlock
    ⟨{ s with block := s.block + 1 }, poolOf cfg { s with block := s.block + 1 }, s.lastKey, true, []⟩ d hg.who hd hs hb hp'
  revert hfix key
  generalize payLoop cfg k r s.perBlock ⟨{ s with block := s.block + 1 }, poolOf cfg { s with block := s.block + 1 }, s.lastKey, true, []⟩ = L
  intro hfix key
  simp only [fixed, Prod.mk.injEq] at hfix
  rcases key with ⟨p, h1, h2, h3, h4⟩ | ⟨k1, k2, k3, k4⟩
  · exact .inl ⟨p, h1, h2, h3, by omega⟩
  · simp only at k1
    right
    simp only [k1, if_true]
    exact ⟨k2, hfix.2.1, hfix.2.2.2.1, k3, k4⟩

theorem run_progress (cfg : Cfg) (hN : 2 < cfg.blocksPerEra) (hinj : Function.Injective cfg.key) (a : AccId) (n k : Nat) (hn : n < k)
    (ops : List Op) : ∀ (s : State) (d : Delegator), GInv s → s.delegators.get a = some d → d.since = some n →
    k * cfg.blocksPerEra ≤ s.block → s.block + ops.countP isBlock < (k + 1) * cfg.blocksPerEra → s.led.era.getD 0 ≠ 0 →
    behind s.lastKey (cfg.key a) = true → (∀ e ∈ (run cfg s ops).2, poolOf cfg e.1 ≠ 0) → poolOf cfg (run cfg s ops).1 ≠ 0 →
    (∀ op ∈ ops, endsFor a op = false) →
    (ahead cfg s.delegators s.lastKey a).length + ops.countP isJoin ≤ s.perBlock * ops.countP isBlock →
    ∃ p ∈ paymentsOf (run cfg s ops).2, p.who = a ∧ p.first = n ∧ p.last + 1 = k := by
  induction ops with
  | nil =>
    intro s d _ hd _ _ _ _ hb _ _ _ hlen
    have : a ∈ ahead cfg s.delegators s.lastKey a := mem_ahead.2 ⟨⟨d, hd⟩, hb, Nat.le_refl _⟩
    have := List.length_pos_of_mem this
    simp only [List.countP_nil, Nat.mul_zero] at hlen
    omega
  | cons op ops ih =>
    intro s d hg hd hs h1 h2 he hb hp hp' hr hlen
    have hg' := inv_step cfg s op hg
    have hpt : ∀ e ∈ (run cfg (step cfg s op).1 ops).2, poolOf cfg e.1 ≠ 0 := fun e h => hp e (List.mem_cons_of_mem _ h)
    have hpe : poolOf cfg (run cfg (step cfg s op).1 ops).1 ≠ 0 := hp'
    have hrt : ∀ o ∈ ops, endsFor a o = false := fun o h => hr o (List.mem_cons_of_mem _ h)
    have lift : (∃ p ∈ paymentsOf (run cfg (step cfg s op).1 ops).2, p.who = a ∧ p.first = n ∧ p.last + 1 = k) →
        ∃ p ∈ paymentsOf (run cfg s (op :: ops)).2, p.who = a ∧ p.first = n ∧ p.last + 1 = k := by
      rintro ⟨p, h, h'⟩
      exact ⟨p, by simp only [run, paymentsOf, List.flatMap_cons]; exact List.mem_append_right _ h, h'⟩
    cases hop : isBlock op with
    | true =>
      obtain ⟨r, rfl⟩ : ∃ r, op = .block r := by
        cases op <;> first | exact ⟨_, rfl⟩ | cases hop
      have c1 : (Op.block r :: ops).countP isBlock = ops.countP isBlock + 1 := List.countP_cons_of_pos rfl
      have c2 : (Op.block r :: ops).countP isJoin = ops.countP isJoin := List.countP_cons_of_neg (by simp [isJoin])
      rw [c1] at h2 hlen
      rw [c2] at hlen
      have hdiv : (s.block + 1) / cfg.blocksPerEra = k := by
        rw [Nat.div_eq_iff (by omega)]
        rw [Nat.add_mul] at h2
        omega
      have hmod : (s.block + 1) % cfg.blocksPerEra ≠ 0 := by
        intro h0
        have := Nat.div_add_mod (s.block + 1) cfg.blocksPerEra
        rw [h0, hdiv, Nat.mul_comm] at this
        omega
      have hb1 := onBlock_block cfg s r
      rcases block_progress cfg hinj s r a d n k hg hd hs hn hdiv hmod he hb (pool_head hp hp') (pool_head hpt hpe) with
        ⟨p, h3, h4⟩ | ⟨k1, k2, k3, k4, k5⟩
      · exact ⟨p, by simp only [run, paymentsOf, List.flatMap_cons]; exact List.mem_append_left _ h3, h4⟩
      · refine lift (ih (onBlock cfg s r).1 d hg' k1 hs ?_ ?_ ?_ k4 hpt hpe hrt ?_)
        · rw [hb1]; omega
        · rw [hb1]; omega
        · rw [k3]; exact he
        · rw [k2]
          rw [Nat.mul_add] at hlen
          omega
    | false =>
      have c1 : (op :: ops).countP isBlock = ops.countP isBlock := List.countP_cons_of_neg (by simp [hop])
      have c2 : (op :: ops).countP isJoin = ops.countP isJoin + [op].countP isJoin := by
        simp only [List.countP_cons, List.countP_nil]; omega
      rw [c1] at h2 hlen
      rw [c2] at hlen
      obtain ⟨f1, f2, f3, _, K, f4, f5⟩ := step_pframe cfg s a op hop (hr op (by simp))
      simp only [cursor, Prod.mk.injEq] at f1
      obtain ⟨g1, g2, g3⟩ := f1
      obtain ⟨d', hd', hs'⟩ := f3 d n hd hs
      refine lift (ih (step cfg s op).1 d' hg' hd' hs' (by rw [g1]; exact h1) (by rw [g1]; exact h2) (by omega)
        (by rw [g3]; exact hb) hpt hpe hrt ?_)
      rw [g2, g3]
      have := length_le (l' := K ++ ahead cfg s.delegators s.lastKey a) (ahead_nodup cfg (step cfg s op).1.delegators s.lastKey a) (by
        intro x hx
        rw [mem_ahead] at hx
        obtain ⟨⟨y, hy⟩, hx2⟩ := hx
        rw [List.mem_append]
        rcases f5 x y hy with h | h
        · exact .inl h
        · exact .inr (mem_ahead.2 ⟨h, hx2⟩))
      rw [List.length_append] at this
      omega

/-- C92: consider the era that begins with the next block. A delegator with a record is paid for all its unpaid eras
in the course of this era, provided that the mining pool does not run dry, its delegation is not ended and not more
delegations are made than the era has blocks. -/
theorem C92_paid_in_every_era (cfg : Cfg) (hN : 2 < cfg.blocksPerEra) (hinj : Function.Injective cfg.key) (bank : Bank) (m : Balance)
    (before : List Op) (r : AccId → Nat → Nat → Option Balance) (ops : List Op) (a : AccId) (d : Delegator) (n k : Nat) :
    let s := (run cfg (genesis bank m) before).1
    let t := run cfg s (.block r :: ops)
    s.block + 1 = k * cfg.blocksPerEra → 0 < s.led.era.getD 0 →
    s.delegators.get a = some d → d.since = some n →
    ops.countP isBlock = cfg.blocksPerEra - 1 → ops.countP isJoin < cfg.blocksPerEra →
    (∀ op ∈ ops, endsFor a op = false) → (∀ e ∈ t.2, poolOf cfg e.1 ≠ 0) → poolOf cfg t.1 ≠ 0 →
    ∃ p ∈ paymentsOf t.2, p.who = a ∧ p.first = n ∧ p.last + 1 = k := by
  intro s t hk he hd hs hb hj hr hp hp'
  have hg : GInv s := run_inv (inv_step cfg) (inv_genesis bank m) before
  have hmk := (marks_run cfg (marks_genesis cfg bank m) before).mark a d hd
  have hn : n < k := by
    obtain ⟨x, h1, h2, _⟩ := hmk
    rw [hs] at h1; cases h1
    have : creditEra cfg s < k := by
      unfold creditEra
      rw [Nat.div_lt_iff_lt_mul (by omega)]
      omega
    exact Nat.lt_of_le_of_lt h2 this
  have hone : onBlock cfg s r = ({ s with block := s.block + 1, perBlock := (s.count + (cfg.blocksPerEra - 2) - 1) / (cfg.blocksPerEra - 2) + 1, lastKey := none }, []) := by
    unfold onBlock
    simp only
    rw [if_neg (by omega), if_pos (by rw [hk]; exact Nat.mul_mod_left _ _)]
  have hstep : (step cfg s (.block r)).1 = (onBlock cfg s r).1 := rfl
  have hg' : GInv (step cfg s (.block r)).1 := inv_step cfg s _ hg
  rw [hstep, hone] at hg'
  have ht : t = run cfg s (.block r :: ops) := rfl
  simp only [run] at ht
  rw [hstep, hone] at ht
  rw [ht] at hp hp' ⊢
  simp only at hp hp' ⊢
  have hblk : k * cfg.blocksPerEra + (cfg.blocksPerEra - 1) < (k + 1) * cfg.blocksPerEra := by
    rw [Nat.add_mul]; omega
  obtain ⟨p, h1, h2⟩ := run_progress cfg hN hinj a n k hn ops
    { s with block := s.block + 1, perBlock := (s.count + (cfg.blocksPerEra - 2) - 1) / (cfg.blocksPerEra - 2) + 1, lastKey := none }
    d hg' hd hs (by simp only; omega) (by simp only; omega) (by simp only; omega) rfl (fun e h => hp e (List.mem_cons_of_mem _ h)) hp' hr (by
      simp only
      have h3 : (ahead cfg s.delegators none a).length ≤ s.count := by
        rw [hg.count, sum_one]
        exact Nat.le_trans (List.length_filter_le _ _) (by simp [FMap.keys])
      rw [hb]
      have hq : s.count ≤ (s.count + (cfg.blocksPerEra - 2) - 1) / (cfg.blocksPerEra - 2) * (cfg.blocksPerEra - 2) := by
        have e1 := Nat.div_add_mod (s.count + (cfg.blocksPerEra - 2) - 1) (cfg.blocksPerEra - 2)
        have e2 := Nat.mod_lt (s.count + (cfg.blocksPerEra - 2) - 1) (y := cfg.blocksPerEra - 2) (by omega)
        rw [Nat.mul_comm] at e1
        omega
      have hq2 : (s.count + (cfg.blocksPerEra - 2) - 1) / (cfg.blocksPerEra - 2) * (cfg.blocksPerEra - 2) ≤
          (s.count + (cfg.blocksPerEra - 2) - 1) / (cfg.blocksPerEra - 2) * (cfg.blocksPerEra - 1) := Nat.mul_le_mul_left _ (by omega)
      rw [Nat.add_mul]
      omega)
  exact ⟨p, by simp only [paymentsOf, List.flatMap_cons]; exact List.mem_append_right _ h1, h2⟩

/-- In the example the hypotheses hold for the era that begins with block 8: 8 is paid for era 1 though 11 to 13 join. -/
example :
    let s := (run exCfg (genesis exBank 10) (exDelegate ++ List.replicate 3 (.block exReward))).1
    let ops : List Op := [.delegate 11 [1] true, .delegate 12 [1] true, .block exReward, .delegate 13 [2] true, .undelegate 9,
      .block exReward, .block exReward]
    let t := run exCfg s (.block exReward :: ops)
    s.block + 1 = 2 * exCfg.blocksPerEra ∧ 0 < s.led.era.getD 0 ∧ s.delegators.get 8 = some ⟨8, [2, 1], some 1, true⟩ ∧
    ops.countP isBlock = exCfg.blocksPerEra - 1 ∧ ops.countP isJoin = 3 ∧ (∀ op ∈ ops, endsFor 8 op = false) ∧
    (∀ e ∈ t.2, poolOf exCfg e.1 ≠ 0) ∧ paymentsOf t.2 = [⟨8, 1, 1, some 8⟩, ⟨9, 1, 1, some 9⟩] := by
  decide +kernel

end Verif.Delegation
