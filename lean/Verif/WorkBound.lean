import Verif.PayoutLiveness
import Verif.AdscProperties
import Verif.OperationLiveness
import Mathlib.Data.List.Induction

/-
Property C141: how many payments the hooks of one block make.
-/

namespace Verif.Delegation

open Verif

/-! ### Delegators -/

/-- Payments per block after a history: fixed in the first block of an era, from the number of delegators, so that all of
them fit into the blocks of the era except for two. -/
def quota (cfg : Cfg) (tr : List (State × Op × Out)) : Nat :=
  tr.foldl (fun n e => match e.2.1 with
    | .block _ =>
      if e.1.led.era.getD 0 ≠ 0 ∧ (e.1.block + 1) % cfg.blocksPerEra = 0 then
        (e.1.delegators.entries.length + (cfg.blocksPerEra - 2) - 1) / (cfg.blocksPerEra - 2) + 1
      else n
    | _ => n) 0

/-- Delegators between the cursors of two states. -/
def passed (cfg : Cfg) (s t : State) : List AccId :=
  s.delegators.keys.filter fun a => behind s.lastKey (cfg.key a) && !behind t.lastKey (cfg.key a)

theorem fresh (ds : List AccId) : ∃ a : AccId, ∀ x ∈ ds, x < a := by
  induction ds with
  | nil => exact ⟨0, fun x h => by cases h⟩
  | cons d ds ih =>
    obtain ⟨a, h⟩ := ih
    refine ⟨a + d + 1, fun x hx => ?_⟩
    rw [List.mem_cons] at hx
    rcases hx with rfl | hx
    · omega
    · have := h x hx; omega

theorem not_ended (op : Op) : ∃ a, endsFor a op = false := by
  cases op with
  | undelegate d => exact ⟨d + 1, by simp [endsFor]⟩
  | forceUnstaking k d => exact ⟨d + 1, by simp [endsFor]⟩
  | forceUndelegate r ds =>
    obtain ⟨a, h⟩ := fresh ds
    exact ⟨a, by simp only [endsFor, decide_eq_false_iff_not]; exact fun hm => Nat.lt_irrefl _ (h a hm)⟩
  | _ => exact ⟨0, rfl⟩

theorem perBlock_step (cfg : Cfg) (s : State) (op : Op) (hg : s.count = s.delegators.entries.length) :
    (step cfg s op).1.perBlock = match op with
    | .block _ =>
      if s.led.era.getD 0 ≠ 0 ∧ (s.block + 1) % cfg.blocksPerEra = 0 then
        (s.delegators.entries.length + (cfg.blocksPerEra - 2) - 1) / (cfg.blocksPerEra - 2) + 1
      else s.perBlock
    | _ => s.perBlock := by
  have other : isBlock op = false → (step cfg s op).1.perBlock = s.perBlock := by
    intro hb
    obtain ⟨a, ha⟩ := not_ended op
    have h := (step_pframe cfg s a op hb ha).cursor
    simp only [cursor, Prod.mk.injEq] at h
    exact h.2.1
  cases op with
  | block r =>
    show (onBlock cfg s r).1.perBlock = _
    unfold onBlock
    simp only
    by_cases h1 : s.led.era.getD 0 = 0
    · rw [if_pos h1, if_neg (fun h => h.1 h1)]
    rw [if_neg h1]
    by_cases h2 : (s.block + 1) % cfg.blocksPerEra = 0
    · rw [if_pos h2, if_pos ⟨h1, h2⟩, ← hg]
    rw [if_neg h2, if_neg (fun h => h2 h.2)]
    unfold payDelegators
    split
    · rfl
    · have := payLoop_fixed cfg (creditEra cfg { s with block := s.block + 1 }) r s.perBlock
        ⟨{ s with block := s.block + 1 }, poolOf cfg { s with block := s.block + 1 }, s.lastKey, true, []⟩
      simp only [fixed, Prod.mk.injEq] at this
      exact this.2.1
  | _ => exact other rfl

theorem perBlock_quota (cfg : Cfg) (bank : Bank) (m : Balance) (ops : List Op) :
    (run cfg (genesis bank m) ops).1.perBlock = quota cfg (run cfg (genesis bank m) ops).2 := by
  induction ops using List.reverseRecOn with
  | nil => rfl
  | append_singleton ops op ih =>
    have hc := (C43_graph cfg bank m ops).2.2.1
    rw [run_snoc]
    simp only
    rw [perBlock_step cfg _ op hc]
    unfold quota at ih ⊢
    rw [List.foldl_append]
    simp only [List.foldl_cons, List.foldl_nil]
    rw [← ih]

theorem toList_length {α : Type} (o : Option α) : o.toList.length ≤ 1 := by cases o <;> simp

/-- The loop makes at most the given number of payments and passes at most as many records. -/
theorem payLoop_bound (cfg : Cfg) (hinj : Function.Injective cfg.key) (era : Nat) (reward : AccId → Nat → Nat → Option Balance) :
    ∀ (n : Nat) (l : Loop), (∀ x y, l.s.delegators.get x = some y → y.who = x) →
    (payLoop cfg era reward n l).paid.length ≤ l.paid.length + n ∧
    (l.s.delegators.keys.filter fun a => behind l.last (cfg.key a) && !behind (payLoop cfg era reward n l).last (cfg.key a)).length ≤ n := by
  intro n
  have none_passed : ∀ (l : Loop), (l.s.delegators.keys.filter fun a => behind l.last (cfg.key a) && !behind l.last (cfg.key a)).length = 0 := by
    intro l
    rw [List.length_eq_zero_iff, List.filter_eq_nil_iff]
    intro a _
    cases behind l.last (cfg.key a) <;> simp
  induction n with
  | zero => intro l _; exact ⟨Nat.le_refl _, Nat.le_of_eq (none_passed l)⟩
  | succ n ih =>
    intro l hw
    unfold payLoop
    cases hnx : nextDelegator cfg l.s l.last with
    | none => exact ⟨Nat.le_add_right _ _, by simp only; rw [none_passed l]; exact Nat.zero_le _⟩
    | some b =>
      obtain ⟨hbm, hmin⟩ := minKey_mem (show minKey cfg.key (l.s.delegators.keys.filter (fun x => behind l.last (cfg.key x))) = some b from hnx)
      rw [List.mem_filter, FMap.mem_keys_iff] at hbm
      obtain ⟨⟨e, he⟩, hbb⟩ := hbm
      have hew : e.who = b := hw b e he
      simp only [he]
      have hpaid : (l.paid ++ (payDelegator l.s e era l.pool reward).2.2.toList).length ≤ l.paid.length + 1 := by
        rw [List.length_append]
        have := toList_length (payDelegator l.s e era l.pool reward).2.2
        omega
      split
      · exact ⟨by simp only; omega, by simp only; rw [none_passed l]; exact Nat.zero_le _⟩
      split
      · exact ⟨by simp only; omega, by simp only; rw [none_passed l]; exact Nat.zero_le _⟩
      have hdel : (payReferer (payDelegator l.s e era l.pool reward).1 e.who (payDelegator l.s e era l.pool reward).2.1
          (l.pool - (payDelegator l.s e era l.pool reward).2.1)).1.delegators = (payDelegator l.s e era l.pool reward).1.delegators :=
        (graph_eq (payReferer_graph _ _ _ _)).1
      have hw' := payDelegator_who l.s e era l.pool reward hw (by rw [hew]; exact he)
      generalize hl2 : (⟨(payReferer (payDelegator l.s e era l.pool reward).1 e.who (payDelegator l.s e era l.pool reward).2.1
          (l.pool - (payDelegator l.s e era l.pool reward).2.1)).1,
        l.pool - (payDelegator l.s e era l.pool reward).2.1 - (payReferer (payDelegator l.s e era l.pool reward).1 e.who
          (payDelegator l.s e era l.pool reward).2.1 (l.pool - (payDelegator l.s e era l.pool reward).2.1)).2,
        some (cfg.key b), l.full, l.paid ++ (payDelegator l.s e era l.pool reward).2.2.toList⟩ : Loop) = l2
      have e1 : l2.s.delegators = (payDelegator l.s e era l.pool reward).1.delegators := by rw [← hl2]; exact hdel
      have e2 : l2.last = some (cfg.key b) := by rw [← hl2]
      have e3 : l2.paid.length ≤ l.paid.length + 1 := by rw [← hl2]; exact hpaid
      obtain ⟨k1, k2⟩ := ih l2 (by rw [e1]; exact hw')
      generalize payLoop cfg era reward n l2 = r at k1 k2
      refine ⟨by omega, ?_⟩
      have hsub := length_le (l := l.s.delegators.keys.filter fun a => behind l.last (cfg.key a) && !behind r.last (cfg.key a))
        (l' := b :: l2.s.delegators.keys.filter fun a => behind l2.last (cfg.key a) && !behind r.last (cfg.key a))
        (List.Nodup.filter _ l.s.delegators.nodup) (by
          intro x hx
          rw [List.mem_filter, Bool.and_eq_true] at hx
          obtain ⟨x1, x2, x3⟩ := hx
          by_cases hxb : x = b
          · rw [hxb]; exact List.mem_cons_self
          refine List.mem_cons_of_mem _ (List.mem_filter.2 ⟨?_, ?_⟩)
          · rw [FMap.mem_keys_iff] at x1 ⊢
            rw [e1, payDelegator_others l.s e era l.pool reward x (by rw [hew]; exact hxb)]
            exact x1
          · rw [Bool.and_eq_true]
            refine ⟨?_, x3⟩
            have hle := hmin x (List.mem_filter.2 ⟨x1, x2⟩)
            rw [e2]
            simp only [behind, decide_eq_true_eq]
            exact Nat.lt_of_le_of_ne hle fun h => hxb (hinj h).symm)
      rw [List.length_cons] at hsub
      omega

/-- **C141** (delegators): in every block at most as many delegators are paid as were set at the begin of the era, and the
cursor passes at most as many records. -/
theorem C141_delegators (cfg : Cfg) (hinj : Function.Injective cfg.key) (bank : Bank) (m : Balance) (ops : List Op)
    (r : AccId → Nat → Nat → Option Balance) :
    let h := run cfg (genesis bank m) ops
    (onBlock cfg h.1 r).2.length ≤ quota cfg h.2 ∧ (passed cfg h.1 (onBlock cfg h.1 r).1).length ≤ quota cfg h.2 := by
  intro h
  have hg : GInv h.1 := run_inv (inv_step cfg) (inv_genesis bank m) ops
  have hq : h.1.perBlock = quota cfg h.2 := perBlock_quota cfg bank m ops
  rw [← hq]
  generalize h.1 = s at hg ⊢
  have nothing : ∀ t : State, (t.lastKey = s.lastKey ∨ t.lastKey = none) → (passed cfg s t).length = 0 := by
    intro t ht
    unfold passed
    rw [List.length_eq_zero_iff, List.filter_eq_nil_iff]
    intro a _
    rcases ht with ht | ht
    · rw [ht]; cases behind s.lastKey (cfg.key a) <;> simp
    · rw [ht]; simp [behind]
  unfold onBlock
  simp only
  split
  · exact ⟨Nat.zero_le _, Nat.le_trans (Nat.le_of_eq (nothing _ (.inl rfl))) (Nat.zero_le _)⟩
  split
  · exact ⟨Nat.zero_le _, Nat.le_trans (Nat.le_of_eq (nothing _ (.inr rfl))) (Nat.zero_le _)⟩
  unfold payDelegators
  split
  · exact ⟨Nat.zero_le _, Nat.le_trans (Nat.le_of_eq (nothing _ (.inl rfl))) (Nat.zero_le _)⟩
  have key := payLoop_bound cfg hinj (creditEra cfg { s with block := s.block + 1 }) r s.perBlock
    ⟨{ s with block := s.block + 1 }, poolOf cfg { s with block := s.block + 1 }, s.lastKey, true, []⟩ hg.who
  simp only at key ⊢
  generalize payLoop cfg (creditEra cfg { s with block := s.block + 1 }) r s.perBlock
    ⟨{ s with block := s.block + 1 }, poolOf cfg { s with block := s.block + 1 }, s.lastKey, true, []⟩ = L at key
  refine ⟨by simpa using key.1, ?_⟩
  cases hf : L.full with
  | false => exact Nat.le_trans (Nat.le_of_eq (nothing _ (.inl (by simp)))) (Nat.zero_le _)
  | true =>
    simp only [if_true]
    exact key.2

/-- Example: five delegators, eras of four blocks; the quota is four, and the second block of the era pays
four of them. -/
example :
    let ops := exDelegate ++ [.delegate 3 [1] true, .delegate 4 [1] true, .delegate 5 [2] true] ++ List.replicate 4 (.block exReward)
    let h := run exCfg (genesis exBank 10) ops
    Function.Injective exCfg.key ∧ h.1.delegators.entries.length = 5 ∧ quota exCfg h.2 = 4 ∧
    ((onBlock exCfg h.1 exReward).2.map Payment.who, passed exCfg h.1 (onBlock exCfg h.1 exReward).1) = ([3, 4, 5, 8], [8, 5, 4, 3]) := by
  refine ⟨fun a b h => h, ?_⟩
  decide +kernel

end Verif.Delegation

namespace Verif.Adsc

open Verif.UserPrivileges (Privilege)

/-! ### Stakers of ADSC -/

/-- Stakers per block after a history: fixed in the first block of a day, from the number of stakers. -/
def quota (tr : List (State × Op × Out)) : Nat :=
  tr.foldl (fun n e => match e.2.1 with
    | .init => if e.1.savedDay < e.1.today then e.1.stakers.entries.length / 17000 + 2 else n
    | _ => n) 2

theorem perBlock_step (cfg : Cfg) (s : State) (op : Op) :
    (step cfg s op).1.perBlock = match op with
    | .init => if s.savedDay < s.today then s.stakers.entries.length / 17000 + 2 else s.perBlock
    | _ => s.perBlock := by
  rcases step_shape cfg s op with ⟨h, hop, -⟩ | ⟨rfl, h⟩ | ⟨w, a, rfl, -, h⟩ | ⟨w, a, i, n, rfl, -, h⟩
  · have := h.perBlock
    cases op <;> first | exact this | exact absurd rfl hop
  · rw [h]
    simp only
    by_cases hd : s.savedDay < s.today
    · rw [if_pos hd, init_rollover cfg s hd]
    · rw [if_neg hd]
      unfold blockInit
      rw [if_neg hd]
      cases hc : s.cursor with
      | none => unfold reward; rw [hc]
      | some k =>
        obtain ⟨vis, hv⟩ := reward_rewarded cfg s k hc
        exact hv.perBlock
  · rw [h]
  · rw [h]

theorem run_snoc (cfg : Cfg) (s : State) (ops : List Op) (op : Op) :
    run cfg s (ops ++ [op]) = ((step cfg (run cfg s ops).1 op).1,
      (run cfg s ops).2 ++ [((run cfg s ops).1, op, (step cfg (run cfg s ops).1 op).2)]) := by
  induction ops generalizing s with
  | nil => rfl
  | cons o ops ih => simp only [List.cons_append, run, ih]

theorem perBlock_quota (cfg : Cfg) (bank : Bank) (asset : Asset) (base : Balance) (ops : List Op) :
    (run cfg (genesis cfg bank asset base) ops).1.perBlock = quota (run cfg (genesis cfg bank asset base) ops).2 ∧
    2 ≤ quota (run cfg (genesis cfg bank asset base) ops).2 := by
  induction ops using List.reverseRecOn with
  | nil => exact ⟨rfl, Nat.le_refl _⟩
  | append_singleton ops op ih =>
    rw [run_snoc]
    simp only
    rw [perBlock_step cfg _ op]
    obtain ⟨ih1, ih2⟩ := ih
    unfold quota at ih1 ih2 ⊢
    rw [List.foldl_append]
    simp only [List.foldl_cons, List.foldl_nil]
    rw [← ih1] at ih2 ⊢
    cases op <;> first | exact ⟨rfl, ih2⟩ | skip
    refine ⟨rfl, ?_⟩
    simp only
    split <;> omega

/-- **C141** (ADSC): in every block at most as many stakers who are online are treated as were set in the first block of the
day: no more rewards are paid, and no more of those who are to be treated are done. -/
theorem C141_stakers (cfg : Cfg) (hinj : Function.Injective cfg.key) (bank : Bank) (asset : Asset) (base : Balance) (ops : List Op) :
    let h := run cfg (genesis cfg bank asset base) ops
    (blockInit cfg h.1).2.length ≤ quota h.2 ∧
    (h.1.today ≤ h.1.savedDay → ((pending cfg h.1).filter fun a => decide (a ∉ pending cfg (blockInit cfg h.1).1)).length ≤ quota h.2) := by
  intro h
  obtain ⟨hq, h2⟩ := perBlock_quota cfg bank asset base ops
  rw [← hq] at h2 ⊢
  change 2 ≤ h.1.perBlock at h2
  change _ ≤ h.1.perBlock ∧ (_ → _ ≤ h.1.perBlock)
  generalize h.1 = s at h2 ⊢
  by_cases hd : s.savedDay < s.today
  · rw [init_rollover cfg s hd]
    exact ⟨Nat.zero_le _, fun h => absurd h (by omega)⟩
  unfold blockInit
  rw [if_neg hd]
  cases hc : s.cursor with
  | none =>
    unfold reward
    rw [hc]
    refine ⟨Nat.zero_le _, fun _ => ?_⟩
    have : pending cfg s = [] := by unfold pending; rw [hc]
    rw [this]
    exact Nat.zero_le _
  | some k =>
    obtain ⟨vis, hv⟩ := reward_rewarded cfg s k hc
    have hcnt := hv.bounded (by omega)
    refine ⟨?_, fun _ => ?_⟩
    · have := congrArg List.length hv.accs
      rw [List.length_map] at this
      rw [this]
      unfold paidOf
      rw [List.length_map]
      exact Nat.le_trans (List.length_filter_le _ _) hcnt
    · have hp := (pending_progress hinj hc hv).2
      have := Operation.length_le (l := (pending cfg s).filter fun a => decide (a ∉ pending cfg (reward cfg s).1)) (l' := vis.map Prod.fst)
        (List.Nodup.filter _ (pending_nodup cfg s)) (by
          intro a ha
          rw [List.mem_filter, decide_eq_true_eq] at ha
          refine Classical.byContradiction fun hn => ha.2 (hp a ha.1 hn).1)
      rw [List.length_map] at this
      omega

/-- Example: with three stakers the quota is two; two of three are treated in the first block after that of the new day. -/
example :
    let ops := [nextDay, .init, .addStaker 7 3, .addStaker 7 1, .addStaker 7 2, nextDay, .init]
    let h := run exCfg (genesis exCfg exBank exAsset 100) ops
    h.1.today ≤ h.1.savedDay ∧ quota h.2 = 2 ∧ (blockInit exCfg h.1).2.map Pay.acc = [1, 2] ∧
    pending exCfg (blockInit exCfg h.1).1 = [3] := by decide +kernel

/-- Stakers who are offline are not counted: if all that are left are offline, one block goes past all of them. -/
theorem C141_offline_passed (cfg : Cfg) (s : State) (hd : s.today ≤ s.savedDay) (ho : ∀ a, s.stakers.get a ≠ none → s.offline a = true) :
    (blockInit cfg s).1.cursor = none ∧ (blockInit cfg s).2 = [] := by
  unfold blockInit
  rw [if_neg (by omega)]
  cases hc : s.cursor with
  | none => unfold reward; rw [hc]; exact ⟨hc, rfl⟩
  | some k =>
    obtain ⟨vis, hv⟩ := reward_rewarded cfg s k hc
    have : vis = [] := by
      cases vis with
      | nil => rfl
      | cons e l =>
        have := hv.mem e.1 e.2 List.mem_cons_self
        rw [ho e.1 (by rw [this.1]; simp)] at this
        cases this.2.1
    subst this
    refine ⟨hv.cursor, ?_⟩
    have := hv.accs
    simpa [paidOf] using this

theorem run_add (cfg : Cfg) (w : AccId) (n : Nat) : ∀ s : State, s.priv w .creditAdmin = true →
    let t := (run cfg s ((List.range n).map fun a => .addStaker w a)).1
    t.cursor = s.cursor ∧ t.savedDay = s.savedDay ∧ t.now = s.now ∧ t.offline = s.offline ∧ t.priv = s.priv ∧
    ∀ a, t.stakers.get a ≠ none ↔ a < n ∨ s.stakers.get a ≠ none := by
  induction n with
  | zero => intro s _; exact ⟨rfl, rfl, rfl, rfl, rfl, fun a => by simp [run]⟩
  | succ n ih =>
    intro s hp
    obtain ⟨h1, h2, h3, h4, h5, h6⟩ := ih s hp
    rw [List.range_succ, List.map_append, List.map_singleton, run_snoc]
    generalize (run cfg s ((List.range n).map fun a => .addStaker w a)).1 = t at h1 h2 h3 h4 h5 h6
    have e : (step cfg t (.addStaker w n)).1 = { t with stakers := t.stakers.insert n t.period } := by
      simp only [step, body, addStaker, h5, hp, Bool.not_true, Bool.false_eq_true, if_false, Except.map]
    simp only
    rw [e]
    refine ⟨h1, h2, h3, h4, h5, fun a => ?_⟩
    simp only
    by_cases ha : a = n
    · rw [ha, FMap.get_insert_self]; simp
    · rw [FMap.get_insert_ne _ _ ha, h6 a]
      constructor
      · rintro (h | h)
        · exact .inl (by omega)
        · exact .inr h
      · rintro (h | h)
        · exact .inl (by omega)
        · exact .inr h

/-- **C141** (finding): the number of records a block reads is not bounded. For every `n` there is a history after which `n`
stakers are to be read, and the next block reads them all, though it pays nobody. -/
theorem C141_stakers_unbounded (n : Nat) : ∃ ops : List Op,
    let s := (run exCfg (genesis exCfg exBank exAsset 8) ops).1
    (∃ k, s.cursor = some k ∧ ∀ a < n, s.stakers.get a ≠ none ∧ k < exCfg.key a) ∧
    (blockInit exCfg s).1.cursor = none ∧ (blockInit exCfg s).2 = [] := by
  refine ⟨[nextDay, .init, .setOffline fun _ => true] ++ (List.range n).map fun a => .addStaker 7 a, ?_⟩
  have happ : ∀ (l l' : List Op) (s : State), (run exCfg s (l ++ l')).1 = (run exCfg (run exCfg s l).1 l').1 := by
    intro l
    induction l with
    | nil => intro l' s; rfl
    | cons o l ih => intro l' s; simp only [List.cons_append, run, ih]
  simp only
  rw [happ]
  generalize hs0 : (run exCfg (genesis exCfg exBank exAsset 8) [nextDay, .init, .setOffline fun _ => true]).1 = s0
  have p1 : s0.priv 7 .creditAdmin = true := by rw [← hs0]; decide +kernel
  have p2 : s0.cursor = some 0 := by rw [← hs0]; decide +kernel
  have p3 : s0.now / msPerDay ≤ s0.savedDay := by rw [← hs0]; decide +kernel
  have p4 : s0.offline = fun _ => true := by rw [← hs0]; rfl
  obtain ⟨h1, h2, h3, h4, h5, h6⟩ := run_add exCfg 7 n s0 p1
  generalize (run exCfg s0 ((List.range n).map fun a => .addStaker 7 a)).1 = s at h1 h2 h3 h4 h5 h6
  refine ⟨⟨0, by rw [h1, p2], fun a ha => ⟨(h6 a).2 (.inl ha), Nat.succ_pos a⟩⟩, ?_⟩
  refine C141_offline_passed exCfg s ?_ fun a _ => ?_
  · unfold State.today
    rw [h3, h2]; exact p3
  · rw [h4, p4]

end Verif.Adsc

namespace Verif.Operation

open Verif.UserPrivileges (Privilege)

/-! ### Scheduled releases -/

theorem scan_number (cfg : Cfg) (s : State) (day q : Nat) (todo : List (AccId × Info)) : ∀ (c : Scan),
    (∀ e ∈ todo, accrued day e.2 ≠ 0 → q ≤ accrued day e.2) → c.releases.length * q ≤ c.block →
    (c.releases.length = 0 ∨ c.block < s.singleMax ∧ (c.releases.length - 1) * q < s.singleMax) →
    (scan cfg s day todo c).releases.length = 0 ∨ ((scan cfg s day todo c).releases.length - 1) * q < s.singleMax := by
  induction todo with
  | nil =>
    intro c _ _ h
    simp only [scan]
    exact h.imp id fun h => h.2
  | cons x xs ih =>
    intro c hq h1 h2
    obtain ⟨a, i⟩ := x
    simp only [scan]
    split
    · exact ih c (fun e he => hq e (List.mem_cons_of_mem _ he)) h1 h2
    rename_i h0
    split
    · exact h2.imp id fun h => h.2
    rename_i hs
    have hv : q ≤ accrued day i := hq (a, i) List.mem_cons_self h0
    have hb : (release day c a i).block = c.block + accrued day i := rfl
    have hl : (release day c a i).releases.length = c.releases.length + 1 := by simp [release]
    have hnew : c.releases.length * q < s.singleMax := by
      rcases h2 with h2 | h2
      · rw [h2, Nat.zero_mul]; omega
      · omega
    have hd : ((release day c a i).releases.length - 1) * q < s.singleMax := by rw [hl, Nat.add_sub_cancel]; exact hnew
    split
    · exact .inr hd
    split
    · exact .inr hd
    rename_i hm
    refine ih _ (fun e he => hq e (List.mem_cons_of_mem _ he)) ?_ (.inr ⟨by omega, hd⟩)
    rw [hl, hb, Nat.add_mul]
    omega

/-- **C141** (releases): all releases of a block but the last one are together less than the maximum for a single release:
if every amount that is due is at least `q`, their number is at most the maximum divided by `q`, rounded up. -/
theorem C141_releases (cfg : Cfg) (s : State) (q : Nat)
    (hq : ∀ a i, s.infos.get a = some i → accrued s.today i ≠ 0 → q ≤ accrued s.today i) :
    (finalize cfg s).2 = [] ∨ ((finalize cfg s).2.length - 1) * q < s.singleMax := by
  unfold finalize
  split
  · exact .inl rfl
  unfold releaseStaking
  split
  · exact .inl rfl
  simp only
  rw [← List.length_eq_zero_iff]
  refine scan_number cfg s s.today q _ _ ?_ (Nat.le_of_eq (Nat.zero_mul q)) (.inl rfl)
  intro e he
  have h1 := (sortByKey_perm cfg.key s.infos.entries).mem_iff.1 (List.mem_filter.1 he).1
  exact hq e.1 e.2 ((FMap.mem_entries_iff _ _ _).1 h1)

/-- Example: four schedules of 30 a day and a maximum of 65 for a single release: three releases in the first block, one in
the second. -/
example :
    let ops := [nextDay exBank, .finalize] ++ [1, 2, 3, 4].map (fun a => .unstakingRelease 7 a 3 86400000 90) ++ [nextDay exBank, .finalize]
    let s := (run exCfg (genesis exBank 1000 65) ops).1
    (∀ e ∈ s.infos.entries, 30 ≤ accrued s.today e.2) ∧ (finalize exCfg s).2.map Release.amount = [30, 30, 30] ∧
    (finalize exCfg (finalize exCfg s).1).2.map Release.amount = [30] := by decide +kernel

theorem scan_nothing (cfg : Cfg) (s : State) (day : Nat) (todo : List (AccId × Info)) (h : ∀ e ∈ todo, accrued day e.2 = 0) (c : Scan) :
    scan cfg s day todo c = { c with dayEnd := true } := by
  induction todo with
  | nil => rfl
  | cons x xs ih =>
    obtain ⟨a, i⟩ := x
    simp only [scan]
    rw [if_pos (h (a, i) List.mem_cons_self)]
    exact ih fun e he => h e (List.mem_cons_of_mem _ he)

/-- Schedules of which nothing is due are not counted: if nothing is due, one block goes through all of them. -/
theorem C141_idle_passed (cfg : Cfg) (s : State) (hd : s.today ≤ s.savedDay)
    (ho : ∀ a i, s.infos.get a = some i → accrued s.today i = 0) :
    (finalize cfg s).1.dayEnd = true ∧ (finalize cfg s).2 = [] := by
  unfold finalize
  rw [if_neg (by omega)]
  unfold releaseStaking
  split
  · rename_i h; exact ⟨h, rfl⟩
  simp only
  rw [scan_nothing cfg s s.today _ (fun e he => ?_)]
  · exact ⟨rfl, rfl⟩
  · have h1 := (sortByKey_perm cfg.key s.infos.entries).mem_iff.1 (List.mem_filter.1 he).1
    exact ho e.1 e.2 ((FMap.mem_entries_iff _ _ _).1 h1)

theorem run_app (cfg : Cfg) (l l' : List Op) (s : State) : (run cfg s (l ++ l')).1 = (run cfg (run cfg s l).1 l').1 := by
  induction l generalizing s with
  | nil => rfl
  | cons o l ih => simp only [List.cons_append, run, ih]

theorem run_schedule (cfg : Cfg) (w : AccId) (n : Nat) : ∀ s : State, s.priv w .releaseSetter = true → 5 ≤ s.singleMax →
    (∀ a, s.slashOk a = true) → s.infos = ∅ →
    let t := (run cfg s ((List.range n).map fun a => .unstakingRelease w a 1 (2 * 86400000) 5)).1
    t.lastKey = s.lastKey ∧ t.savedDay = s.savedDay ∧ t.now = s.now ∧ t.dayEnd = s.dayEnd ∧ t.priv = s.priv ∧
    t.singleMax = s.singleMax ∧ (∀ a, t.slashOk a = true) ∧ t.dailyMax = s.dailyMax ∧ t.daily = s.daily ∧
    ∀ a, t.infos.get a = if a < n then some ⟨1, 5, 2, 2, 5⟩ else none := by
  induction n with
  | zero => intro s _ _ hk he; exact ⟨rfl, rfl, rfl, rfl, rfl, rfl, hk, rfl, rfl, fun a => by simp [run, he]⟩
  | succ n ih =>
    intro s hp hm hk he
    obtain ⟨h1, h2, h3, h4, h5, h6, h7, h8, h9, h10⟩ := ih s hp hm hk he
    rw [List.range_succ, List.map_append, List.map_singleton, run_app]
    generalize (run cfg s ((List.range n).map fun a => .unstakingRelease w a 1 (2 * 86400000) 5)).1 = t at h1 h2 h3 h4 h5 h6 h7 h8 h9 h10
    have e : (run cfg t [.unstakingRelease w n 1 (2 * 86400000) 5]).1 = { t with infos := t.infos.insert n ⟨1, 5, 2, 2, 5⟩ } := by
      have hlt : ¬ t.singleMax < 5 := by omega
      simp [run, step, body, unstakingRelease, h5, hp, h7, hlt, msPerDay, Except.map]
    rw [e]
    refine ⟨h1, h2, h3, h4, h5, h6, h7, h8, h9, fun a => ?_⟩
    simp only
    by_cases ha : a = n
    · rw [ha, FMap.get_insert_self, if_pos (by omega)]
    · rw [FMap.get_insert_ne _ _ ha, h10 a]
      by_cases hlt : a < n
      · rw [if_pos hlt, if_pos (by omega)]
      · rw [if_neg hlt, if_neg (by omega)]

/-- **C141** (finding): for every `n` there is a history after which `n` schedules are to be read, and the next block reads
them all, though nothing is released: the day is closed, while the daily maximum is not reached. -/
theorem C141_releases_unbounded (n : Nat) : ∃ ops : List Op,
    let s := (run exCfg (genesis exBank 1000 100) ops).1
    (∀ a < n, s.infos.get a ≠ none ∧ s.lastKey < exCfg.key a) ∧ s.dayEnd = false ∧
    (finalize exCfg s).1.dayEnd = true ∧ (finalize exCfg s).2 = [] ∧ (s.daily.get s.today).getD 0 < s.dailyMax := by
  refine ⟨[nextDay exBank, .finalize] ++ (List.range n).map fun a => .unstakingRelease 7 a 1 (2 * 86400000) 5, ?_⟩
  simp only
  rw [run_app]
  generalize hs0 : (run exCfg (genesis exBank 1000 100) [nextDay exBank, .finalize]).1 = s0
  have p1 : s0.priv 7 .releaseSetter = true := by rw [← hs0]; decide +kernel
  have p2 : s0.lastKey = 0 ∧ s0.dayEnd = false ∧ s0.now / msPerDay = 1 ∧ s0.savedDay = 1 ∧ 5 ≤ s0.singleMax := by rw [← hs0]; decide +kernel
  have p3 : ∀ a, s0.slashOk a = true := by rw [← hs0]; intro a; rfl
  have p4 : s0.infos = ∅ := by rw [← hs0]; rfl
  have p5 : (s0.daily.get 1).getD 0 < s0.dailyMax := by rw [← hs0]; decide +kernel
  obtain ⟨h1, h2, h3, h4, h5, h6, h7, h8, h9, h10⟩ := run_schedule exCfg 7 n s0 p1 p2.2.2.2.2 p3 p4
  generalize (run exCfg s0 ((List.range n).map fun a => .unstakingRelease 7 a 1 (2 * 86400000) 5)).1 = s at h1 h2 h3 h4 h5 h6 h7 h8 h9 h10
  have ht : s.today = 1 := by unfold State.today; rw [h3]; exact p2.2.2.1
  have hi := C141_idle_passed exCfg s (by rw [ht, h2, p2.2.2.2.1]; exact Nat.le_refl _) (fun a i hi => by
    rw [h10] at hi
    split at hi
    · cases hi; rw [ht]; rfl
    · cases hi)
  refine ⟨fun a ha => ⟨by rw [h10, if_pos ha]; simp, by rw [h1, p2.1]; exact Nat.succ_pos a⟩, by rw [h4]; exact p2.2.1, hi.1, hi.2, ?_⟩
  rw [ht, h9, h8]
  exact p5

end Verif.Operation
