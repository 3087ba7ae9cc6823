import Verif.TipsLaw
import Verif.CouncilProperties

/-!
# Tips decided by the elected council

The tip pallet asks the election pallet who may declare amounts (`type Tippers = Elections`,
runtime/src/lib.rs:903; pallets/elections-phragmen/src/lib.rs:1204-1217, 912-917). In the models of the two
pallets the other one is arbitrary; here they run together, on one set of balances.

Simplifications: those of Verif/Tips.lean and Verif/Council.lean; the start of a block is one operation (the
election pallet looks for the end of the term, the block number of the tip pallet grows by one).
-/

namespace Verif.TipsCouncil

open Verif

structure Cfg where
  council : Council.Cfg
  tips : Tips.Cfg

structure State where
  council : Council.State
  tips : Tips.State

/-- `sorted_members`, pallets/elections-phragmen/src/lib.rs:1215-1217, and `members_ids`, 912-917; `contains`,
1205-1207 and 1211-1213, is membership in this list (`is_member`, 902-904). -/
def elected (s : Council.State) : List AccId := s.members.map Council.Seat.who

/-- Everything that happens: the start of a block with the result of an election, should there be one; calls of
the two pallets and changes of balances and locks (`Council.Op.external`). -/
inductive Op where
  | block (res : Option (List (AccId × Nat)))
  | council (op : Council.Op)
  | tips (op : Tips.Op)

inductive Out where
  | council (o : Council.Out)
  | tips (o : Tips.Out)
  /-- not an operation of the chain -/
  | none
deriving DecidableEq, Repr

/-- The start of a block is `Op.block`. -/
def isBlock : Council.Op → Bool
  | .block _ _ => true
  | _ => false

/-- What the tip pallet sees of the rest of the chain. -/
def isOutside : Tips.Op → Bool
  | .external _ _ _ => true
  | _ => false

/-- After an operation of the elections the tip pallet sees the new members, balances and block number. -/
def look (cfg : Cfg) (s : State) (n : Nat) (r : Council.State × Council.Out) : State × Out :=
  (⟨r.1, (Tips.step cfg.tips s.tips (.external n r.1.bank (elected r.1))).1⟩, .council r.2)

/-- One operation. The tip pallet does not touch locks. -/
def step (cfg : Cfg) (s : State) : Op → State × Out
  | .block res => look cfg s 1 (Council.step cfg.council s.council (.block (s.tips.block + 1) res))
  | .council op =>
    if isBlock op then (s, .none) else look cfg s 0 (Council.step cfg.council s.council op)
  | .tips op =>
    if isOutside op then (s, .none)
    else
      let r := Tips.step cfg.tips s.tips op
      (⟨{ s.council with bank := r.1.bank }, r.1⟩, .tips r.2)

/-- A history with its trace: state before, operation, outcome. -/
def run (cfg : Cfg) (s : State) : List Op → State × List (State × Op × Out)
  | [] => (s, [])
  | op :: ops =>
    let r := step cfg s op
    let t := run cfg r.1 ops
    (t.1, (s, op, r.2) :: t.2)

/-- Start of the chain: the members of the genesis, no tips. -/
def genesis (cfg : Cfg) (b : Bank) (other : AccId → Balance) (ms : List (AccId × Balance)) : Option State :=
  (Council.genesis cfg.council b other ms).map fun c => ⟨c, Tips.genesis c.bank (elected c)⟩

/-! ### The history as the tip pallet sees it -/

/-- The operations of a history as the tip pallet sees them: its calls, and what the others have changed. -/
def seen (cfg : Cfg) (s : State) : List Op → List Tips.Op
  | [] => []
  | op :: ops =>
    let s' := (step cfg s op).1
    (match op with
      | .block _ => [.external 1 s'.council.bank (elected s'.council)]
      | .council c => if isBlock c then [] else [.external 0 s'.council.bank (elected s'.council)]
      | .tips t => if isOutside t then [] else [t]) ++ seen cfg s' ops

/-- What the history says about the tip with key `h`. -/
def told (cfg : Cfg) (s0 : State) (ops : List Op) (h : Nat) : Option Tips.Track :=
  Tips.track cfg.tips h (Tips.run cfg.tips s0.tips (seen cfg s0 ops)).2

theorem tips_members (cfg : Tips.Cfg) (s : Tips.State) (op : Tips.Op) (h : isOutside op = false) :
    (Tips.step cfg s op).1.members = s.members ∧ (Tips.step cfg s op).1.block = s.block := by
  rcases Tips.step_shape cfg s op with ⟨e, hst⟩ | ⟨n, b, m, rfl, hst⟩ | ⟨a, rfl, hst⟩ |
    ⟨f, r, w, b, rfl, hr, _, _, _, hst⟩ | ⟨a, r, w, v, rfl, _, hr, hst⟩ | ⟨a, r, w, v, rfl, _, hr, hst⟩ |
    ⟨a, h', v, t, rfl, _, ht, hst⟩ | ⟨a, h', v, t, rfl, _, ht, hst⟩ | ⟨h', t, b, o', ht, hst, hcase⟩
  · rw [hst]; exact ⟨rfl, rfl⟩
  · cases h
  all_goals (rw [hst]; exact ⟨rfl, rfl⟩)

/-- The tip pallet knows the elected members and the balances. -/
structure Joined (cfg : Cfg) (s : State) : Prop where
  lists : Council.Lists cfg.council s.council
  members : s.tips.members = elected s.council
  bank : s.tips.bank = s.council.bank

theorem lists_bank {cfg : Council.Cfg} {s : Council.State} (h : Council.Lists cfg s) (b : Bank) :
    Council.Lists cfg { s with bank := b } :=
  ⟨h.membersSorted, h.candidatesSorted, h.nodup, h.members, h.runnersUp, h.candidates⟩

theorem joined_step {cfg : Cfg} {s : State} (h : Joined cfg s) (op : Op) : Joined cfg (step cfg s op).1 := by
  have hc : ∀ o, Council.Lists cfg.council (Council.step cfg.council s.council o).1 := fun o =>
    Council.run_lists h.lists [o]
  cases op with
  | block res => exact ⟨hc _, rfl, rfl⟩
  | council o =>
    unfold step; dsimp only
    split
    · exact h
    · exact ⟨hc _, rfl, rfl⟩
  | tips o =>
    unfold step; dsimp only
    split
    · exact h
    · rename_i ho
      refine ⟨lists_bank h.lists _, ?_, rfl⟩
      exact ((tips_members _ _ _ (by simpa using ho)).1.trans h.members)

theorem joined_run {cfg : Cfg} (ops : List Op) : ∀ {s : State}, Joined cfg s → Joined cfg (run cfg s ops).1 := by
  induction ops with
  | nil => intro s h; exact h
  | cons op ops ih => intro s h; exact ih (joined_step h op)

theorem joined_genesis {cfg : Cfg} {b : Bank} {other : AccId → Balance} {ms : List (AccId × Balance)} {s0 : State}
    (h : genesis cfg b other ms = some s0) :
    Joined cfg s0 ∧ s0.tips = Tips.genesis s0.council.bank (elected s0.council) := by
  unfold genesis at h
  rw [Option.map_eq_some_iff] at h
  obtain ⟨c, hc, rfl⟩ := h
  exact ⟨⟨(Council.genesis_lists hc).1, rfl, rfl⟩, rfl⟩

theorem tips_run_append (cfg : Tips.Cfg) (ops ops' : List Tips.Op) : ∀ s, Tips.run cfg s (ops ++ ops') =
    ((Tips.run cfg (Tips.run cfg s ops).1 ops').1,
      (Tips.run cfg s ops).2 ++ (Tips.run cfg (Tips.run cfg s ops).1 ops').2) := by
  induction ops with
  | nil => intro s; rfl
  | cons op ops ih =>
    intro s
    simp only [List.cons_append, Tips.run, ih]

theorem seen_run (cfg : Cfg) (ops : List Op) : ∀ s, Joined cfg s →
    (Tips.run cfg.tips s.tips (seen cfg s ops)).1 = (run cfg s ops).1.tips ∧
    (∀ n b m, Tips.Op.external n b m ∈ seen cfg s ops → m.Pairwise (· < ·)) := by
  induction ops with
  | nil => intro s _; exact ⟨rfl, fun n b m h => by cases h⟩
  | cons op ops ih =>
    intro s hs
    have hj := joined_step hs op
    obtain ⟨i1, i2⟩ := ih _ hj
    have hel : (elected (step cfg s op).1.council).Pairwise (· < ·) := hj.lists.membersSorted
    cases op with
    | block res =>
      refine ⟨?_, ?_⟩
      · simp only [seen, List.cons_append, List.nil_append, Tips.run, run]
        exact i1
      · intro n b m hm
        simp only [seen, List.cons_append, List.nil_append, List.mem_cons] at hm
        rcases hm with hm | hm
        · cases hm; exact hel
        · exact i2 n b m hm
    | council o =>
      cases ho : isBlock o with
      | true =>
        have e : (step cfg s (.council o)).1 = s := by simp [step, ho]
        simp only [seen, ho, if_true, List.nil_append, run]
        exact ⟨by rw [← i1, e], i2⟩
      | false =>
        refine ⟨?_, ?_⟩
        · simp only [seen, ho, Bool.false_eq_true, if_false, List.cons_append, List.nil_append, Tips.run, run]
          rw [← i1]
          simp only [step, ho, Bool.false_eq_true, if_false, look]
        · intro n b m hm
          simp only [seen, ho, Bool.false_eq_true, if_false, List.cons_append, List.nil_append, List.mem_cons] at hm
          rcases hm with hm | hm
          · cases hm; exact hel
          · exact i2 n b m hm
    | tips o =>
      cases ho : isOutside o with
      | true =>
        have e : (step cfg s (.tips o)).1 = s := by simp [step, ho]
        simp only [seen, ho, if_true, List.nil_append, run]
        exact ⟨by rw [← i1, e], i2⟩
      | false =>
        refine ⟨?_, ?_⟩
        · simp only [seen, ho, Bool.false_eq_true, if_false, List.cons_append, List.nil_append, Tips.run, run]
          rw [← i1]
          simp only [step, ho, Bool.false_eq_true, if_false]
        · intro n b m hm
          simp only [seen, ho, Bool.false_eq_true, if_false, List.cons_append, List.nil_append, List.mem_cons] at hm
          rcases hm with hm | hm
          · rw [← hm] at ho; cases ho
          · exact i2 n b m hm

/-! ### C137 -/

/-- Who may decide on tips: after every history exactly the elected members; there are never more than seats, and
no one is listed twice. The calls of the tip pallet are performed as they are, in order, and the rest of the
history reaches it only as changes of the members, balances and the block number. -/
theorem C137_tippers {cfg : Cfg} {b : Bank} {other : AccId → Balance} {ms : List (AccId × Balance)} {s0 : State}
    (h0 : genesis cfg b other ms = some s0) (ops : List Op) :
    (run cfg s0 ops).1.tips.members = elected (run cfg s0 ops).1.council ∧
    (elected (run cfg s0 ops).1.council).Nodup ∧
    (elected (run cfg s0 ops).1.council).length ≤ cfg.council.desiredMembers ∧
    (run cfg s0 ops).1.tips = (Tips.run cfg.tips s0.tips (seen cfg s0 ops)).1 ∧
    (seen cfg s0 ops).filter (fun o => !isOutside o) =
      ops.filterMap (fun o => match o with | .tips t => if isOutside t then none else some t | _ => none) := by
  obtain ⟨hj, -⟩ := joined_genesis h0
  have h := joined_run ops hj
  refine ⟨h.members, h.lists.membersSorted.imp (fun h => Nat.ne_of_lt h), ?_, (seen_run cfg ops _ hj).1.symm, ?_⟩
  · unfold elected; rw [List.length_map]; exact h.lists.members
  · clear h hj h0
    induction ops generalizing s0 with
    | nil => rfl
    | cons op ops ih =>
      cases op with
      | block res => simp only [seen, List.cons_append, List.nil_append, List.filter, isOutside, Bool.not_true,
          List.filterMap_cons]; exact ih
      | council o =>
        simp only [seen, List.filterMap_cons]
        split
        · exact ih
        · simp only [List.cons_append, List.nil_append, List.filter, isOutside, Bool.not_true]; exact ih
      | tips o =>
        simp only [seen, List.filterMap_cons]
        cases ho : isOutside o with
        | true => simp only [if_true, List.nil_append]; exact ih
        | false =>
          simp only [Bool.false_eq_true, if_false, List.cons_append, List.nil_append, List.filter, ho, Bool.not_false]
          rw [ih]

/-- Declarations of amounts are accepted from the elected members and nobody else: for a tip that is open, or for
a reason for which none is open. -/
theorem C137_declare {cfg : Cfg} {b : Bank} {other : AccId → Balance} {ms : List (AccId × Balance)} {s0 : State}
    (h0 : genesis cfg b other ms = some s0) (ops : List Op) (a : AccId) :
    let s := (run cfg s0 ops).1
    (∀ h v, (step cfg s (.tips (.tip a h v))).2 = .tips .done ↔
      a ∈ elected s.council ∧ (told cfg s0 ops h).isSome) ∧
    (∀ h v, (step cfg s (.tips (.creditTip a h v))).2 = .tips .done ↔
      a ∈ elected s.council ∧ (told cfg s0 ops h).isSome) ∧
    (∀ r w v, (step cfg s (.tips (.tipNew a r w v))).2 = .tips .done → a ∈ elected s.council) ∧
    (∀ r w v, (step cfg s (.tips (.creditNew a r w v))).2 = .tips .done → a ∈ elected s.council) := by
  intro s
  obtain ⟨hj, hg⟩ := joined_genesis h0
  have hm : s.tips.members = elected s.council := (joined_run ops hj).members
  obtain ⟨r1, r2⟩ := seen_run cfg ops s0 hj
  have hag : ∀ h, (s.tips.open_.get h).isSome = (told cfg s0 ops h).isSome := by
    intro h
    have hh := (Tips.stored_agrees cfg.tips s0.council.bank (elected s0.council) (seen cfg s0 ops)
      ⟨hj.lists.membersSorted, r2⟩ h).1
    rw [← hg, r1] at hh
    unfold told
    change Tips.AgreeOpt cfg.tips (s.tips.open_.get h) _ at hh
    revert hh
    cases s.tips.open_.get h <;> cases Tips.track cfg.tips h (Tips.run cfg.tips s0.tips (seen cfg s0 ops)).2 <;>
      intro hh <;> first | rfl | exact hh.elim
  refine ⟨?_, ?_, ?_, ?_⟩
  · intro h v
    rw [← hm, ← hag]
    simp only [step, isOutside, Bool.false_eq_true, if_false, Tips.step, Tips.body, Tips.tip]
    by_cases ha : a ∈ s.tips.members
    · rw [if_neg (not_not_intro ha)]
      cases hh : s.tips.open_.get h <;> simp [ha, Except.map]
    · rw [if_pos ha]; simp [ha, Except.map]
  · intro h v
    rw [← hm, ← hag]
    simp only [step, isOutside, Bool.false_eq_true, if_false, Tips.step, Tips.body, Tips.creditTip]
    by_cases ha : a ∈ s.tips.members
    · rw [if_neg (not_not_intro ha)]
      cases hh : s.tips.open_.get h <;> simp [ha, Except.map]
    · rw [if_pos ha]; simp [ha, Except.map]
  · intro r w v
    rw [← hm]
    simp only [step, isOutside, Bool.false_eq_true, if_false, Tips.step, Tips.body, Tips.tipNew]
    by_cases ha : a ∈ s.tips.members
    · exact fun _ => ha
    · rw [if_pos ha]; intro h; simp [Except.map] at h
  · intro r w v
    rw [← hm]
    simp only [step, isOutside, Bool.false_eq_true, if_false, Tips.step, Tips.body, Tips.creditNew]
    by_cases ha : a ∈ s.tips.members
    · exact fun _ => ha
    · rw [if_pos ha]; intro h; simp [Except.map] at h

/-- What is paid for a tip is decided by those who are elected when it is closed: the amount announced (before the
finder's fee), or the credit, is a median of what those of them who have declared have declared, whatever others
declared before they lost their seat. -/
theorem C137_decided_by_elected {cfg : Cfg} {b : Bank} {other : AccId → Balance} {ms : List (AccId × Balance)}
    {s0 : State} (h0 : genesis cfg b other ms = some s0) (ops : List Op) (h : Nat) (who : AccId) (v : Nat) :
    let s := (run cfg s0 ops).1
    ((step cfg s (.tips (.close h))).2 = .tips (.closed who v) → ∃ k m, told cfg s0 ops h = some k ∧ k.who = who ∧
      Tips.IsMedian m ((elected s.council).filterMap k.money) ∧
      v = m - (if k.reported = true ∧ k.finder ≠ k.who then divNearestDown (m * cfg.tips.feePct) 100 else 0)) ∧
    ((step cfg s (.tips (.closeCredit h))).2 = .tips (.credited who v) → ∃ k m, told cfg s0 ops h = some k ∧
      k.who = who ∧ Tips.IsMedian m ((elected s.council).filterMap k.credit) ∧ v = min m cfg.tips.maxCredit) := by
  intro s
  obtain ⟨hj, hg⟩ := joined_genesis h0
  have hm : s.tips.members = elected s.council := (joined_run ops hj).members
  obtain ⟨r1, r2⟩ := seen_run cfg ops s0 hj
  have hsort : Tips.SortedCouncil (elected s0.council) (seen cfg s0 ops) := ⟨hj.lists.membersSorted, r2⟩
  have r1' : (Tips.run cfg.tips (Tips.genesis s0.council.bank (elected s0.council)) (seen cfg s0 ops)).1 = s.tips := by
    rw [← hg]; exact r1
  refine ⟨fun hc => ?_, fun hc => ?_⟩
  · have hc' : (Tips.step cfg.tips s.tips (.close h)).2 = .closed who v := by
      have := hc
      simp only [step, isOutside, Bool.false_eq_true, if_false, Out.tips.injEq] at this
      exact this
    obtain ⟨k, m, q1, q2, q3, q4, -⟩ := Tips.C32_median cfg.tips s0.council.bank (elected s0.council)
      (seen cfg s0 ops) hsort h who v (by rw [r1']; exact hc')
    rw [r1', hm] at q3
    exact ⟨k, m, by unfold told; rw [hg]; exact q1, q2, q3, q4⟩
  · have hc' : (Tips.step cfg.tips s.tips (.closeCredit h)).2 = .credited who v := by
      have := hc
      simp only [step, isOutside, Bool.false_eq_true, if_false, Out.tips.injEq] at this
      exact this
    obtain ⟨k, m, q1, q2, q3, q4, -⟩ := Tips.C67_credit_tip cfg.tips s0.council.bank (elected s0.council)
      (seen cfg s0 ops) hsort h who v (by rw [r1']; exact hc')
    rw [r1', hm] at q3
    exact ⟨k, m, by unfold told; rw [hg]; exact q1, q2, q3, q4⟩

/-! ### Half of the council -/

theorem filterMap_length_mono {f g : AccId → Option Nat} (l : List AccId)
    (h : ∀ x ∈ l, (f x).isSome → (g x).isSome) : (l.filterMap f).length ≤ (l.filterMap g).length := by
  induction l with
  | nil => exact Nat.le_refl _
  | cons x l ih =>
    have hi := ih (fun y hy => h y (List.mem_cons_of_mem _ hy))
    have hx := h x List.mem_cons_self
    cases hf : f x with
    | none =>
      rw [List.filterMap_cons_none hf]
      cases hg : g x with
      | none => rw [List.filterMap_cons_none hg]; exact hi
      | some v => rw [List.filterMap_cons_some hg, List.length_cons]; omega
    | some u =>
      rw [hf] at hx
      obtain ⟨v, hg⟩ := Option.isSome_iff_exists.1 (hx rfl)
      rw [List.filterMap_cons_some hf, List.filterMap_cons_some hg, List.length_cons, List.length_cons]
      omega

/-- Those who count have declared in the way in which half of the members was reached. -/
def Half (ms : List AccId) (k : Tips.Track) : Prop :=
  ∀ b kind, k.majority = some (b, kind) →
    ms.length ≤ 2 * (ms.filterMap (if kind then k.credit else k.money)).length

theorem declare_mono (ms : List AccId) (d : AccId → Option Nat) (a : AccId) (v : Nat) :
    (ms.filterMap d).length ≤ (ms.filterMap (Tips.declare ms d a v)).length := by
  apply filterMap_length_mono
  intro x hx hd
  unfold Tips.declare
  rw [if_pos hx]
  split
  · rfl
  · exact hd

theorem half_step (cfg : Tips.Cfg) (ms : List AccId) (h : Nat) (t : Option Tips.Track)
    (e : Tips.State × Tips.Op × Tips.Out) (he : e.1.members = ms) (ht : ∀ k, t = some k → Half ms k) :
    ∀ k, Tips.trackStep cfg h t e = some k → Half ms k := by
  have hnone : ∀ (f w : AccId) (r : Bool) (d : Balance) (m c : AccId → Option Nat), Half ms ⟨f, w, r, d, m, c, none⟩ :=
    fun _ _ _ _ _ _ b kind hb => by cases hb
  intro k hk
  unfold Tips.trackStep at hk
  split at hk
  · split at hk
    · cases hk; exact hnone _ _ _ _ _ _
    · exact ht k hk
  · split at hk
    · cases hk; exact hnone _ _ _ _ _ _
    · exact ht k hk
  · split at hk
    · cases hk; exact hnone _ _ _ _ _ _
    · exact ht k hk
  · split at hk
    · obtain ⟨k0, h0, rfl⟩ := Option.map_eq_some_iff.1 hk
      have hh := ht k0 h0
      dsimp only at he
      subst he
      intro b kind hb
      dsimp only at hb ⊢
      unfold Tips.reached at hb
      split at hb
      · rename_i hc
        cases hb
        exact hc.2
      · have := hh b kind hb
        cases kind with
        | true => exact this
        | false => exact Nat.le_trans this (Nat.mul_le_mul_left 2 (declare_mono _ _ _ _))
    · exact ht k hk
  · split at hk
    · obtain ⟨k0, h0, rfl⟩ := Option.map_eq_some_iff.1 hk
      have hh := ht k0 h0
      dsimp only at he
      subst he
      intro b kind hb
      dsimp only at hb ⊢
      unfold Tips.reached at hb
      split at hb
      · rename_i hc
        cases hb
        exact hc.2
      · have := hh b kind hb
        cases kind with
        | true => exact Nat.le_trans this (Nat.mul_le_mul_left 2 (declare_mono _ _ _ _))
        | false => exact this
    · exact ht k hk
  all_goals first
    | exact ht k hk
    | (split at hk
       · cases hk
       · exact ht k hk)

theorem half_fold (cfg : Tips.Cfg) (ms : List AccId) (h : Nat) (tr : List (Tips.State × Tips.Op × Tips.Out)) :
    ∀ t, (∀ e ∈ tr, e.1.members = ms) → (∀ k, t = some k → Half ms k) →
      ∀ k, tr.foldl (Tips.trackStep cfg h) t = some k → Half ms k := by
  induction tr with
  | nil => intro t _ ht k hk; exact ht k hk
  | cons e tr ih =>
    intro t he ht k hk
    exact ih _ (fun x hx => he x (List.mem_cons_of_mem _ hx))
      (half_step cfg ms h t e (he e List.mem_cons_self) ht) k hk

theorem seen_members (cfg : Cfg) (ms : List AccId) (ops : List Op) : ∀ s, Joined cfg s →
    (∀ e ∈ (run cfg s ops).2, elected e.1.council = ms) → elected (run cfg s ops).1.council = ms →
    ∀ e ∈ (Tips.run cfg.tips s.tips (seen cfg s ops)).2, e.1.members = ms := by
  induction ops with
  | nil => intro s _ _ _ e he; cases he
  | cons op ops ih =>
    intro s hs h1 h2
    have hj := joined_step hs op
    have hm : s.tips.members = ms := hs.members.trans (h1 _ List.mem_cons_self)
    have i := ih _ hj (fun e he => h1 e (List.mem_cons_of_mem _ he)) h2
    have key : ∀ o, seen cfg s (op :: ops) = o :: seen cfg (step cfg s op).1 ops →
        (Tips.step cfg.tips s.tips o).1 = (step cfg s op).1.tips →
        ∀ e ∈ (Tips.run cfg.tips s.tips (seen cfg s (op :: ops))).2, e.1.members = ms := by
      intro o ho hst e he
      rw [ho] at he
      simp only [Tips.run, List.mem_cons] at he
      rcases he with he | he
      · rw [he]; exact hm
      · rw [hst] at he; exact i e he
    cases op with
    | block res => exact key _ rfl rfl
    | council o =>
      cases ho : isBlock o with
      | true =>
        have e : (step cfg s (.council o)).1 = s := by simp [step, ho]
        rw [e] at i
        simp only [seen, ho, if_true, List.nil_append]
        rw [e]
        exact i
      | false =>
        exact key _ (by simp only [seen, ho, Bool.false_eq_true, if_false, List.cons_append, List.nil_append]; rfl)
          (by simp only [step, ho, Bool.false_eq_true, if_false, look])
    | tips o =>
      cases ho : isOutside o with
      | true =>
        have e : (step cfg s (.tips o)).1 = s := by simp [step, ho]
        rw [e] at i
        simp only [seen, ho, if_true, List.nil_append]
        rw [e]
        exact i
      | false =>
        exact key o (by simp only [seen, ho, Bool.false_eq_true, if_false, List.cons_append, List.nil_append])
          (by simp only [step, ho, Bool.false_eq_true, if_false])

/-- As long as the elected members have been the same, a tip that can be closed has declarations of at least half of
them, in money or in credit. Missing: that those who have lost their seat in between stop counting towards the half
(see `C137_one_decides`), and that it is the kind which is paid out (false, C34). -/
theorem C137_half_partial {cfg : Cfg} {b : Bank} {other : AccId → Balance} {ms : List (AccId × Balance)} {s0 : State}
    (h0 : genesis cfg b other ms = some s0) (ops : List Op)
    (hsame : ∀ e ∈ (run cfg s0 ops).2, elected e.1.council = elected (run cfg s0 ops).1.council)
    (h : Nat) (who : AccId) (v : Nat) :
    let s := (run cfg s0 ops).1
    ((step cfg s (.tips (.close h))).2 = .tips (.closed who v) ∨
      (step cfg s (.tips (.closeCredit h))).2 = .tips (.credited who v)) →
    ∃ k, told cfg s0 ops h = some k ∧
      ((elected s.council).length ≤ 2 * ((elected s.council).filterMap k.money).length ∨
       (elected s.council).length ≤ 2 * ((elected s.council).filterMap k.credit).length) := by
  intro s hc
  obtain ⟨hj, hg⟩ := joined_genesis h0
  obtain ⟨r1, r2⟩ := seen_run cfg ops s0 hj
  have r1' : (Tips.run cfg.tips (Tips.genesis s0.council.bank (elected s0.council)) (seen cfg s0 ops)).1 = s.tips := by
    rw [← hg]; exact r1
  have hc' : (Tips.step cfg.tips s.tips (.close h)).2 = .closed who v ∨
      (Tips.step cfg.tips s.tips (.closeCredit h)).2 = .credited who v := by
    simpa only [step, isOutside, Bool.false_eq_true, if_false, Out.tips.injEq] using hc
  obtain ⟨k, b, kind, q1, q2, -⟩ := Tips.C34_majority_and_countdown_partial cfg.tips s0.council.bank
    (elected s0.council) (seen cfg s0 ops) ⟨hj.lists.membersSorted, r2⟩ h who v (by rw [r1']; exact hc')
  refine ⟨k, by unfold told; rw [hg]; exact q1, ?_⟩
  have hh := half_fold cfg.tips (elected s.council) h _ none
    (seen_members cfg (elected s.council) ops s0 hj hsame rfl) (fun k hk => by cases hk) k
    (by rw [hg]; exact q1) b kind q2
  cases kind with
  | true => exact Or.inr hh
  | false => exact Or.inl hh

/-! ### Examples and findings -/

/-- Accounts 1 to 5 with 1000 each, 9 with 5000. -/
def exBank : Bank :=
  { ed := 1
    accts := ((((((∅ : FMap AccId Acct).insert 1 ⟨1000, 0⟩).insert 2 ⟨1000, 0⟩).insert 3 ⟨1000, 0⟩).insert 4
      ⟨1000, 0⟩).insert 5 ⟨1000, 0⟩).insert 9 ⟨5000, 0⟩
    frozen := fun _ => 0
    pinned := fun _ => false
    issuance := 10000 }

/-- Three seats, two runners-up, terms of two blocks; tips close two blocks after half has declared. -/
def exCfg : Cfg :=
  ⟨{ bond := 100, base := 10, factor := 2, desiredMembers := 3, desiredRunnersUp := 2, maxVoters := 10
     maxCandidates := 4, term := 2, toBalance := fun x => x }, { Tips.exCfg with countdown := 2 }⟩

/-- Genesis with members 1, 2 and 3. -/
def exState : State :=
  (genesis exCfg exBank (fun _ => 0) [(1, 50), (2, 50), (3, 50)]).getD ⟨{ bank := exBank }, Tips.genesis exBank []⟩

/-- A tip for account 7: members 1 and 2 declare 100 and 200. -/
def exTip : List Op :=
  [.tips (.setPot true 9), .tips (.tipNew 1 [7] 7 100), .tips (.tip 2 (Nat.pair 7 7) 200)]

/-- The hypotheses are met; without a change the tip pays the upper median, and account 4 has no say. -/
example : genesis exCfg exBank (fun _ => 0) [(1, 50), (2, 50), (3, 50)] = some exState ∧
    elected exState.council = [1, 2, 3] ∧
    (step exCfg (run exCfg exState (exTip ++ [.block none, .block none])).1 (.tips (.close (Nat.pair 7 7)))).2 =
      .tips (.closed 7 200) ∧
    (step exCfg (run exCfg exState exTip).1 (.tips (.tip 4 (Nat.pair 7 7) 900))).2 = .tips (.failed .badOrigin) := by
  refine ⟨by unfold exState; rfl, ?_, ?_, ?_⟩ <;> decide +kernel

example : ∀ e ∈ (run exCfg exState (exTip ++ [.block none, .block none])).2, elected e.1.council =
    elected (run exCfg exState (exTip ++ [.block none, .block none])).1.council := by
  decide +kernel

/-- Accounts 4 and 5 stand and become runners-up; the members stay. -/
def exElection : List Op :=
  [.council (.submit 4 9 true), .council (.submit 5 9 true), .block none,
   .block (some [(1, 60), (2, 60), (3, 60), (4, 50), (5, 40)])]

/-- Finding: what counts for reaching half is the council of that time, what is paid is decided by the council of
the closing. Members 1 and 2 of three declare 100 and 200; both give up their seats and 4 and 5 follow them; then
member 3 alone declares 4000, and that is paid, although two of the three members have not declared anything. -/
theorem C137_one_decides :
    let ops := exElection ++ exTip ++ [.council (.renounce 1 .member), .council (.renounce 2 .member), .block none,
      .block none, .tips (.tip 3 (Nat.pair 7 7) 4000)]
    let s := (run exCfg exState ops).1
    elected s.council = [3, 4, 5] ∧ (step exCfg s (.tips (.close (Nat.pair 7 7)))).2 = .tips (.closed 7 4000) ∧
    (step exCfg s (.tips (.close (Nat.pair 7 7)))).1.council.bank.free 7 = 4000 := by
  decide +kernel

/-- Finding: before member 3 has declared, closing the same tip is an access outside of the list of declarations. -/
theorem C137_panics :
    let ops := exElection ++ exTip ++ [.council (.renounce 1 .member), .council (.renounce 2 .member), .block none,
      .block none]
    (step exCfg (run exCfg exState ops).1 (.tips (.close (Nat.pair 7 7)))).2 = .tips (.failed .panic) := by
  decide +kernel

end Verif.TipsCouncil
