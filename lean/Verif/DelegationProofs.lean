import Verif.Delegation
import Mathlib.Data.List.Nodup

/-
Helper lemmas for the delegation graph, the payout markers and the referral counts.
-/

namespace Verif.Delegation

open Verif

/-! ### Kinds of steps -/

/-- Payments of an output. -/
def Out.payments : Out → List Payment
  | .paid l => l
  | _ => []

/-- The part of the state the graph consists of. -/
def graph (s : State) : FMap AccId Delegator × FMap AccId Candidate × Nat × Nat × Nat :=
  (s.delegators, s.candidates, s.active, s.count, s.block)

theorem graph_eq {s t : State} (h : graph t = graph s) :
    t.delegators = s.delegators ∧ t.candidates = s.candidates ∧ t.active = s.active ∧ t.count = s.count ∧ t.block = s.block := by
  simpa [graph] using h

theorem graph_payEachValidator (cfg : Cfg) (p : Points) (v : Balance) (vs : List AccId) : ∀ (s : State) (t : Balance),
    graph (payEachValidator cfg p v vs s t).1 = graph s := by
  induction vs with
  | nil => intro s t; rfl
  | cons x vs ih =>
    intro s t
    unfold payEachValidator
    split
    · exact ih s t
    · rw [ih]; rfl

theorem graph_payValidators (cfg : Cfg) (s : State) (e : Nat) : graph (payValidators cfg s e) = graph s := by
  unfold payValidators
  split
  · rfl
  · exact graph_payEachValidator cfg _ _ _ s 0

/-- What a step does to the graph. -/
inductive Kind (cfg : Cfg) (s : State) : Op → State × Out → Prop where
  | same (op : Op) (t : State) (o : Out) : graph t = graph s → o.payments = [] → Kind cfg s op (t, o)
  | join (op : Op) (d : AccId) (vs : List AccId) (t : State) : doDelegate cfg s d vs true = .ok t → Kind cfg s op (t, .done)
  | quit (op : Op) (ds : List AccId) : Kind cfg s op (ds.foldl undelegateOf s, .done)
  | block (r : AccId → Nat → Nat → Option Balance) : Kind cfg s (.block r) ((onBlock cfg s r).1, .paid (onBlock cfg s r).2)
  | era (order : List AccId) : Kind cfg s (.newEra order) (newEra s order)

theorem doDelegate_pass {cfg : Cfg} {s t : State} {d : AccId} {vs : List AccId} {p : Bool} (h : doDelegate cfg s d vs p = .ok t) :
    doDelegate cfg s d vs true = .ok t := by
  cases p with
  | true => exact h
  | false => simp [doDelegate] at h

theorem map_ok {α β : Type} {e : Except Err α} {f : α → β} {b : β} (h : e.map f = .ok b) : ∃ a, e = .ok a ∧ f a = b := by
  cases e with
  | error x => simp [Except.map] at h
  | ok a => exact ⟨a, rfl, by simpa [Except.map] using h⟩

theorem delegate_do {cfg : Cfg} {s t : State} {d : AccId} {vs : List AccId} {p : Bool} (h : delegate cfg s d vs p = .ok t) :
    doDelegate cfg s d vs p = .ok t := by
  unfold delegate at h
  split at h; · cases h
  split at h; · cases h
  split at h; · cases h
  split at h; · cases h
  split at h; · cases h
  exact h

theorem step_kind (cfg : Cfg) (s : State) (op : Op) : Kind cfg s op (step cfg s op) := by
  unfold step
  split
  case h_2 e _ => exact .same op s (.failed e) rfl rfl
  case h_1 r hb =>
    cases op with
    | delegate d vs p =>
      obtain ⟨t, h, rfl⟩ := map_ok hb
      exact .join _ d vs t (doDelegate_pass (delegate_do h))
    | delegateAny d o p =>
      obtain ⟨t, h, rfl⟩ := map_ok hb
      unfold delegateAny at h
      split at h
      · cases h
      · exact .join _ d _ t (doDelegate_pass h)
    | undelegate d =>
      obtain ⟨t, h, rfl⟩ := map_ok hb
      unfold undelegate at h
      split at h
      · cases h
      · cases h; exact .quit _ [d]
    | forceUndelegate r ds =>
      simp only [body] at hb
      split at hb
      · cases hb
      · cases hb; exact .quit _ ds
    | forceUnstaking k d =>
      simp only [body] at hb
      split at hb
      · cases hb
      · cases hb; exact .quit _ [d]
    | setReferer k a r =>
      obtain ⟨t, h, rfl⟩ := map_ok hb
      unfold setReferer at h
      split at h; · cases h
      split at h; · cases h
      cases h; exact .same _ _ _ rfl rfl
    | unsetReferer k a =>
      obtain ⟨t, h, rfl⟩ := map_ok hb
      unfold unsetReferer at h
      split at h; · cases h
      cases h; exact .same _ _ _ rfl rfl
    | blackList k a e =>
      simp only [body] at hb
      split at hb
      · cases hb
      · cases hb; exact .same _ _ _ rfl rfl
    | npowMint k t v =>
      obtain ⟨t, h, rfl⟩ := map_ok hb
      unfold npowMint at h
      split at h; · cases h
      split at h; · cases h
      cases h; exact .same _ _ _ rfl rfl
    | compensate k l d r p =>
      obtain ⟨t, h, rfl⟩ := map_ok hb
      unfold compensate at h
      split at h; · cases h
      split at h; · cases h
      cases h; exact .same _ _ _ rfl rfl
    | increasePool r v =>
      obtain ⟨t, h, rfl⟩ := map_ok hb
      unfold increasePool at h
      split at h; · cases h
      cases h; exact .same _ _ _ rfl rfl
    | configure e c m w d => cases hb; exact .same _ _ _ rfl rfl
    | block r => cases hb; exact .block r
    | endEra e => cases hb; exact .same _ _ _ (graph_payValidators cfg s e) rfl
    | newEra o => cases hb; exact .era o
    | addPoints e v n => cases hb; exact .same _ _ _ rfl rfl
    | ledger op => cases hb; exact .same _ _ _ rfl rfl

theorem run_append (cfg : Cfg) (s : State) (a b : List Op) :
    run cfg s (a ++ b) = ((run cfg (run cfg s a).1 b).1, (run cfg s a).2 ++ (run cfg (run cfg s a).1 b).2) := by
  induction a generalizing s with
  | nil => rfl
  | cons op a ih => simp only [List.cons_append, run, ih]

theorem run_snoc (cfg : Cfg) (s : State) (a : List Op) (op : Op) :
    run cfg s (a ++ [op]) = ((step cfg (run cfg s a).1 op).1, (run cfg s a).2 ++ [((run cfg s a).1, op, (step cfg (run cfg s a).1 op).2)]) := by
  rw [run_append]; rfl

/-- An invariant of single steps holds after all histories. -/
theorem run_inv {cfg : Cfg} {P : State → Prop} (hs : ∀ s op, P s → P (step cfg s op).1) {s : State} (h : P s) (ops : List Op) :
    P (run cfg s ops).1 := by
  induction ops generalizing s with
  | nil => exact h
  | cons op ops ih => exact ih (hs s op h)

/-! ### The payout loop -/

theorem payReferer_graph (s : State) (d : AccId) (v p : Balance) : graph (payReferer s d v p).1 = graph s := by
  unfold payReferer
  split
  · rfl
  · split <;> rfl

theorem payReward_graph (s : State) (d : Delegator) (e : Nat) (p v : Balance) : graph (payReward s d e p v).1 = graph s := rfl

/-- What a payment does to the graph. -/
theorem payDelegator_cases (s : State) (d : Delegator) (era : Nat) (pool : Balance) (reward : AccId → Nat → Nat → Option Balance) :
    (d.since.getD era = era ∧ payDelegator s d era pool reward = (s, 0, none)) ∨
    (d.since.getD era ≠ era ∧ ∃ t : State, graph t = graph s ∧ (payDelegator s d era pool reward).1 = settle t d era ∧
      (payDelegator s d era pool reward).2.2 = some ⟨d.who, d.since.getD era, era - 1, reward d.who (d.since.getD era) (era - 1)⟩) := by
  by_cases h : d.since.getD era = era
  · refine .inl ⟨h, ?_⟩
    simp [payDelegator, h]
  · refine .inr ⟨h, ?_⟩
    unfold payDelegator
    simp only [h, if_false]
    cases hr : reward d.who (d.since.getD era) (era - 1) with
    | none => exact ⟨s, rfl, rfl, trivial⟩
    | some v => exact ⟨_, payReward_graph s d era pool v, rfl, trivial⟩

/-- A property of graph and payments preserved by a single payment is preserved by the loop. -/
theorem payLoop_inv {cfg : Cfg} {era : Nat} {reward : AccId → Nat → Nat → Option Balance} {P : State → List Payment → Prop}
    (hg : ∀ s t l, graph t = graph s → P s l → P t l)
    (hp : ∀ s d l, s.delegators.get d.who = some d → P s l → d.since.getD era ≠ era →
      P (settle s d era) (l ++ [⟨d.who, d.since.getD era, era - 1, reward d.who (d.since.getD era) (era - 1)⟩]))
    (hw : ∀ s l a d, P s l → s.delegators.get a = some d → d.who = a) :
    ∀ (n : Nat) (l : Loop), P l.s l.paid → P (payLoop cfg era reward n l).s (payLoop cfg era reward n l).paid := by
  intro n
  induction n with
  | zero => intro l h; exact h
  | succ n ih =>
    intro l h
    unfold payLoop
    split
    · exact h
    · rename_i a ha
      split
      · exact h
      · rename_i d hd
        have hda : d.who = a := hw _ _ _ _ h hd
        have h1 : P (payDelegator l.s d era l.pool reward).1 (l.paid ++ (payDelegator l.s d era l.pool reward).2.2.toList) := by
          rcases payDelegator_cases l.s d era l.pool reward with ⟨_, e⟩ | ⟨hne, t, ht, e1, e2⟩
          · rw [e]; simpa using h
          · rw [e1, e2]
            have ht' := hg _ _ _ ht h
            exact hp t d l.paid (by rw [(graph_eq ht).1, hda]; exact hd) ht' hne
        simp only
        split
        · exact h1
        · have h2 := hg _ _ _ (payReferer_graph (payDelegator l.s d era l.pool reward).1 d.who
            (payDelegator l.s d era l.pool reward).2.1 (l.pool - (payDelegator l.s d era l.pool reward).2.1)) h1
          split
          · exact h2
          · exact ih _ h2

theorem payDelegators_inv {cfg : Cfg} {s : State} {reward : AccId → Nat → Nat → Option Balance} {P : State → List Payment → Prop}
    (hg : ∀ s t l, graph t = graph s → P s l → P t l)
    (hp : ∀ u d l, u.delegators.get d.who = some d → P u l → d.since.getD (creditEra cfg s) ≠ creditEra cfg s →
      P (settle u d (creditEra cfg s)) (l ++ [⟨d.who, d.since.getD (creditEra cfg s), creditEra cfg s - 1,
        reward d.who (d.since.getD (creditEra cfg s)) (creditEra cfg s - 1)⟩]))
    (hw : ∀ s l a d, P s l → s.delegators.get a = some d → d.who = a) (h : P s []) :
    P (payDelegators cfg s reward).1 (payDelegators cfg s reward).2 := by
  unfold payDelegators
  split
  · exact h
  · simp only
    refine hg (payLoop cfg (creditEra cfg s) reward s.perBlock ⟨s, poolOf cfg s, s.lastKey, true, []⟩).s _ _ rfl ?_
    exact (payLoop_inv (cfg := cfg) hg hp hw s.perBlock ⟨s, poolOf cfg s, s.lastKey, true, []⟩ h)

/-! ### Sets of delegators -/

/-- Delegators of an account, empty if it is no candidate. -/
def members (m : FMap AccId Candidate) (v : AccId) : List AccId := ((m.get v).getD .empty).delegators

theorem members_leave (m : FMap AccId Candidate) (d v w : AccId) :
    members (leave m d v) w = if w = v then (members m v).filter (fun x => decide (x ≠ d)) else members m w := by
  unfold leave members
  simp only
  split
  · rename_i h
    by_cases e : w = v
    · subst e
      rw [if_pos rfl, FMap.get_erase_self]
      exact h.symm
    · rw [if_neg e, FMap.get_erase_ne _ e]
  · by_cases e : w = v
    · subst e
      rw [if_pos rfl, FMap.get_insert_self]
      rfl
    · rw [if_neg e, FMap.get_insert_ne _ _ e]

theorem members_join (m : FMap AccId Candidate) (d v w : AccId) :
    members (join m d v) w = if w = v then setInsert d (members m v) else members m w := by
  unfold join members
  by_cases e : w = v
  · subst e
    rw [if_pos rfl]
    split <;> rename_i h
    · rw [FMap.get_insert_self, h]; rfl
    · rw [FMap.get_insert_self, h]
      simp [setInsert, Candidate.empty]
  · rw [if_neg e]
    split
    · rw [FMap.get_insert_ne _ _ e]
    · rw [FMap.get_insert_ne _ _ e]

theorem mem_setInsert (a x : AccId) (l : List AccId) : x ∈ setInsert a l ↔ x = a ∨ x ∈ l := by
  unfold setInsert
  split
  · constructor
    · exact .inr
    · rintro (rfl | h)
      · assumption
      · exact h
  · simp

theorem nodup_setInsert {a : AccId} {l : List AccId} (h : l.Nodup) : (setInsert a l).Nodup := by
  unfold setInsert
  split
  · exact h
  · exact List.nodup_cons.mpr ⟨by assumption, h⟩

theorem members_leaves (d : AccId) (vs : List AccId) : ∀ (m : FMap AccId Candidate) (w a : AccId),
    a ∈ members (vs.foldl (fun m v => leave m d v) m) w ↔ a ∈ members m w ∧ ¬ (a = d ∧ w ∈ vs) := by
  induction vs with
  | nil => intro m w a; simp
  | cons v vs ih =>
    intro m w a
    rw [List.foldl_cons, ih, members_leave]
    by_cases e : w = v
    · subst e
      simp only [if_true, List.mem_filter, decide_eq_true_eq, List.mem_cons, true_or, and_true]
      constructor
      · rintro ⟨⟨h1, h2⟩, _⟩; exact ⟨h1, h2⟩
      · rintro ⟨h1, h2⟩; exact ⟨⟨h1, h2⟩, fun h => h2 h.1⟩
    · simp [e]

theorem members_joins (d : AccId) (vs : List AccId) : ∀ (m : FMap AccId Candidate) (w a : AccId),
    a ∈ members (vs.foldl (fun m v => join m d v) m) w ↔ a ∈ members m w ∨ (a = d ∧ w ∈ vs) := by
  induction vs with
  | nil => intro m w a; simp
  | cons v vs ih =>
    intro m w a
    rw [List.foldl_cons, ih, members_join]
    by_cases e : w = v
    · subst e
      simp only [if_true, mem_setInsert, List.mem_cons, true_or, and_true]
      tauto
    · simp [e]

theorem nodup_leaves (d : AccId) (vs : List AccId) : ∀ (m : FMap AccId Candidate), (∀ w, (members m w).Nodup) →
    ∀ w, (members (vs.foldl (fun m v => leave m d v) m) w).Nodup := by
  induction vs with
  | nil => intro m h; exact h
  | cons v vs ih =>
    intro m h
    refine ih _ fun w => ?_
    rw [members_leave]
    split
    · exact (h v).filter _
    · exact h w

theorem nodup_joins (d : AccId) (vs : List AccId) : ∀ (m : FMap AccId Candidate), (∀ w, (members m w).Nodup) →
    ∀ w, (members (vs.foldl (fun m v => join m d v) m) w).Nodup := by
  induction vs with
  | nil => intro m h; exact h
  | cons v vs ih =>
    intro m h
    refine ih _ fun w => ?_
    rw [members_join]
    split
    · exact nodup_setInsert (h v)
    · exact h w

theorem members_mark (era : Nat) (vs : List AccId) : ∀ (m : FMap AccId Candidate) (w : AccId),
    members (vs.foldl (markElected era) m) w = members m w := by
  induction vs with
  | nil => intro m w; rfl
  | cons v vs ih =>
    intro m w
    rw [List.foldl_cons, ih]
    unfold markElected members
    by_cases e : w = v
    · subst e; rw [FMap.get_insert_self]; rfl
    · rw [FMap.get_insert_ne _ _ e]

/-! ### The graph invariant -/

/-- One per record. -/
def one : AccId → Delegator → Nat := fun _ _ => 1
/-- One per active record. -/
def oneActive : AccId → Delegator → Nat := fun _ d => if d.delegating then 1 else 0

/-- Records and sets agree. -/
structure Inv (D : FMap AccId Delegator) (C : FMap AccId Candidate) (act cnt : Nat) : Prop where
  who : ∀ a d, D.get a = some d → d.who = a
  sym : ∀ a v, a ∈ members C v ↔ ∃ d, D.get a = some d ∧ d.delegating = true ∧ v ∈ d.validators
  nodup : ∀ v, (members C v).Nodup
  count : cnt = D.sum one
  active : act = D.sum oneActive

/-- The invariant of a state. -/
def GInv (s : State) : Prop := Inv s.delegators s.candidates s.active s.count

theorem GInv.of_graph {s t : State} (h : graph t = graph s) (hi : GInv s) : GInv t := by
  obtain ⟨h1, h2, h3, h4, _⟩ := graph_eq h
  unfold GInv
  rw [h1, h2, h3, h4]; exact hi

theorem Inv.mark {D : FMap AccId Delegator} {C C' : FMap AccId Candidate} {act cnt : Nat} (h : Inv D C act cnt)
    (hm : ∀ v, members C' v = members C v) : Inv D C' act cnt :=
  ⟨h.who, fun a v => by rw [hm]; exact h.sym a v, fun v => by rw [hm]; exact h.nodup v, h.count, h.active⟩

theorem Inv.replace {D : FMap AccId Delegator} {C : FMap AccId Candidate} {act cnt : Nat} (h : Inv D C act cnt) {a : AccId}
    {d d' : Delegator} (hd : D.get a = some d) (hw : d'.who = a) (hv : d'.validators = d.validators) (hg : d'.delegating = d.delegating) :
    Inv (D.insert a d') C act cnt := by
  refine ⟨fun b x hb => ?_, fun b v => ?_, h.nodup, ?_, ?_⟩
  · rw [FMap.get_insert] at hb
    split at hb
    · rename_i e; cases hb; rw [e]; exact hw
    · exact h.who b x hb
  · rw [h.sym b v, FMap.get_insert]
    split
    · rename_i e; subst e
      constructor
      · rintro ⟨x, hx, h1, h2⟩
        rw [hd] at hx; cases hx
        exact ⟨d', rfl, by rw [hg]; exact h1, by rw [hv]; exact h2⟩
      · rintro ⟨x, hx, h1, h2⟩
        cases hx
        exact ⟨d, hd, by rw [← hg]; exact h1, by rw [← hv]; exact h2⟩
    · rfl
  · have e := FMap.sum_insert D a d' one
    have := FMap.at?_le_sum D a one
    rw [FMap.at?_some hd] at e this
    have := h.count
    simp only [one] at *
    omega
  · have e := FMap.sum_insert D a d' oneActive
    have := FMap.at?_le_sum D a oneActive
    rw [FMap.at?_some hd] at e this
    have := h.active
    simp only [oneActive, hg] at *
    omega

theorem Inv.drop {D : FMap AccId Delegator} {C : FMap AccId Candidate} {act cnt : Nat} (h : Inv D C act cnt) {a : AccId}
    {d : Delegator} (hd : D.get a = some d) (hg : d.delegating = false) : Inv (D.erase a) C act (cnt - 1) := by
  refine ⟨fun b x hb => ?_, fun b v => ?_, h.nodup, ?_, ?_⟩
  · rw [FMap.get_erase] at hb
    split at hb
    · cases hb
    · exact h.who b x hb
  · rw [h.sym b v, FMap.get_erase]
    split
    · rename_i e; subst e
      constructor
      · rintro ⟨x, hx, h1, _⟩
        rw [hd] at hx; cases hx
        rw [hg] at h1; cases h1
      · rintro ⟨x, hx, _⟩; cases hx
    · rfl
  · have e := FMap.sum_erase D a one
    have := FMap.at?_le_sum D a one
    rw [FMap.at?_some hd] at e this
    have := h.count
    simp only [one] at *
    omega
  · have e := FMap.sum_erase D a oneActive
    have := FMap.at?_le_sum D a oneActive
    rw [FMap.at?_some hd] at e this
    have := h.active
    simp only [oneActive, hg] at *
    simp at e
    omega

/-- Taking the delegator out of its sets and making its record idle. -/
theorem Inv.idle {D : FMap AccId Delegator} {C : FMap AccId Candidate} {act cnt : Nat} (h : Inv D C act cnt) {a : AccId}
    {d : Delegator} (hd : D.get a = some d) (hg : d.delegating = true) :
    Inv (D.insert a { d with delegating := false }) (d.validators.foldl (fun m v => leave m a v) C) (act - 1) cnt := by
  refine ⟨fun b x hb => ?_, fun b v => ?_, nodup_leaves a _ C h.nodup, ?_, ?_⟩
  · rw [FMap.get_insert] at hb
    split at hb
    · rename_i e; cases hb; rw [e]; exact h.who a d hd
    · exact h.who b x hb
  · rw [members_leaves, h.sym b v, FMap.get_insert]
    by_cases e : b = a
    · subst e
      rw [if_pos rfl]
      constructor
      · rintro ⟨⟨x, hx, h1, h2⟩, hn⟩
        rw [hd] at hx; cases hx
        exact absurd ⟨rfl, h2⟩ hn
      · rintro ⟨x, hx, h1, _⟩
        cases hx; cases h1
    · rw [if_neg e]
      constructor
      · exact fun h => h.1
      · exact fun h => ⟨h, fun hn => e hn.1⟩
  · have e := FMap.sum_insert D a { d with delegating := false } one
    have := FMap.at?_le_sum D a one
    rw [FMap.at?_some hd] at e this
    have := h.count
    simp only [one] at *
    omega
  · have e := FMap.sum_insert D a { d with delegating := false } oneActive
    have := FMap.at?_le_sum D a oneActive
    rw [FMap.at?_some hd] at e this
    have := h.active
    simp only [oneActive, hg] at *
    simp at e this
    omega

/-- Adding an active record. -/
theorem Inv.enter {D : FMap AccId Delegator} {C : FMap AccId Candidate} {act cnt : Nat} (h : Inv D C act cnt) {a : AccId}
    (hd : ∀ d, D.get a = some d → d.delegating = false) (d' : Delegator) (hw : d'.who = a) (hg : d'.delegating = true) :
    Inv (D.insert a d') (d'.validators.foldl (fun m v => join m a v) C) (act + 1) (if D.contains a then cnt else cnt + 1) := by
  refine ⟨fun b x hb => ?_, fun b v => ?_, nodup_joins a _ C h.nodup, ?_, ?_⟩
  · rw [FMap.get_insert] at hb
    split at hb
    · rename_i e; cases hb; rw [e]; exact hw
    · exact h.who b x hb
  · rw [members_joins, h.sym b v, FMap.get_insert]
    by_cases e : b = a
    · subst e
      rw [if_pos rfl]
      constructor
      · rintro (⟨x, hx, h1, h2⟩ | ⟨_, hv⟩)
        · rw [hd x hx] at h1; cases h1
        · exact ⟨d', rfl, hg, hv⟩
      · rintro ⟨x, hx, h1, h2⟩
        cases hx; exact .inr ⟨rfl, h2⟩
    · rw [if_neg e]
      constructor
      · rintro (h | h)
        · exact h
        · exact absurd h.1 e
      · exact .inl
  · have e := FMap.sum_insert D a d' one
    have := FMap.at?_le_sum D a one
    have hc := h.count
    unfold FMap.contains
    cases hd' : D.get a with
    | none => rw [FMap.at?_none hd'] at e this; simp [one] at *; omega
    | some x => rw [FMap.at?_some hd'] at e this; simp [one] at *; omega
  · have e := FMap.sum_insert D a d' oneActive
    have := FMap.at?_le_sum D a oneActive
    have hc := h.active
    cases hd' : D.get a with
    | none => rw [FMap.at?_none hd'] at e this; simp only [oneActive, hg] at *; simp at e; omega
    | some x =>
      have hx := hd x hd'
      rw [FMap.at?_some hd'] at e this; simp only [oneActive, hg, hx] at *; simp at e; omega

theorem insert_insert_get {κ α : Type} [DecidableEq κ] (m : FMap κ α) (k : κ) (v w : α) (x : κ) :
    ((m.insert k v).insert k w).get x = (m.insert k w).get x := by
  simp only [FMap.get_insert]
  split <;> rfl

theorem Inv.ext {D D' : FMap AccId Delegator} {C : FMap AccId Candidate} {act cnt : Nat} (h : Inv D C act cnt)
    (e : ∀ a, D'.get a = D.get a) : Inv D' C act cnt := by
  refine ⟨fun a d hd => h.who a d (by rw [← e]; exact hd), fun a v => by rw [e]; exact h.sym a v, h.nodup, ?_, ?_⟩
  · rw [FMap.sum_ext D' D e]; exact h.count
  · rw [FMap.sum_ext D' D e]; exact h.active

theorem inv_doDelegate {cfg : Cfg} {s t : State} {d : AccId} {vs : List AccId} (h : GInv s)
    (he : doDelegate cfg s d vs true = .ok t) : GInv t := by
  unfold doDelegate at he
  simp only [Bool.true_eq_false, if_false] at he
  cases hd : s.delegators.get d with
  | none =>
    rw [hd] at he
    cases he
    have := Inv.enter h (a := d) (fun x hx => by rw [hd] at hx; cases hx) ⟨d, vs, some (creditEra cfg s), true⟩ rfl rfl
    rw [if_neg (by simp [FMap.contains, hd])] at this
    exact this
  | some old =>
    rw [hd] at he
    cases he
    unfold GInv
    cases ho : old.delegating with
    | false =>
      -- the sets do not contain the delegator
      have hm : ∀ v a, a ∈ members (old.validators.foldl (fun m v => leave m d v) s.candidates) v ↔ a ∈ members s.candidates v := by
        intro v a
        rw [members_leaves]
        constructor
        · exact fun h => h.1
        · intro ha
          refine ⟨ha, fun hn => ?_⟩
          obtain ⟨x, hx, h1, _⟩ := (h.sym a v).mp ha
          rw [hn.1, hd] at hx; cases hx
          rw [ho] at h1; cases h1
      have h' : Inv s.delegators (old.validators.foldl (fun m v => leave m d v) s.candidates) s.active s.count :=
        ⟨h.who, fun a v => by rw [hm]; exact h.sym a v, nodup_leaves d _ _ h.nodup, h.count, h.active⟩
      have := Inv.enter h' (a := d) (fun x hx => by rw [hd] at hx; cases hx; exact ho) ⟨d, vs, some (old.since.getD (creditEra cfg s)), true⟩ rfl rfl
      rw [if_pos (by simp [FMap.contains, hd])] at this
      simpa [ho] using this
    | true =>
      have h1 := h.idle hd ho
      have := Inv.enter h1 (a := d) (fun x hx => by rw [FMap.get_insert_self] at hx; cases hx; rfl)
        ⟨d, vs, some (old.since.getD (creditEra cfg s)), true⟩ rfl rfl
      rw [if_pos (by simp [FMap.contains])] at this
      have hpos : s.active - 1 + 1 = s.active := by
        have h2 := FMap.at?_le_sum s.delegators d oneActive
        rw [FMap.at?_some hd] at h2
        have h3 : oneActive d old = 1 := by simp [oneActive, ho]
        have := h.active
        omega
      rw [hpos] at this
      simp only [ho, if_true]
      exact this.ext fun a => (insert_insert_get _ _ _ _ _).symm

theorem inv_undelegateOf {s : State} (d : AccId) (h : GInv s) : GInv (undelegateOf s d) := by
  unfold undelegateOf
  cases hd : s.delegators.get d with
  | none => exact h
  | some x =>
    simp only
    split
    · exact h
    · rename_i hx
      have hx : x.delegating = true := by simpa using hx
      have h1 := h.idle hd hx
      split
      · have := h1.drop (a := d) (by rw [FMap.get_insert_self]) rfl
        refine Inv.ext this fun a => ?_
        simp only [FMap.get_erase, FMap.get_insert]
        split <;> rfl
      · exact h1

theorem inv_undelegates (ds : List AccId) : ∀ {s : State}, GInv s → GInv (ds.foldl undelegateOf s) := by
  induction ds with
  | nil => intro s h; exact h
  | cons d ds ih => intro s h; exact ih (inv_undelegateOf d h)

theorem inv_settle {s : State} {d : Delegator} {era : Nat} (hd : s.delegators.get d.who = some d) (h : GInv s) :
    GInv (settle s d era) := by
  unfold settle
  split
  · unfold GInv
    simp only [hd, Option.getD_some]
    exact Inv.replace h hd rfl rfl rfl
  · rename_i hg
    exact Inv.drop h hd (by simpa using hg)

theorem inv_onBlock (cfg : Cfg) {s : State} (r : AccId → Nat → Nat → Option Balance) (h : GInv s) : GInv (onBlock cfg s r).1 := by
  unfold onBlock
  simp only
  split
  · exact h
  split
  · exact h
  exact payDelegators_inv (P := fun s _ => GInv s) (fun _ _ _ hg hi => hi.of_graph hg) (fun _ _ _ hd hi _ => inv_settle hd hi)
    (fun _ _ a d hi hd => hi.who a d hd) h

theorem enterEra_graph (s : State) (era : Nat) : graph (enterEra s era) = graph s := by
  unfold enterEra
  simp only
  split <;> rfl

theorem storeElected_graph (s : State) (era : Nat) (l : Option (List AccId)) : graph (storeElected s era l) = graph s := by
  cases l <;> rfl

theorem newEra_graph (s : State) (order : List AccId) : ∃ (era : Nat) (l : List AccId),
    graph (newEra s order).1 = (s.delegators, l.foldl (markElected era) s.candidates, s.active, s.count, s.block) := by
  unfold newEra
  simp only
  rw [storeElected_graph]
  obtain ⟨g1, g2, g3, g4, g5⟩ := graph_eq (enterEra_graph s (nextEra s))
  refine ⟨nextEra s, ?_⟩
  rw [← g1, ← g2, ← g3, ← g4, ← g5]
  unfold elect
  simp only
  split
  · exact ⟨[], rfl⟩
  · exact ⟨_, rfl⟩

theorem inv_step (cfg : Cfg) (s : State) (op : Op) (h : GInv s) : GInv (step cfg s op).1 := by
  generalize hr : step cfg s op = r
  have hk := step_kind cfg s op
  rw [hr] at hk
  cases hk with
  | same _ t o hg _ => exact h.of_graph hg
  | join _ d vs t he => exact inv_doDelegate h he
  | quit _ ds => exact inv_undelegates ds h
  | block r => exact inv_onBlock cfg r h
  | era order =>
    obtain ⟨era, l, e⟩ := newEra_graph s order
    simp only [graph, Prod.mk.injEq] at e
    obtain ⟨e1, e2, e3, e4, _⟩ := e
    unfold GInv
    rw [e1, e2, e3, e4]
    exact Inv.mark h (members_mark era l s.candidates)

theorem inv_genesis (bank : Bank) (m : Balance) : GInv (genesis bank m) := by
  refine ⟨fun a d h => ?_, fun a v => ?_, fun v => ?_, rfl, rfl⟩
  · cases h
  · constructor
    · intro h; cases h
    · rintro ⟨d, h, _⟩; cases h
  · exact List.nodup_nil

/-! ### Payout markers -/

/-- Markers and payments so far, in credit era `era`. -/
structure Marks (era : Nat) (D : FMap AccId Delegator) (ps : List Payment) : Prop where
  who : ∀ a d, D.get a = some d → d.who = a
  mark : ∀ a d, D.get a = some d → ∃ n, d.since = some n ∧ n ≤ era ∧ ∀ p ∈ ps, p.who = a → p.last < n
  past : ∀ p ∈ ps, p.first ≤ p.last ∧ p.last < era
  order : ps.Pairwise fun p q => p.who = q.who → p.last < q.first

theorem Marks.later {e e' : Nat} {D : FMap AccId Delegator} {ps : List Payment} (h : Marks e D ps) (he : e ≤ e') : Marks e' D ps :=
  ⟨h.who, fun a d hd => by
    obtain ⟨n, h1, h2, h3⟩ := h.mark a d hd
    exact ⟨n, h1, by omega, h3⟩, fun p hp => ⟨(h.past p hp).1, by have := (h.past p hp).2; omega⟩, h.order⟩

theorem marks_doDelegate {cfg : Cfg} {s t : State} {d : AccId} {vs : List AccId} {ps : List Payment}
    (h : Marks (creditEra cfg s) s.delegators ps) (he : doDelegate cfg s d vs true = .ok t) :
    t.block = s.block ∧ Marks (creditEra cfg s) t.delegators ps := by
  unfold doDelegate at he
  simp only [Bool.true_eq_false, if_false] at he
  have key : ∀ n, n ≤ creditEra cfg s → (∀ p ∈ ps, p.who = d → p.last < n) →
      Marks (creditEra cfg s) (s.delegators.insert d ⟨d, vs, some n, true⟩) ps := by
    intro n hn hp
    refine ⟨fun a x hx => ?_, fun a x hx => ?_, h.past, h.order⟩
    · rw [FMap.get_insert] at hx
      split at hx
      · rename_i e; cases hx; exact e.symm
      · exact h.who a x hx
    · rw [FMap.get_insert] at hx
      split at hx
      · rename_i e; cases hx; exact ⟨n, rfl, hn, by rw [e]; exact hp⟩
      · exact h.mark a x hx
  cases hd : s.delegators.get d with
  | none =>
    rw [hd] at he; cases he
    exact ⟨rfl, key _ (Nat.le_refl _) fun p hp _ => (h.past p hp).2⟩
  | some old =>
    rw [hd] at he; cases he
    obtain ⟨n, h1, h2, h3⟩ := h.mark d old hd
    refine ⟨rfl, ?_⟩
    simp only [h1, Option.getD_some]
    exact key n h2 h3

theorem Marks.erase {e : Nat} {D : FMap AccId Delegator} {ps : List Payment} (h : Marks e D ps) (a : AccId) : Marks e (D.erase a) ps := by
  refine ⟨fun b x hx => ?_, fun b x hx => ?_, h.past, h.order⟩
  · rw [FMap.get_erase] at hx
    split at hx
    · cases hx
    · exact h.who b x hx
  · rw [FMap.get_erase] at hx
    split at hx
    · cases hx
    · exact h.mark b x hx

theorem marks_undelegateOf {e : Nat} {s : State} {ps : List Payment} (d : AccId) (h : Marks e s.delegators ps) :
    (undelegateOf s d).block = s.block ∧ Marks e (undelegateOf s d).delegators ps := by
  unfold undelegateOf
  cases hd : s.delegators.get d with
  | none => exact ⟨rfl, h⟩
  | some x =>
    simp only
    split
    · exact ⟨rfl, h⟩
    · split
      · exact ⟨rfl, h.erase d⟩
      · refine ⟨rfl, fun a y hy => ?_, fun a y hy => ?_, h.past, h.order⟩
        · rw [FMap.get_insert] at hy
          split at hy
          · rename_i e; cases hy; rw [e]; exact h.who d x hd
          · exact h.who a y hy
        · rw [FMap.get_insert] at hy
          split at hy
          · rename_i e; cases hy; rw [e]; exact h.mark d x hd
          · exact h.mark a y hy

theorem marks_undelegates {e : Nat} {ps : List Payment} (ds : List AccId) : ∀ {s : State}, Marks e s.delegators ps →
    (ds.foldl undelegateOf s).block = s.block ∧ Marks e (ds.foldl undelegateOf s).delegators ps := by
  induction ds with
  | nil => intro s h; exact ⟨rfl, h⟩
  | cons d ds ih =>
    intro s h
    obtain ⟨h1, h2⟩ := marks_undelegateOf d h
    obtain ⟨h3, h4⟩ := ih h2
    exact ⟨h3.trans h1, h4⟩

theorem settle_block (s : State) (d : Delegator) (e : Nat) : (settle s d e).block = s.block := by
  unfold settle
  split <;> rfl

theorem marks_settle {e : Nat} {s : State} {d : Delegator} {ps : List Payment} (hd : s.delegators.get d.who = some d)
    (h : Marks e s.delegators ps) (hn : d.since.getD e ≠ e) (v : Option Balance) :
    Marks e (settle s d e).delegators (ps ++ [⟨d.who, d.since.getD e, e - 1, v⟩]) := by
  obtain ⟨n, h1, h2, h3⟩ := h.mark _ d hd
  rw [h1] at hn ⊢
  simp only [Option.getD_some] at hn ⊢
  have hlt : n < e := by omega
  have hpast : ∀ p ∈ ps ++ [(⟨d.who, n, e - 1, v⟩ : Payment)], p.first ≤ p.last ∧ p.last < e := by
    intro p hp
    rcases List.mem_append.mp hp with hp | hp
    · exact h.past p hp
    · simp only [List.mem_singleton] at hp
      subst hp
      simp only
      omega
  have hord : (ps ++ [(⟨d.who, n, e - 1, v⟩ : Payment)]).Pairwise fun p q => p.who = q.who → p.last < q.first := by
    rw [List.pairwise_append]
    refine ⟨h.order, List.pairwise_singleton _ _, fun p hp q hq => ?_⟩
    simp only [List.mem_singleton] at hq
    subst hq
    exact h3 p hp
  have hmark : ∀ a x, a ≠ d.who → s.delegators.get a = some x → ∃ m, x.since = some m ∧ m ≤ e ∧
      ∀ p ∈ ps ++ [(⟨d.who, n, e - 1, v⟩ : Payment)], p.who = a → p.last < m := by
    intro a x ha hx
    obtain ⟨m, g1, g2, g3⟩ := h.mark a x hx
    refine ⟨m, g1, g2, fun p hp hw => ?_⟩
    rcases List.mem_append.mp hp with hp | hp
    · exact g3 p hp hw
    · simp only [List.mem_singleton] at hp
      subst hp
      exact absurd hw.symm ha
  unfold settle
  split
  · simp only [hd, Option.getD_some]
    refine ⟨fun a x hx => ?_, fun a x hx => ?_, hpast, hord⟩
    · rw [FMap.get_insert] at hx
      split at hx
      · rename_i e; cases hx; exact e.symm
      · exact h.who a x hx
    · rw [FMap.get_insert] at hx
      split at hx
      · cases hx; exact ⟨e, rfl, Nat.le_refl _, fun p hp _ => (hpast p hp).2⟩
      · rename_i ha; exact hmark a x ha hx
  · refine ⟨fun a x hx => ?_, fun a x hx => ?_, hpast, hord⟩
    · rw [FMap.get_erase] at hx
      split at hx
      · cases hx
      · exact h.who a x hx
    · rw [FMap.get_erase] at hx
      split at hx
      · cases hx
      · rename_i ha; exact hmark a x ha hx

theorem marks_payDelegators (cfg : Cfg) {s : State} {ps : List Payment} (r : AccId → Nat → Nat → Option Balance)
    (h : Marks (creditEra cfg s) s.delegators ps) :
    (payDelegators cfg s r).1.block = s.block ∧
    Marks (creditEra cfg s) (payDelegators cfg s r).1.delegators (ps ++ (payDelegators cfg s r).2) := by
  refine payDelegators_inv (P := fun t l => t.block = s.block ∧ Marks (creditEra cfg s) t.delegators (ps ++ l)) ?_ ?_ ?_ ?_
  · intro s t l hg hi
    obtain ⟨g1, _, _, _, g5⟩ := graph_eq hg
    rw [g1, g5]; exact hi
  · intro u d l hd hi hn
    rw [settle_block, ← List.append_assoc]
    exact ⟨hi.1, marks_settle hd hi.2 hn _⟩
  · intro s l a d hi hd
    exact hi.2.who a d hd
  · simpa using h

theorem creditEra_mono (cfg : Cfg) {s t : State} (h : s.block ≤ t.block) : creditEra cfg s ≤ creditEra cfg t :=
  Nat.div_le_div_right h

theorem marks_onBlock (cfg : Cfg) {s : State} {ps : List Payment} (r : AccId → Nat → Nat → Option Balance)
    (h : Marks (creditEra cfg s) s.delegators ps) :
    (onBlock cfg s r).1.block = s.block + 1 ∧
    Marks (creditEra cfg (onBlock cfg s r).1) (onBlock cfg s r).1.delegators (ps ++ (onBlock cfg s r).2) := by
  have h1 : Marks (creditEra cfg { s with block := s.block + 1 }) s.delegators ps :=
    h.later (Nat.div_le_div_right (Nat.le_succ _))
  unfold onBlock
  simp only
  split
  · exact ⟨rfl, by rw [List.append_nil]; exact h1⟩
  split
  · exact ⟨rfl, by rw [List.append_nil]; exact h1⟩
  obtain ⟨e, h2⟩ := marks_payDelegators cfg (s := { s with block := s.block + 1 }) r h1
  refine ⟨e, ?_⟩
  have : creditEra cfg (payDelegators cfg { s with block := s.block + 1 } r).1 = creditEra cfg { s with block := s.block + 1 } := by
    unfold creditEra; rw [e]
  rw [this]; exact h2

theorem marks_step (cfg : Cfg) {s : State} (op : Op) {ps : List Payment} (h : Marks (creditEra cfg s) s.delegators ps) :
    s.block ≤ (step cfg s op).1.block ∧
    Marks (creditEra cfg (step cfg s op).1) (step cfg s op).1.delegators (ps ++ (step cfg s op).2.payments) := by
  generalize hr : step cfg s op = r
  have hk := step_kind cfg s op
  rw [hr] at hk
  have same : ∀ t : State, t.block = s.block → Marks (creditEra cfg s) t.delegators ps →
      s.block ≤ t.block ∧ Marks (creditEra cfg t) t.delegators (ps ++ []) := by
    intro t e hm
    have : creditEra cfg t = creditEra cfg s := by unfold creditEra; rw [e]
    rw [this, e, List.append_nil]; exact ⟨Nat.le_refl _, hm⟩
  cases hk with
  | same _ t o hg hn =>
    obtain ⟨g1, _, _, _, g5⟩ := graph_eq hg
    rw [hn]
    exact same t g5 (by rw [g1]; exact h)
  | join _ d vs t he => exact same t (marks_doDelegate h he).1 (marks_doDelegate h he).2
  | quit _ ds => exact same _ (marks_undelegates ds h).1 (marks_undelegates ds h).2
  | block r =>
    obtain ⟨e, h2⟩ := marks_onBlock cfg r h
    exact ⟨by simp only [e]; omega, h2⟩
  | era order =>
    obtain ⟨era, l, e⟩ := newEra_graph s order
    simp only [graph, Prod.mk.injEq] at e
    obtain ⟨e1, _, _, _, e5⟩ := e
    exact same _ e5 (by rw [e1]; exact h)

/-- Payments of a trace in their order. -/
def paymentsOf (t : List (State × Op × Out)) : List Payment := t.flatMap fun e => e.2.2.payments

theorem marks_run (cfg : Cfg) {s : State} {ps : List Payment} (h : Marks (creditEra cfg s) s.delegators ps) (ops : List Op) :
    Marks (creditEra cfg (run cfg s ops).1) (run cfg s ops).1.delegators (ps ++ paymentsOf (run cfg s ops).2) := by
  induction ops generalizing s ps with
  | nil => simpa [run, paymentsOf] using h
  | cons op ops ih =>
    have := ih (marks_step cfg op h).2
    simpa [run, paymentsOf, List.append_assoc] using this

theorem marks_genesis (cfg : Cfg) (bank : Bank) (m : Balance) : Marks (creditEra cfg (genesis bank m)) (genesis bank m).delegators [] :=
  ⟨(fun _ _ h => nomatch h), (fun _ _ h => nomatch h), (fun _ h => nomatch h), List.Pairwise.nil⟩

/-- The marker of an account does not go back. -/
theorem mark_mono (cfg : Cfg) {s : State} {ps : List Payment} (h : Marks (creditEra cfg s) s.delegators ps) (ops : List Op) {a : AccId}
    {d d' : Delegator} {x y : Nat} (hd : s.delegators.get a = some d) (hx : d.since = some x)
    (hd' : (run cfg s ops).1.delegators.get a = some d') (hy : d'.since = some y) : x ≤ y := by
  obtain ⟨n, h1, h2, h3⟩ := h.mark a d hd
  rw [hx] at h1; cases h1
  by_cases h0 : x = 0
  · omega
  have hm : Marks (creditEra cfg s) s.delegators [⟨a, x - 1, x - 1, none⟩] := by
    refine ⟨h.who, fun b e hb => ?_, fun p hp => ?_, List.pairwise_singleton _ _⟩
    · obtain ⟨n, g1, g2, g3⟩ := h.mark b e hb
      refine ⟨n, g1, g2, fun p hp hw => ?_⟩
      simp only [List.mem_singleton] at hp
      subst hp
      simp only at hw ⊢
      subst hw
      rw [hd] at hb; cases hb
      rw [hx] at g1; cases g1
      omega
    · simp only [List.mem_singleton] at hp
      subst hp
      simp only
      omega
  obtain ⟨n, g1, _, g3⟩ := (marks_run cfg hm ops).mark a d' hd'
  rw [hy] at g1; cases g1
  have := g3 ⟨a, x - 1, x - 1, none⟩ (by simp) rfl
  simp only at this
  omega

/-! ### Referrals -/

/-- The part of the state referrals consist of. -/
def refs (s : State) : FMap AccId AccId × FMap AccId Nat := (s.referer, s.refereeCount)

theorem refs_payEachValidator (cfg : Cfg) (p : Points) (v : Balance) (vs : List AccId) : ∀ (s : State) (t : Balance),
    refs (payEachValidator cfg p v vs s t).1 = refs s := by
  induction vs with
  | nil => intro s t; rfl
  | cons x vs ih =>
    intro s t
    unfold payEachValidator
    split
    · exact ih s t
    · rw [ih]; rfl

theorem refs_payDelegator (s : State) (d : Delegator) (era : Nat) (pool : Balance) (reward : AccId → Nat → Nat → Option Balance) :
    refs (payDelegator s d era pool reward).1 = refs s := by
  have hs : ∀ t : State, refs (settle t d era) = refs t := by
    intro t; unfold settle; split <;> rfl
  unfold payDelegator
  simp only
  split
  · rfl
  · rw [hs]
    split <;> rfl

theorem refs_payReferer (s : State) (d : AccId) (v p : Balance) : refs (payReferer s d v p).1 = refs s := by
  unfold payReferer
  split
  · rfl
  · split <;> rfl

theorem refs_payLoop (cfg : Cfg) (era : Nat) (reward : AccId → Nat → Nat → Option Balance) : ∀ (n : Nat) (l : Loop),
    refs (payLoop cfg era reward n l).s = refs l.s := by
  intro n
  induction n with
  | zero => intro l; rfl
  | succ n ih =>
    intro l
    unfold payLoop
    split
    · rfl
    · split
      · rfl
      · simp only
        split
        · exact refs_payDelegator _ _ _ _ _
        · split
          · rw [refs_payReferer, refs_payDelegator]
          · rw [ih, refs_payReferer, refs_payDelegator]

theorem refs_onBlock (cfg : Cfg) (s : State) (reward : AccId → Nat → Nat → Option Balance) : refs (onBlock cfg s reward).1 = refs s := by
  unfold onBlock
  simp only
  split
  · rfl
  split
  · rfl
  unfold payDelegators
  split
  · rfl
  · exact refs_payLoop cfg _ reward _ _

theorem refs_undelegateOf (s : State) (d : AccId) : refs (undelegateOf s d) = refs s := by
  unfold undelegateOf
  split
  · rfl
  · split
    · rfl
    · simp only
      split <;> rfl

theorem refs_undelegates (ds : List AccId) : ∀ s : State, refs (ds.foldl undelegateOf s) = refs s := by
  induction ds with
  | nil => intro s; rfl
  | cons d ds ih => intro s; rw [List.foldl_cons, ih, refs_undelegateOf]

theorem refs_newEra (s : State) (order : List AccId) : refs (newEra s order).1 = refs s := by
  have h1 : refs (enterEra s (nextEra s)) = refs s := by unfold enterEra; simp only; split <;> rfl
  have h2 : ∀ (u : State) (l : Option (List AccId)) (e : Nat), refs (storeElected u e l) = refs u := by
    intro u l e; cases l <;> rfl
  have h3 : ∀ (u : State) (e : Nat), refs (elect u e order).1 = refs u := by
    intro u e; unfold elect; simp only; split <;> rfl
  unfold newEra
  simp only
  rw [h2, h3, h1]

theorem refs_doDelegate {cfg : Cfg} {s t : State} {d : AccId} {vs : List AccId} (h : doDelegate cfg s d vs true = .ok t) : refs t = refs s := by
  unfold doDelegate at h
  simp only [Bool.true_eq_false, if_false] at h
  cases hd : s.delegators.get d with
  | none => rw [hd] at h; cases h; rfl
  | some x => rw [hd] at h; cases h; rfl

/-- Calls other than the two referral calls leave referrals alone. -/
theorem refs_step (cfg : Cfg) (s : State) (op : Op) :
    refs (step cfg s op).1 = refs s ∨ (∃ k a r, op = .setReferer k a r ∧ setReferer s k a r = .ok (step cfg s op).1) ∨
      ∃ k a, op = .unsetReferer k a ∧ unsetReferer s k a = .ok (step cfg s op).1 := by
  unfold step
  split
  case h_2 => exact .inl rfl
  case h_1 r hb =>
    cases op with
    | delegate d vs p =>
      obtain ⟨t, h, rfl⟩ := map_ok hb
      exact .inl (refs_doDelegate (doDelegate_pass (delegate_do h)))
    | delegateAny d o p =>
      obtain ⟨t, h, rfl⟩ := map_ok hb
      unfold delegateAny at h
      split at h
      · cases h
      · exact .inl (refs_doDelegate (doDelegate_pass h))
    | undelegate d =>
      obtain ⟨t, h, rfl⟩ := map_ok hb
      unfold undelegate at h
      split at h
      · cases h
      · cases h; exact .inl (refs_undelegateOf s d)
    | forceUndelegate r ds =>
      simp only [body] at hb
      split at hb
      · cases hb
      · cases hb; exact .inl (refs_undelegates ds s)
    | forceUnstaking k d =>
      simp only [body] at hb
      split at hb
      · cases hb
      · cases hb; exact .inl (refs_undelegateOf s d)
    | setReferer k a r =>
      obtain ⟨t, h, rfl⟩ := map_ok hb
      exact .inr (.inl ⟨k, a, r, rfl, h⟩)
    | unsetReferer k a =>
      obtain ⟨t, h, rfl⟩ := map_ok hb
      exact .inr (.inr ⟨k, a, rfl, h⟩)
    | blackList k a e =>
      simp only [body] at hb
      split at hb
      · cases hb
      · cases hb; exact .inl rfl
    | npowMint k t v =>
      obtain ⟨t, h, rfl⟩ := map_ok hb
      unfold npowMint at h
      split at h; · cases h
      split at h; · cases h
      cases h; exact .inl rfl
    | compensate k l d r p =>
      obtain ⟨t, h, rfl⟩ := map_ok hb
      unfold compensate at h
      split at h; · cases h
      split at h; · cases h
      cases h; exact .inl rfl
    | increasePool r v =>
      obtain ⟨t, h, rfl⟩ := map_ok hb
      unfold increasePool at h
      split at h; · cases h
      cases h; exact .inl rfl
    | configure e c m w d => cases hb; exact .inl rfl
    | block r => cases hb; exact .inl (refs_onBlock cfg s r)
    | endEra e =>
      cases hb
      left
      show refs (payValidators cfg s e) = refs s
      unfold payValidators
      split
      · rfl
      · exact refs_payEachValidator cfg _ _ _ s 0
    | newEra o => cases hb; exact .inl (refs_newEra s o)
    | addPoints e v n => cases hb; exact .inl rfl
    | ledger op => cases hb; exact .inl rfl

/-- One per account naming `r`. -/
def names (r : AccId) : AccId → AccId → Nat := fun _ x => if x = r then 1 else 0

/-- Counts and referrals agree. -/
structure RInv (s : State) : Prop where
  count : ∀ r, countOf s r = s.referer.sum (names r)
  self : ∀ a, s.referer.get a ≠ some a

theorem rinv_set {s t : State} {k : Bool} {a r : AccId} (h : RInv s) (he : setReferer s k a r = .ok t) : RInv t := by
  unfold setReferer at he
  split at he; · cases he
  split at he; · cases he
  rename_i har
  cases he
  refine ⟨fun x => ?_, fun b hb => ?_⟩
  · have e := FMap.sum_insert s.referer a r (names x)
    have hle := FMap.at?_le_sum s.referer a (names x)
    have hx := h.count x
    have hr := h.count r
    cases ho : s.referer.get a with
    | none =>
      rw [FMap.at?_none ho] at e
      simp only [countOf, FMap.get_insert] at hx hr ⊢
      by_cases hxr : x = r
      · subst hxr
        simp [names] at e ⊢
        try simp only [names] at hx
        omega
      · have : ¬ r = x := fun h => hxr h.symm
        simp only [names, hxr, this, if_false] at e hx ⊢
        omega
    | some old =>
      rw [FMap.at?_some ho] at e hle
      simp only [countOf, FMap.get_insert] at hx hr ⊢
      have ho' := h.count old
      have hlo := FMap.at?_le_sum s.referer a (names old)
      rw [FMap.at?_some ho] at hlo
      simp only [countOf, names, if_true] at ho' hlo
      by_cases hxr : x = r
      · subst hxr
        by_cases hxo : x = old
        · subst hxo
          simp [names] at e hle ⊢
          try simp only [names] at hx
          omega
        · have : ¬ old = x := fun h => hxo h.symm
          simp [names, this, hxo] at e ⊢
          try simp only [names] at hx
          omega
      · have h1 : ¬ r = x := fun h => hxr h.symm
        by_cases hxo : x = old
        · subst hxo
          simp only [names, hxr, h1, if_false, if_true] at e hx hle ⊢
          simp
          omega
        · have h2 : ¬ old = x := fun h => hxo h.symm
          simp only [names, hxr, hxo, h1, h2, if_false] at e hx ⊢
          omega
  · simp only [FMap.get_insert] at hb
    split at hb
    · rename_i e; cases hb; exact har e.symm
    · exact h.self b hb

theorem rinv_unset {s t : State} {k : Bool} {a : AccId} (h : RInv s) (he : unsetReferer s k a = .ok t) : RInv t := by
  unfold unsetReferer at he
  split at he; · cases he
  cases he
  refine ⟨fun x => ?_, fun b hb => ?_⟩
  · have e := FMap.sum_erase s.referer a (names x)
    have hle := FMap.at?_le_sum s.referer a (names x)
    have hx := h.count x
    cases ho : s.referer.get a with
    | none =>
      rw [FMap.at?_none ho] at e
      simp only [countOf] at hx ⊢
      omega
    | some old =>
      rw [FMap.at?_some ho] at e hle
      simp only [countOf, FMap.get_insert] at hx ⊢
      by_cases hxo : x = old
      · subst hxo
        simp only [names, if_true] at e hx hle ⊢
        simp
        omega
      · have h2 : ¬ old = x := fun h => hxo h.symm
        simp only [names, hxo, h2, if_false] at e hx ⊢
        omega
  · simp only [FMap.get_erase] at hb
    split at hb
    · cases hb
    · exact h.self b hb

theorem rinv_step (cfg : Cfg) (s : State) (op : Op) (h : RInv s) : RInv (step cfg s op).1 := by
  rcases refs_step cfg s op with e | ⟨k, a, r, _, e⟩ | ⟨k, a, _, e⟩
  · simp only [refs, Prod.mk.injEq] at e
    refine ⟨fun r => ?_, fun a => ?_⟩
    · unfold countOf; rw [e.1, e.2]; exact h.count r
    · rw [e.1]; exact h.self a
  · exact rinv_set h e
  · exact rinv_unset h e

end Verif.Delegation
