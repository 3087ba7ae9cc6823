import Verif.PayoutLiveness

/-
Property C93: when the calls around delegations succeed, and what they change.
-/

namespace Verif.Delegation

open Verif

/-! ### Specification -/

/-- When a call succeeds. -/
def allowed (cfg : Cfg) (s : State) : Op → Prop
  | .delegate d vs pass =>
    s.led.closed = true ∧ s.led.validators.get d = none ∧ vs ≠ [] ∧ vs.eraseDups.length ≤ cfg.maxDelegates ∧
      (∀ v ∈ vs, ∃ p, s.led.validators.get v = some p) ∧ pass = true
  | .delegateAny _ order pass => order ≠ [] ∧ pass = true
  | .undelegate d => ∃ x, s.delegators.get d = some x
  | .forceUndelegate root _ => root = true
  | .forceUnstaking admin _ => admin = true
  | .setReferer admin a r => admin = true ∧ a ≠ r
  | .unsetReferer admin _ => admin = true
  | .blackList admin _ _ => admin = true
  | .npowMint privileged _ v => privileged = true ∧ v ≤ poolOf cfg s
  | .compensate privileged limitOk _ _ _ => privileged = true ∧ limitOk = true
  | .increasePool root _ => root = true
  | _ => True

/-- What is not an extrinsic. -/
def hook : Op → Bool
  | .block _ => true
  | .newEra _ => true
  | _ => false

/-- The record after the delegation of an account has ended: gone if nothing is left to be paid, otherwise idle. -/
def ended (s : State) (x : Delegator) : Option Delegator :=
  if x.delegating = false then some x
  else if x.since = none ∨ x.since = some (s.led.era.getD 0) then none
  else some { x with delegating := false }

/-- The record after a payout. -/
def paidRecord (era : Nat) (x : Delegator) : Option Delegator :=
  if x.delegating then some { x with since := some era } else none

/-! ### Acceptance -/

theorem step_done {cfg : Cfg} {s : State} {op : Op} {e : Except Err State} (h : body cfg s op = e.map (·, .done)) :
    (step cfg s op).2 = .done ↔ ∃ t, e = .ok t := by
  unfold step
  rw [h]
  cases e with
  | error x => simp [Except.map]
  | ok t => simp [Except.map]

theorem step_ok {cfg : Cfg} {s t : State} {op : Op} {e : Except Err State} (h : body cfg s op = e.map (·, .done)) (ht : e = .ok t) :
    (step cfg s op).1 = t := by
  unfold step
  rw [h, ht]
  rfl

theorem doDelegate_iff (cfg : Cfg) (s : State) (d : AccId) (vs : List AccId) (p : Bool) : (∃ t, doDelegate cfg s d vs p = .ok t) ↔ p = true := by
  unfold doDelegate
  cases p with
  | false => simp
  | true => simp

/-- C93: a call succeeds exactly under the stated conditions; one that does not succeed changes nothing. -/
theorem C93_accepted (cfg : Cfg) (s : State) (op : Op) (h : hook op = false) :
    ((step cfg s op).2 = .done ↔ allowed cfg s op) ∧ (¬ allowed cfg s op → (step cfg s op).1 = s) := by
  have main : (step cfg s op).2 = .done ↔ allowed cfg s op := by
    cases op with
    | delegate d vs p =>
      rw [step_done (e := delegate cfg s d vs p) rfl]
      unfold delegate allowed
      have hc : s.led.validators.contains d = true ↔ ¬ s.led.validators.get d = none := by
        rw [FMap.contains_iff]
        cases s.led.validators.get d <;> simp
      have ha : (vs.all fun v => s.led.validators.contains v) = true ↔ ∀ v ∈ vs, ∃ p, s.led.validators.get v = some p := by
        simp only [List.all_eq_true, FMap.contains_iff]
      by_cases h1 : s.led.closed = false
      · simp [h1]
      have h1' : s.led.closed = true := by simpa using h1
      by_cases h2 : s.led.validators.contains d = true
      · simp [h1', h2, hc.1 h2]
      have h2' : s.led.validators.get d = none := by rw [hc, Classical.not_not] at h2; exact h2
      by_cases h3 : vs = []
      · simp [h1', h2, h3]
      by_cases h4 : cfg.maxDelegates < vs.eraseDups.length
      · simp [h1', h2, h3, h4, Nat.not_le.2 h4]
      by_cases h5 : (vs.all fun v => s.led.validators.contains v) = false
      · have h5' : ¬ ∀ v ∈ vs, ∃ p, s.led.validators.get v = some p := by rw [← ha, h5]; simp
        simp only [h1, h2, h3, h4, h5, if_true, if_false]
        constructor
        · rintro ⟨t, ht⟩; simp at ht
        · rintro ⟨_, _, _, _, h, _⟩; exact absurd h h5'
      · have h5' : ∀ v ∈ vs, ∃ p, s.led.validators.get v = some p := by rw [← ha]; simpa using h5
        simp only [h1, h2, h3, h4, h5, if_false]
        simp only [Bool.true_eq_false, Bool.false_eq_true, if_false]
        rw [doDelegate_iff]
        exact ⟨fun h => ⟨trivial, h2', h3, Nat.le_of_not_lt h4, h5', h⟩, fun h => h.2.2.2.2.2⟩
    | delegateAny d o p =>
      rw [step_done (e := delegateAny cfg s d o p) rfl]
      unfold delegateAny allowed
      cases o with
      | nil => simp
      | cons v o =>
        have hlt : s.block % (v :: o).length < (v :: o).length := Nat.mod_lt _ (by simp)
        rw [List.getElem?_eq_getElem hlt]
        simp only [doDelegate_iff]
        simp
    | undelegate d =>
      rw [step_done (e := undelegate s d) rfl]
      unfold undelegate
      simp only [allowed]
      rw [← FMap.contains_iff]
      cases s.delegators.contains d <;> simp
    | forceUndelegate r ds => cases r <;> simp [step, body, allowed]
    | forceUnstaking k d => cases k <;> simp [step, body, allowed]
    | setReferer k a r =>
      rw [step_done (e := setReferer s k a r) rfl]
      unfold setReferer allowed
      cases k
      · simp
      · by_cases ha : a = r <;> simp [ha]
    | unsetReferer k a =>
      rw [step_done (e := unsetReferer s k a) rfl]
      unfold unsetReferer allowed
      cases k <;> simp
    | blackList k a e => cases k <;> simp [step, body, allowed]
    | npowMint k t v =>
      rw [step_done (e := npowMint cfg s k t v) rfl]
      unfold npowMint allowed
      cases k
      · simp
      · by_cases hv : poolOf cfg s < v
        · simp [hv]
        · simp [hv, Nat.le_of_not_lt hv]
    | compensate k l d r p =>
      rw [step_done (e := compensate cfg s k l d r p) rfl]
      unfold compensate allowed
      cases k <;> cases l <;> simp
    | increasePool r v =>
      rw [step_done (e := increasePool cfg s r v) rfl]
      unfold increasePool allowed
      cases r <;> simp
    | configure e c m w d => simp [step, body, allowed]
    | block r => cases h
    | endEra e => simp [step, body, allowed]
    | newEra o => cases h
    | addPoints e v n => simp [step, body, allowed]
    | ledger op => simp [step, body, allowed]
  refine ⟨main, fun hn => ?_⟩
  rw [← main] at hn
  unfold step at hn ⊢
  cases hb : body cfg s op with
  | error e => rfl
  | ok r =>
    rw [hb] at hn
    exfalso
    apply hn
    simp only
    cases op with
    | delegate d vs p => obtain ⟨t, _, rfl⟩ := map_ok hb; rfl
    | delegateAny d o p => obtain ⟨t, _, rfl⟩ := map_ok hb; rfl
    | undelegate d => obtain ⟨t, _, rfl⟩ := map_ok hb; rfl
    | forceUndelegate r ds =>
      simp only [body] at hb
      split at hb
      · cases hb
      · cases hb; rfl
    | forceUnstaking k d =>
      simp only [body] at hb
      split at hb
      · cases hb
      · cases hb; rfl
    | setReferer k a r => obtain ⟨t, _, rfl⟩ := map_ok hb; rfl
    | unsetReferer k a => obtain ⟨t, _, rfl⟩ := map_ok hb; rfl
    | blackList k a e =>
      simp only [body] at hb
      split at hb
      · cases hb
      · cases hb; rfl
    | npowMint k t v => obtain ⟨t, _, rfl⟩ := map_ok hb; rfl
    | compensate k l d r p => obtain ⟨t, _, rfl⟩ := map_ok hb; rfl
    | increasePool r v => obtain ⟨t, _, rfl⟩ := map_ok hb; rfl
    | configure e c m w d => cases hb; rfl
    | block r => cases h
    | endEra e => cases hb; rfl
    | newEra o => cases h
    | addPoints e v n => cases hb; rfl
    | ledger op => cases hb; rfl

/-! ### Records -/

/-- What a call makes of the record of an account. -/
def recordAfter (cfg : Cfg) (s : State) (a : AccId) : Op → Option Delegator
  | .delegate d vs _ =>
    if d = a then some ⟨a, vs, some (((s.delegators.get a).bind Delegator.since).getD (s.block / cfg.blocksPerEra)), true⟩ else s.delegators.get a
  | .delegateAny d order _ =>
    if d = a then
      some ⟨a, (order[s.block % order.length]?).toList, some (((s.delegators.get a).bind Delegator.since).getD (s.block / cfg.blocksPerEra)), true⟩
    else s.delegators.get a
  | .undelegate d => if d = a then (s.delegators.get a).bind (ended s) else s.delegators.get a
  | .forceUnstaking _ d => if d = a then (s.delegators.get a).bind (ended s) else s.delegators.get a
  | .forceUndelegate _ ds => if a ∈ ds then (s.delegators.get a).bind (ended s) else s.delegators.get a
  | _ => s.delegators.get a

theorem doDelegate_record {cfg : Cfg} {s t : State} {d : AccId} {vs : List AccId} {p : Bool} (h : doDelegate cfg s d vs p = .ok t) (a : AccId) :
    t.delegators.get a = if d = a then some ⟨a, vs, some (((s.delegators.get a).bind Delegator.since).getD (s.block / cfg.blocksPerEra)), true⟩
      else s.delegators.get a := by
  unfold doDelegate at h
  split at h
  · cases h
  cases h
  by_cases hd : d = a
  · subst hd
    cases ho : s.delegators.get d with
    | none => simp only [ho, FMap.get_insert_self, if_true]; rfl
    | some old =>
      simp only [ho, FMap.get_insert_self, if_true, Option.bind_some]; rfl
  · have hne : a ≠ d := fun h => hd h.symm
    cases ho : s.delegators.get d with
    | none => simp only [ho, FMap.get_insert_ne _ _ hne, if_neg hd]
    | some old => simp only [ho, FMap.get_insert_ne _ _ hne, if_neg hd]

theorem undelegateOf_record (s : State) (d a : AccId) :
    (undelegateOf s d).delegators.get a = if d = a then (s.delegators.get a).bind (ended s) else s.delegators.get a := by
  by_cases hd : d = a
  · subst hd
    rw [if_pos rfl]
    unfold undelegateOf
    cases ho : s.delegators.get d with
    | none => simp only [ho, Option.bind_none]
    | some x =>
      simp only [Option.bind_some, ended]
      by_cases h1 : x.delegating = false
      · simp [h1, ho]
      · simp only [if_neg h1]
        by_cases h2 : x.since = none ∨ x.since = some (s.led.era.getD 0)
        · simp only [if_pos h2, FMap.get_erase_self]
        · simp only [if_neg h2, FMap.get_insert_self]
  · rw [if_neg hd, undelegateOf_get s d a fun h => hd h.symm]

theorem ended_ended (s t : State) (h : t.led = s.led) (x : Delegator) : (ended s x).bind (ended t) = ended s x := by
  unfold ended
  rw [h]
  by_cases h1 : x.delegating = false
  · simp [h1]
  · simp only [if_neg h1]
    split
    · rfl
    · rfl

theorem undelegates_record (ds : List AccId) (a : AccId) : ∀ s : State, (ds.foldl undelegateOf s).delegators.get a =
    if a ∈ ds then (s.delegators.get a).bind (ended s) else s.delegators.get a := by
  induction ds with
  | nil => intro s; simp
  | cons d ds ih =>
    intro s
    rw [List.foldl_cons, ih, undelegateOf_record]
    have hl := (undelegateOf_cursor s d).2
    by_cases hd : d = a
    · subst hd
      simp only [if_true, List.mem_cons, true_or]
      split
      · cases s.delegators.get d with
        | none => rfl
        | some x => exact ended_ended s _ hl x
      · rfl
    · have hne : a ≠ d := fun h => hd h.symm
      have he : ended (undelegateOf s d) = ended s := by funext x; unfold ended; rw [hl]
      simp only [if_neg hd, List.mem_cons, hne, false_or, he]

/-- C93: the record of an account changes by its own calls, by calls of root or an administrator naming it and by
payouts to it, and this is how. -/
theorem C93_records (cfg : Cfg) (s : State) (op : Op) (h : hook op = false) (ha : allowed cfg s op) (a : AccId) :
    (step cfg s op).1.delegators.get a = recordAfter cfg s a op := by
  have hdone := (C93_accepted cfg s op h).1.2 ha
  have same : graph (step cfg s op).1 = graph s → (step cfg s op).1.delegators.get a = s.delegators.get a := fun e => by
    rw [(graph_eq e).1]
  cases op with
  | delegate d vs p =>
    obtain ⟨t, ht⟩ := (step_done (e := delegate cfg s d vs p) rfl).1 hdone
    rw [step_ok (e := delegate cfg s d vs p) rfl ht]
    exact doDelegate_record (delegate_do ht) a
  | delegateAny d o p =>
    obtain ⟨t, ht⟩ := (step_done (e := delegateAny cfg s d o p) rfl).1 hdone
    rw [step_ok (e := delegateAny cfg s d o p) rfl ht]
    unfold delegateAny at ht
    split at ht
    · cases ht
    · rename_i v hv
      rw [doDelegate_record ht a]
      simp only [recordAfter, hv, Option.toList_some]
  | undelegate d =>
    obtain ⟨t, ht⟩ := (step_done (e := undelegate s d) rfl).1 hdone
    rw [step_ok (e := undelegate s d) rfl ht]
    unfold undelegate at ht
    split at ht
    · cases ht
    · cases ht; exact undelegateOf_record s d a
  | forceUndelegate r ds =>
    change r = true at ha
    subst ha
    exact undelegates_record ds a s
  | forceUnstaking k d =>
    change k = true at ha
    subst ha
    exact undelegateOf_record s d a
  | block r => cases h
  | newEra o => cases h
  | setReferer k x y =>
    obtain ⟨t, ht⟩ := (step_done (e := setReferer s k x y) rfl).1 hdone
    rw [step_ok (e := setReferer s k x y) rfl ht]
    unfold setReferer at ht
    split at ht; · cases ht
    split at ht; · cases ht
    cases ht; rfl
  | unsetReferer k x =>
    obtain ⟨t, ht⟩ := (step_done (e := unsetReferer s k x) rfl).1 hdone
    rw [step_ok (e := unsetReferer s k x) rfl ht]
    unfold unsetReferer at ht
    split at ht; · cases ht
    cases ht; rfl
  | blackList k x e =>
    change k = true at ha
    subst ha
    rfl
  | npowMint k x v =>
    obtain ⟨t, ht⟩ := (step_done (e := npowMint cfg s k x v) rfl).1 hdone
    rw [step_ok (e := npowMint cfg s k x v) rfl ht]
    unfold npowMint at ht
    split at ht; · cases ht
    split at ht; · cases ht
    cases ht; rfl
  | compensate k l d r p =>
    obtain ⟨t, ht⟩ := (step_done (e := compensate cfg s k l d r p) rfl).1 hdone
    rw [step_ok (e := compensate cfg s k l d r p) rfl ht]
    unfold compensate at ht
    split at ht; · cases ht
    split at ht; · cases ht
    cases ht; rfl
  | increasePool r v =>
    change r = true at ha
    subst ha
    rfl
  | configure e c m w d => rfl
  | endEra e => exact same (graph_payValidators cfg s e)
  | addPoints e v n => rfl
  | ledger op => rfl

/-- C93: a block changes the records of those it pays and of nobody else. -/
theorem C93_paid_records (cfg : Cfg) (bank : Bank) (m : Balance) (ops : List Op) (r : AccId → Nat → Nat → Option Balance) (a : AccId) :
    let s := (run cfg (genesis bank m) ops).1
    let s' := (step cfg s (.block r)).1
    ∃ l, (step cfg s (.block r)).2 = .paid l ∧
    ((∀ p ∈ l, p.who ≠ a) → s'.delegators.get a = s.delegators.get a) ∧
    ((∃ p ∈ l, p.who = a) → ∃ x, s.delegators.get a = some x ∧ s'.delegators.get a = paidRecord (s'.block / cfg.blocksPerEra) x) := by
  intro s s'
  refine ⟨(onBlock cfg s r).2, rfl, ?_⟩
  have hg : GInv s := run_inv (inv_step cfg) (inv_genesis bank m) ops
  have hb : s'.block = s.block + 1 := onBlock_block cfg s r
  rw [hb]
  change ((∀ p ∈ (onBlock cfg s r).2, p.who ≠ a) → (onBlock cfg s r).1.delegators.get a = _) ∧
    ((∃ p ∈ (onBlock cfg s r).2, p.who = a) → ∃ x, _ ∧ (onBlock cfg s r).1.delegators.get a = _)
  unfold onBlock
  simp only
  split
  · exact ⟨fun _ => rfl, fun ⟨p, hp, _⟩ => by cases hp⟩
  split
  · exact ⟨fun _ => rfl, fun ⟨p, hp, _⟩ => by cases hp⟩
  have key := payDelegators_inv (cfg := cfg) (s := { s with block := s.block + 1 }) (reward := r)
    (P := fun u l => ∀ a, (∀ y, u.delegators.get a = some y → y.who = a) ∧
      ((∀ p ∈ l, p.who ≠ a) → u.delegators.get a = s.delegators.get a) ∧
      ((∃ p ∈ l, p.who = a) → ∃ x, s.delegators.get a = some x ∧
        u.delegators.get a = paidRecord ((s.block + 1) / cfg.blocksPerEra) x)) ?_ ?_ ?_ ?_
  · exact (key a).2
  · intro u t l hgr hi b
    rw [(graph_eq hgr).1]; exact hi b
  · intro u d l hd hi hne b
    have hera : creditEra cfg { s with block := s.block + 1 } = (s.block + 1) / cfg.blocksPerEra := rfl
    rw [hera] at hne ⊢
    by_cases hbd : b = d.who
    · subst hbd
      obtain ⟨i1, i2, i3⟩ := hi d.who
      have hnew : ∀ p ∈ l, p.who ≠ d.who := by
        intro p hp hpw
        obtain ⟨x, hx, hu⟩ := i3 ⟨p, hp, hpw⟩
        rw [hd] at hu
        unfold paidRecord at hu
        split at hu
        · cases hu; exact hne rfl
        · cases hu
      have hsd := i2 hnew
      rw [hd] at hsd
      have hset : (settle u d ((s.block + 1) / cfg.blocksPerEra)).delegators.get d.who = paidRecord ((s.block + 1) / cfg.blocksPerEra) d := by
        unfold settle paidRecord
        split
        · simp only [hd, Option.getD_some, FMap.get_insert_self]
        · simp only [FMap.get_erase_self]
      refine ⟨fun y hy => ?_, fun hp => ?_, fun _ => ⟨d, hsd.symm, hset⟩⟩
      · rw [hset] at hy
        unfold paidRecord at hy
        split at hy
        · cases hy; rfl
        · cases hy
      · exact absurd rfl (hp _ (List.mem_append_right _ (List.mem_singleton.2 rfl)))
    · obtain ⟨i1, i2, i3⟩ := hi b
      rw [settle_others u d _ b hbd]
      refine ⟨i1, fun hp => i2 fun p h => hp p (List.mem_append_left _ h), fun hp => i3 ?_⟩
      obtain ⟨p, hp, hpw⟩ := hp
      rcases List.mem_append.1 hp with h | h
      · exact ⟨p, h, hpw⟩
      · rw [List.mem_singleton] at h
        subst h
        exact absurd hpw.symm hbd
  · intro u l b d hi hd
    exact (hi b).1 d hd
  · intro b
    exact ⟨fun y hy => hg.who b y hy, fun _ => rfl, fun ⟨p, hp, _⟩ => by cases hp⟩

/-! ### Pool, balances, black list -/

/-- The pool after a call. -/
def poolAfter (cfg : Cfg) (s : State) : Op → Balance
  | .npowMint _ _ v => poolOf cfg s - v
  | .compensate _ _ _ referee poc => poolOf cfg s - (referee + poc)
  | .increasePool _ v => poolOf cfg s + v
  | _ => poolOf cfg s

/-- What a call credits. -/
def creditOf (cfg : Cfg) (s : State) : Op → List (AccId × Balance)
  | .npowMint _ t v => [(t, v)]
  | .compensate _ _ d referee poc => [(d, min (poolOf cfg s) (referee + poc))]
  | _ => []

/-- The black list after a call. -/
def blackAfter (s : State) (a : AccId) : Op → Option Nat
  | .blackList _ b e => if b = a then e else s.blackList.get a
  | _ => s.blackList.get a

/-- Ends of eras and changes of balances elsewhere. -/
def elsewhere : Op → Bool
  | .endEra _ => true
  | .ledger _ => true
  | _ => false

theorem doDelegate_money {cfg : Cfg} {s t : State} {d : AccId} {vs : List AccId} {p : Bool} (h : doDelegate cfg s d vs p = .ok t) :
    t.pool = s.pool ∧ t.led = s.led ∧ t.blackList = s.blackList := by
  unfold doDelegate at h
  split at h
  · cases h
  cases h
  simp only
  cases s.delegators.get d <;> exact ⟨rfl, rfl, rfl⟩

theorem undelegateOf_money (s : State) (d : AccId) :
    (undelegateOf s d).pool = s.pool ∧ (undelegateOf s d).led = s.led ∧ (undelegateOf s d).blackList = s.blackList := by
  unfold undelegateOf
  split
  · exact ⟨rfl, rfl, rfl⟩
  · split
    · exact ⟨rfl, rfl, rfl⟩
    · simp only
      split <;> exact ⟨rfl, rfl, rfl⟩

theorem undelegates_money (ds : List AccId) : ∀ s : State,
    (ds.foldl undelegateOf s).pool = s.pool ∧ (ds.foldl undelegateOf s).led = s.led ∧ (ds.foldl undelegateOf s).blackList = s.blackList := by
  induction ds with
  | nil => intro s; exact ⟨rfl, rfl, rfl⟩
  | cons d ds ih =>
    intro s
    obtain ⟨h1, h2, h3⟩ := ih (undelegateOf s d)
    obtain ⟨k1, k2, k3⟩ := undelegateOf_money s d
    exact ⟨h1.trans k1, h2.trans k2, h3.trans k3⟩

/-- C93: what the successful calls do to the pool, to balances and to the black list. -/
theorem C93_money (cfg : Cfg) (s : State) (op : Op) (h : hook op = false) (he : elsewhere op = false) (ha : allowed cfg s op) :
    let s' := (step cfg s op).1
    poolOf cfg s' = poolAfter cfg s op ∧ s'.led = { s.led with bank := credited s.led.bank (creditOf cfg s op) } ∧
    ∀ a, s'.blackList.get a = blackAfter s a op := by
  intro s'
  have hdone := (C93_accepted cfg s op h).1.2 ha
  have same : ∀ t : State, s' = t → t.pool = s.pool ∧ t.led = s.led ∧ t.blackList = s.blackList →
      poolOf cfg s' = poolOf cfg s ∧ s'.led = { s.led with bank := credited s.led.bank [] } ∧ ∀ a, s'.blackList.get a = s.blackList.get a := by
    rintro t rfl ⟨h1, h2, h3⟩
    refine ⟨?_, h2, fun a => by rw [h3]⟩
    unfold poolOf; rw [h1]
  cases op with
  | delegate d vs p =>
    obtain ⟨t, ht⟩ := (step_done (e := delegate cfg s d vs p) rfl).1 hdone
    exact same t (step_ok (e := delegate cfg s d vs p) rfl ht) (doDelegate_money (delegate_do ht))
  | delegateAny d o p =>
    obtain ⟨t, ht⟩ := (step_done (e := delegateAny cfg s d o p) rfl).1 hdone
    refine same t (step_ok (e := delegateAny cfg s d o p) rfl ht) ?_
    unfold delegateAny at ht
    split at ht
    · cases ht
    · exact doDelegate_money ht
  | undelegate d =>
    obtain ⟨t, ht⟩ := (step_done (e := undelegate s d) rfl).1 hdone
    refine same t (step_ok (e := undelegate s d) rfl ht) ?_
    unfold undelegate at ht
    split at ht
    · cases ht
    · cases ht; exact undelegateOf_money s d
  | forceUndelegate r ds =>
    change r = true at ha
    subst ha
    exact same _ rfl (undelegates_money ds s)
  | forceUnstaking k d =>
    change k = true at ha
    subst ha
    exact same _ rfl (undelegateOf_money s d)
  | block r => cases h
  | newEra o => cases h
  | setReferer k x y =>
    obtain ⟨t, ht⟩ := (step_done (e := setReferer s k x y) rfl).1 hdone
    refine same t (step_ok (e := setReferer s k x y) rfl ht) ?_
    unfold setReferer at ht
    split at ht; · cases ht
    split at ht; · cases ht
    cases ht; exact ⟨rfl, rfl, rfl⟩
  | unsetReferer k x =>
    obtain ⟨t, ht⟩ := (step_done (e := unsetReferer s k x) rfl).1 hdone
    refine same t (step_ok (e := unsetReferer s k x) rfl ht) ?_
    unfold unsetReferer at ht
    split at ht; · cases ht
    cases ht; exact ⟨rfl, rfl, rfl⟩
  | blackList k x e =>
    change k = true at ha
    subst ha
    refine ⟨rfl, rfl, fun a => ?_⟩
    change (s.blackList.set x e).get a = _
    rw [FMap.get_set]
    unfold blackAfter
    by_cases hx : x = a
    · subst hx; simp
    · have : ¬ a = x := fun h => hx h.symm
      simp [hx, this]
  | npowMint k x v =>
    obtain ⟨t, ht⟩ := (step_done (e := npowMint cfg s k x v) rfl).1 hdone
    have e := step_ok (op := .npowMint k x v) (e := npowMint cfg s k x v) rfl ht
    change s' = t at e
    rw [e]
    unfold npowMint at ht
    split at ht; · cases ht
    split at ht; · cases ht
    cases ht; exact ⟨rfl, rfl, fun a => rfl⟩
  | compensate k l d r p =>
    obtain ⟨t, ht⟩ := (step_done (e := compensate cfg s k l d r p) rfl).1 hdone
    have e := step_ok (op := .compensate k l d r p) (e := compensate cfg s k l d r p) rfl ht
    change s' = t at e
    rw [e]
    unfold compensate at ht
    split at ht; · cases ht
    split at ht; · cases ht
    cases ht
    refine ⟨?_, rfl, fun a => rfl⟩
    change poolOf cfg s - min (poolOf cfg s) (r + p) = poolOf cfg s - (r + p)
    omega
  | increasePool r v =>
    change r = true at ha
    subst ha
    exact ⟨rfl, rfl, fun a => rfl⟩
  | configure e c m w d => exact same _ rfl ⟨rfl, rfl, rfl⟩
  | endEra e => cases he
  | addPoints e v n => exact same _ rfl ⟨rfl, rfl, rfl⟩
  | ledger op => cases he

def Out.isDone : Out → Bool
  | .done => true
  | _ => false

theorem isDone_iff (o : Out) : o.isDone = true ↔ o = .done := by cases o <;> simp [Out.isDone]

/-- Delegations that are allowed and two that are not; the record of a delegator that is still to be paid is kept. -/
example :
    let s := (run exCfg (genesis exBank 10) exDelegate).1
    allowed exCfg s (.delegate 20 [1, 1, 2] true) ∧ (step exCfg s (.delegate 20 [1, 1, 2] true)).1.delegators.get 20 = some ⟨20, [1, 1, 2], some 1, true⟩ ∧
    ¬ allowed exCfg s (.delegate 20 [1, 3] true) ∧ ¬ allowed exCfg s (.delegate 1 [2] true) ∧
    allowed exCfg s (.undelegate 8) ∧ (step exCfg s (.undelegate 8)).1.delegators.get 8 = some ⟨8, [2, 1], some 0, false⟩ := by
  intro s
  have iff : ∀ op, hook op = false → (allowed exCfg s op ↔ (step exCfg s op).2.isDone = true) := fun op h => by
    rw [isDone_iff]; exact (C93_accepted exCfg s op h).1.symm
  rw [iff _ rfl, iff _ rfl, iff _ rfl, iff _ rfl]
  decide +kernel

end Verif.Delegation
