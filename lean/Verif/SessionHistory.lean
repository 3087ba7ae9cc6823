import Verif.SessionProofs
import Verif.RewardsProofs

/-
Invariants over histories of sessions: reachable states, era points against authored blocks, validators in charge.
-/

namespace Verif.Session

open Verif

/-- A state after some history from genesis, with its trace. -/
def hist (cfg : Cfg) (d : Delegation.State) (f : Forcing) (order fb : List AccId) (ops : List Op) : State × List (State × Op) :=
  run cfg (genesis cfg d f order fb) ops

theorem at_step (cfg : Cfg) {s : State} {a : Nat} {st : Bool} {c k : Nat} (h : At s a st c k) (op : Op) :
    ∃ a' st' c' k', At (step cfg s op) a' st' c' k' := by
  by_cases ho : ∀ o f, op ≠ .rotate o f
  · exact ⟨_, _, _, _, (at_other cfg h op ho).1⟩
  · push Not at ho
    obtain ⟨o, f, rfl⟩ := ho
    exact h.exists_rotate cfg o f

theorem at_run (cfg : Cfg) (ops : List Op) : ∀ {s : State} {a : Nat} {st : Bool} {c k : Nat}, At s a st c k →
    ∃ a' st' c' k', At (run cfg s ops).1 a' st' c' k' := by
  induction ops with
  | nil => intro s a st c k h; exact ⟨a, st, c, k, h⟩
  | cons op ops ih =>
    intro s a st c k h
    obtain ⟨_, _, _, _, h'⟩ := at_step cfg h op
    exact ih h'

theorem at_hist (cfg : Cfg) {d : Delegation.State} (hd : Fresh d) (f : Forcing) (order fb : List AccId) (ops : List Op) :
    ∃ a st c k, At (hist cfg d f order fb ops).1 a st c k := by
  obtain ⟨c, k, h, _⟩ := genesis_facts cfg hd f order fb
  exact at_run cfg ops h

/-- The forcing after a call. -/
theorem force_rotate (cfg : Cfg) {s : State} {a : Nat} {st : Bool} {c k : Nat} (h : At s a st c k) (o : List AccId) (keys : AccId → Bool) :
    (rotate cfg s o keys).force = if s.force = .forceNew then .notForcing else s.force := by
  obtain ⟨_, _, _, h4, h5, _⟩ := mid_spec cfg h
  have hera : (mid cfg s).del.led.era = some c := (ctl_eq h5).1.trans h.era
  rw [rotate_eq]
  cases hp : plans cfg (mid cfg s) (s.session + 2) with
  | false =>
    rw [newSession_no hp]
    rw [plans_mid cfg h] at hp
    show (mid cfg s).force = _
    rw [h4]
    cases hf : s.force <;> rw [hf] at hp <;> simp at hp ⊢
  | true =>
    show (newSession cfg (mid cfg s) (s.session + 2) o).1.force = _
    rw [(newSession_yes hp).force]
    unfold forceAfter
    rw [hera, h4]
    cases s.force <;> simp

theorem plans_genesis (cfg : Cfg) {d : Delegation.State} (hd : Fresh d) (f : Forcing) (order : List AccId) :
    plans cfg (newSession cfg (empty d f) 0 order).1 1 = match f with
      | .forceNew => true
      | .forceAlways => true
      | .notForcing => decide (cfg.sessionsPerEra ≤ 1)
      | .forceNone => false := by
  have hp : plans cfg (empty d f) 0 = true := by simp [plans, empty, hd.era]
  have h0 := newSession_yes (order := order) hp
  have hn : Delegation.nextEra (empty d f).del = 0 := by simp only [Delegation.nextEra, empty, hd.era]
  rw [hn] at h0
  have hf : (newSession cfg (empty d f) 0 order).1.force = f := by
    rw [h0.force]
    simp [forceAfter, empty, hd.era]
  unfold plans
  rw [h0.era, hf]
  cases f <;> simp only [h0.start, Option.getD_some, Nat.sub_zero]

theorem force_genesis (cfg : Cfg) {d : Delegation.State} (hd : Fresh d) (f : Forcing) (order fb : List AccId) :
    (genesis cfg d f order fb).force = if cfg.sessionsPerEra ≤ 1 ∨ f ≠ .notForcing then (if f = .forceNew then .notForcing else f) else f := by
  have hp : plans cfg (empty d f) 0 = true := by simp [plans, empty, hd.era]
  have h0 := newSession_yes (order := order) hp
  have hn : Delegation.nextEra (empty d f).del = 0 := by simp only [Delegation.nextEra, empty, hd.era]
  rw [hn] at h0
  have hf : (newSession cfg (empty d f) 0 order).1.force = f := by
    rw [h0.force]
    simp [forceAfter, empty, hd.era]
  have hs : ∀ m : State, (startSession cfg m 0).force = m.force := by
    intro m
    unfold startSession
    split
    · rfl
    · split <;> rfl
  have hg : (genesis cfg d f order fb).force = (newSession cfg (newSession cfg (empty d f) 0 order).1 1 order).1.force := by
    unfold genesis
    simp only
    rw [hs]
  rw [hg]
  cases hp1 : plans cfg (newSession cfg (empty d f) 0 order).1 1 with
  | false =>
    rw [newSession_no hp1]
    rw [plans_genesis cfg hd] at hp1
    rw [hf]
    cases f <;> simp at hp1 ⊢
  | true =>
    rw [(newSession_yes hp1).force]
    unfold forceAfter
    rw [h0.era, hf]
    cases f <;> simp

/-! ### Points -/

/-- Points of a validator in an era. -/
def pointsOf (s : State) (e : Nat) (v : AccId) : Nat := (((s.del.points.get e).getD ⟨0, ∅⟩).individual.get v).getD 0

/-- All points of an era. -/
def pointsAll (s : State) (e : Nat) : Nat := ((s.del.points.get e).getD ⟨0, ∅⟩).total

/-- Whether a step of a history is a block authored by `v` while era `e` is active. -/
def isBlockOf (e : Nat) (v : AccId) (x : State × Op) : Bool :=
  match x.2 with
  | .author w => decide (w = v ∧ activeIdx x.1 = some e)
  | _ => false

/-- Whether a step of a history is a block authored while era `e` is active. -/
def isBlock (e : Nat) (x : State × Op) : Bool :=
  match x.2 with
  | .author _ => decide (activeIdx x.1 = some e)
  | _ => false

/-- Blocks authored by `v` in era `e`. -/
def authored (tr : List (State × Op)) (e : Nat) (v : AccId) : Nat := tr.countP (isBlockOf e v)

/-- Blocks authored in era `e`. -/
def authoredAll (tr : List (State × Op)) (e : Nat) : Nat := tr.countP (isBlock e)

/-- Points of the active and later eras. -/
def Pts (s : State) (a : Nat) (n : Nat → AccId → Nat) (N : Nat → Nat) : Prop :=
  ∀ x, a ≤ x → (∀ v, pointsOf s x v = 20 * n x v) ∧ pointsAll s x = 20 * N x

theorem pts_step (cfg : Cfg) {s : State} {a : Nat} {st : Bool} {c k : Nat} (h : At s a st c k) (hd : 1 ≤ s.del.historyDepth)
    {n : Nat → AccId → Nat} {N : Nat → Nat} (hp : Pts s a n N) (op : Op) (hk : op.keeps) :
    ∃ a' st' c' k', At (step cfg s op) a' st' c' k' ∧ 1 ≤ (step cfg s op).del.historyDepth ∧
      Pts (step cfg s op) a' (fun e v => n e v + if isBlockOf e v (s, op) then 1 else 0)
        (fun e => N e + if isBlock e (s, op) then 1 else 0) := by
  by_cases ho : ∀ o f, op ≠ .rotate o f
  · obtain ⟨h1, _⟩ := at_other cfg h op ho
    obtain ⟨d1, _, _, d4⟩ := depth_other cfg h hd op ho hk
    refine ⟨_, _, _, _, h1, d1, fun x hx => ?_⟩
    by_cases hv : ∀ v, op ≠ .author v
    · have e := d4 hv x hx
      have z1 : ∀ v, isBlockOf x v (s, op) = false := by
        intro v; cases op <;> first | rfl | exact absurd rfl (hv _)
      have z2 : isBlock x (s, op) = false := by
        cases op <;> first | rfl | exact absurd rfl (hv _)
      simp only [z1, z2, pointsOf, pointsAll, e]
      exact hp x hx
    · push Not at hv
      obtain ⟨w, rfl⟩ := hv
      have hs : step cfg s (.author w) = { s with del := Delegation.addPoints s.del a w 20 } := by
        simp only [step, author, h.active]
      have hi : activeIdx s = some a := h.idx
      rw [hs]
      obtain ⟨p1, p2⟩ := hp x hx
      simp only [isBlockOf, isBlock, hi, Option.some.injEq]
      by_cases hxa : a = x
      · subst hxa
        refine ⟨fun v => ?_, ?_⟩
        · simp only [pointsOf, Delegation.addPoints, FMap.get_insert_self, Option.getD_some]
          rw [FMap.get_insert]
          by_cases hvw : v = w
          · subst hvw
            have := p1 v
            simp only [pointsOf] at this
            simp only [if_true, Option.getD_some, decide_true, and_self, this]
            omega
          · have : ¬ (w = v) := fun h => hvw h.symm
            rw [if_neg hvw]
            simp only [this, false_and, decide_false]
            exact p1 v
        · simp only [pointsAll, Delegation.addPoints, FMap.get_insert_self, Option.getD_some]
          simp only [pointsAll] at p2
          simp only [decide_true, if_true, p2]
          omega
      · refine ⟨fun v => ?_, ?_⟩
        · simp only [pointsOf, Delegation.addPoints]
          rw [FMap.get_insert_ne _ _ (fun h => hxa h.symm)]
          simp only [hxa, and_false, decide_false]
          exact p1 v
        · simp only [pointsAll, Delegation.addPoints]
          rw [FMap.get_insert_ne _ _ (fun h => hxa h.symm)]
          simp only [hxa, decide_false]
          exact p2
  · push Not at ho
    obtain ⟨o, f, rfl⟩ := ho
    obtain ⟨c', k', g1, g2, g3, g4, g5, g6, g7, _⟩ := rotate_facts cfg h hd o f
    refine ⟨c, _, c', k', g1, (by show 1 ≤ (rotate cfg s o f).del.historyDepth; rw [g4]; exact hd), fun x hx => ?_⟩
    have e := g7 x hx
    have := hp x (Nat.le_trans h.le hx)
    simp only [isBlockOf, isBlock, pointsOf, pointsAll, step, e]
    exact this

theorem pts_run (cfg : Cfg) (ops : List Op) : ∀ {s : State} {a : Nat} {st : Bool} {c k : Nat}, At s a st c k → 1 ≤ s.del.historyDepth →
    ∀ {n : Nat → AccId → Nat} {N : Nat → Nat}, Pts s a n N → (∀ op ∈ ops, op.keeps) →
    ∃ a' st' c' k', At (run cfg s ops).1 a' st' c' k' ∧ 1 ≤ (run cfg s ops).1.del.historyDepth ∧
      Pts (run cfg s ops).1 a' (fun e v => n e v + authored (run cfg s ops).2 e v) (fun e => N e + authoredAll (run cfg s ops).2 e) := by
  induction ops with
  | nil => intro s a st c k h hd n N hp _; exact ⟨a, st, c, k, h, hd, hp⟩
  | cons op ops ih =>
    intro s a st c k h hd n N hp hk
    obtain ⟨a1, st1, c1, k1, i1, i2, i3⟩ := pts_step cfg h hd hp op (hk op List.mem_cons_self)
    obtain ⟨a2, st2, c2, k2, j1, j2, j3⟩ := ih i1 i2 i3 fun o ho => hk o (List.mem_cons_of_mem _ ho)
    refine ⟨a2, st2, c2, k2, j1, j2, fun x hx => ?_⟩
    obtain ⟨q1, q2⟩ := j3 x hx
    refine ⟨fun v => ?_, ?_⟩
    · refine (q1 v).trans ?_
      simp only [authored, run, List.countP_cons]
      omega
    · refine q2.trans ?_
      simp only [authoredAll, run, List.countP_cons]
      omega

/-! ### Validators in charge -/

/-- The validators in charge are among those elected for the active era, those queued among those of the planned
era, as far as the elections succeeded. -/
structure Charge (s : State) (a c : Nat) : Prop where
  now : ∀ l, s.del.erasValidators.get a = some l → ∀ v ∈ s.validators, v ∈ l
  next : ∀ l, s.del.erasValidators.get c = some l → ∀ v ∈ s.queued, v ∈ l
  later : ∀ e, c < e → s.del.erasValidators.get e = none

theorem rotate_later (cfg : Cfg) {s : State} {a : Nat} {st : Bool} {c k : Nat} (h : At s a st c k) (order : List AccId)
    (keys : AccId → Bool) {c' : Nat} (hc : (rotate cfg s order keys).del.led.era = some c') (hl : ∀ e, c < e → s.del.erasValidators.get e = none)
    (e : Nat) (he : c' < e) : (rotate cfg s order keys).del.erasValidators.get e = none := by
  obtain ⟨h1, h2, h3, h4, h5, _⟩ := mid_spec cfg h
  obtain ⟨e1, e2, e3, e4⟩ := ctl_eq h5
  have hera : (mid cfg s).del.led.era = some c := e1.trans h.era
  rw [rotate_eq] at hc ⊢
  cases hp : plans cfg (mid cfg s) (s.session + 2) with
  | false =>
    rw [newSession_no hp] at hc ⊢
    have : c' = c := Option.some.inj (hc.symm.trans hera)
    show (mid cfg s).del.erasValidators.get e = none
    rw [e3]; exact hl e (by omega)
  | true =>
    have hy := newSession_yes (order := order) hp
    have hn : Delegation.nextEra (mid cfg s).del = c + 1 := by simp only [Delegation.nextEra, hera]
    rw [hn] at hy
    have : c' = c + 1 := Option.some.inj (hc.symm.trans hy.era)
    show (newSession cfg (mid cfg s) (s.session + 2) order).1.del.erasValidators.get e = none
    rw [hy.vals e (by omega)]
    split
    · rfl
    · rw [e3]; exact hl e (by omega)

theorem charge_step (cfg : Cfg) {s : State} {a : Nat} {st : Bool} {c k : Nat} (h : At s a st c k) (hd : 1 ≤ s.del.historyDepth)
    (hp : Charge s a c) (op : Op) (hk : op.keeps) :
    ∃ a' st' c' k', At (step cfg s op) a' st' c' k' ∧ 1 ≤ (step cfg s op).del.historyDepth ∧ Charge (step cfg s op) a' c' := by
  by_cases ho : ∀ o f, op ≠ .rotate o f
  · obtain ⟨h1, _, _, h4, h5⟩ := at_other cfg h op ho
    obtain ⟨d1, _, d3, _⟩ := depth_other cfg h hd op ho hk
    have := h.le
    refine ⟨_, _, _, _, h1, d1, ⟨?_, ?_, fun e he => ?_⟩⟩
    · rw [d3 a (Nat.le_refl _), h4]; exact hp.now
    · rw [d3 c (by omega), h5]; exact hp.next
    · rw [d3 e (by omega)]; exact hp.later e he
  · push Not at ho
    obtain ⟨o, f, rfl⟩ := ho
    obtain ⟨c', k', g1, g2, g3, g4, g5, g6, g7, g8, g9⟩ := rotate_facts cfg h hd o f
    refine ⟨c, _, c', k', g1, (by show 1 ≤ (rotate cfg s o f).del.historyDepth; rw [g4]; exact hd), ⟨?_, ?_, ?_⟩⟩
    · show ∀ l, (rotate cfg s o f).del.erasValidators.get c = some l → ∀ v ∈ (rotate cfg s o f).validators, v ∈ l
      rw [g8, g3]; exact hp.next
    · intro l hl v hv
      rcases g9 with ⟨rfl, g⟩ | ⟨rfl, l', g, g'⟩ | ⟨rfl, g, g'⟩
      · have hl' : (rotate cfg s o f).del.erasValidators.get c' = some l := hl
        have hv' : v ∈ (rotate cfg s o f).queued := hv
        rw [g8] at hl'
        rw [g] at hv'
        exact hp.next l hl' v (List.mem_filter.mp hv').1
      · have e : l' = l := Option.some.inj (g.symm.trans hl)
        have hv' : v ∈ (rotate cfg s o f).queued := hv
        rw [g'] at hv'
        exact e ▸ (List.mem_filter.mp hv').1
      · have := g' (hp.later _ (Nat.lt_succ_self _))
        rw [show (step cfg s (.rotate o f)) = rotate cfg s o f from rfl, this] at hl
        cases hl
    · exact fun e he => rotate_later cfg h o f g1.era hp.later e he

theorem charge_run (cfg : Cfg) (ops : List Op) : ∀ {s : State} {a : Nat} {st : Bool} {c k : Nat}, At s a st c k → 1 ≤ s.del.historyDepth →
    Charge s a c → (∀ op ∈ ops, op.keeps) →
    ∃ a' st' c' k', At (run cfg s ops).1 a' st' c' k' ∧ 1 ≤ (run cfg s ops).1.del.historyDepth ∧ Charge (run cfg s ops).1 a' c' := by
  induction ops with
  | nil => intro s a st c k h hd hp _; exact ⟨a, st, c, k, h, hd, hp⟩
  | cons op ops ih =>
    intro s a st c k h hd hp hk
    obtain ⟨a1, st1, c1, k1, i1, i2, i3⟩ := charge_step cfg h hd hp op (hk op List.mem_cons_self)
    exact ih i1 i2 i3 fun o ho => hk o (List.mem_cons_of_mem _ ho)

/-! ### All of it for histories from genesis -/

/-- Everything known about a history that keeps at least one era. -/
theorem hist_facts (cfg : Cfg) {d : Delegation.State} (hd : Fresh d) (f : Forcing) (order fb : List AccId) (ops : List Op)
    (hk : ∀ op ∈ ops, op.keeps) :
    let r := hist cfg d f order fb ops
    ∃ a st c k σ, At r.1 a st c k ∧
      Hist cfg r.1 a σ (fun k' e => ∃ x ∈ r.2, x.1.session = k' ∧ activeIdx x.1 = some e) ∧
      Pts r.1 a (authored r.2) (authoredAll r.2) ∧ Charge r.1 a c := by
  intro r
  obtain ⟨c, k, h, hs, hh, hp, h1, h2, h3, _⟩ := genesis_facts cfg hd f order fb
  obtain ⟨a1, st1, c1, k1, σ1, i1, i2⟩ := hist_run cfg ops h hh hk
  have hP : Pts (genesis cfg d f order fb) 0 (fun _ _ => 0) (fun _ => 0) := by
    intro x _
    simp only [pointsOf, pointsAll, hp x]
    refine ⟨fun v => ?_, rfl⟩
    simp
  obtain ⟨a2, st2, c2, k2, j1, _, j3⟩ := pts_run cfg ops h hh.depth hP hk
  have hC : Charge (genesis cfg d f order fb) 0 c :=
    ⟨fun l hl v hv => by rw [← h1 l hl]; exact hv, fun l hl v hv => by rw [← h2 l hl]; exact hv, h3⟩
  obtain ⟨a3, st3, c3, k3, l1, _, l3⟩ := charge_run cfg ops h hh.depth hC hk
  have e2 : a2 = a1 := Option.some.inj (j1.idx.symm.trans i1.idx)
  have e3 : a3 = a1 := Option.some.inj (l1.idx.symm.trans i1.idx)
  have e4 : c3 = c1 := Option.some.inj (l1.era.symm.trans i1.era)
  subst e2 e3 e4
  refine ⟨_, st1, _, k1, σ1, i1, ⟨i2.depth, i2.mono, i2.le, i2.start, i2.bonded, fun k' e hx => i2.past k' e (Or.inr hx)⟩, ?_, l3⟩
  intro x hx
  obtain ⟨q1, q2⟩ := j3 x hx
  exact ⟨fun v => (q1 v).trans (by simp only [Nat.zero_add]; rfl), q2.trans (by simp only [Nat.zero_add]; rfl)⟩

/-! ### The search in the bonded eras -/

theorem find_bonded (f k e a : Nat) (σ : Nat → Nat) (hm : ∀ x, x < a → σ x < σ (x + 1)) (he : σ e ≤ k) (hn : e < a → k < σ (e + 1)) :
    ∀ m, f + m ≤ a + 1 → (e < f + m) →
    (((List.range' f m).map fun x => (x, σ x)).reverse.find? fun p => decide (p.2 ≤ k)) = if f ≤ e then some (e, σ e) else none := by
  intro m
  induction m with
  | zero => intro _ h; rw [if_neg (by omega)]; rfl
  | succ m ih =>
    intro h1 h2
    rw [List.range'_concat, List.map_append, List.reverse_append]
    simp only [List.map_cons, List.map_nil, List.reverse_cons, List.reverse_nil, List.nil_append, List.cons_append, Nat.one_mul]
    rw [List.find?_cons]
    by_cases hfe : e = f + m
    · subst hfe
      simp only [he, decide_true, if_pos (Nat.le_add_right f m)]
    · have hlt : e < f + m := by omega
      have hmono : ∀ j, e + 1 + j ≤ a → σ (e + 1) ≤ σ (e + 1 + j) := by
        intro j
        induction j with
        | zero => intro _; exact Nat.le_refl _
        | succ j ihj =>
          intro hj
          have := hm (e + 1 + j) (by omega)
          have := ihj (by omega)
          have e1 : e + 1 + (j + 1) = e + 1 + j + 1 := by omega
          rw [e1]; omega
      have h3 := hmono (f + m - (e + 1)) (by omega)
      have e2 : e + 1 + (f + m - (e + 1)) = f + m := by omega
      rw [e2] at h3
      have h4 := hn (by omega)
      have : decide (σ (f + m) ≤ k) = false := by simp; omega
      simp only [this]
      exact ih (by omega) hlt

/-! ### Money in a rotation -/

theorem money_mid (cfg : Cfg) {s : State} {a : Nat} {st : Bool} {c k : Nat} (h : At s a st c k) :
    (mid cfg s).del = if c = a + 1 ∧ st = true then Delegation.payValidators cfg.del s.del a else s.del := by
  have hs : ∀ m : State, ∀ i, (startSession cfg m i).del = m.del := by
    intro m i
    unfold startSession
    split
    · rfl
    · split <;> rfl
  unfold mid
  rw [hs]
  simp only [endSession, ending, h.active]
  rcases Nat.lt_or_ge a c with hlt | hge
  · have hca : c = a + 1 := Nat.le_antisymm h.le' hlt
    have hst := h.start
    rw [hca, h.ahead hca] at hst
    rw [hst]
    cases st <;> simp [hca]
  · rw [h.none (a + 1) (by omega)]
    rw [if_neg (by omega)]

theorem money_rotate (cfg : Cfg) {s : State} {a : Nat} {st : Bool} {c k : Nat} (h : At s a st c k) (o : List AccId) (keys : AccId → Bool) :
    Delegation.money (rotate cfg s o keys).del =
      Delegation.money (if c = a + 1 ∧ st = true then Delegation.payValidators cfg.del s.del a else s.del) := by
  rw [← money_mid cfg h, rotate_eq]
  show Delegation.money (newSession cfg (mid cfg s) (s.session + 2) o).1.del = _
  unfold newSession
  split
  · exact Delegation.money_newEra (mid cfg s).del o
  · rfl

/-! ### Who receives a payout -/

/-- The account a payout for a validator goes to: the controller, the stash, or a given account; nowhere, if a
validator without bond has chosen the controller or the stake. -/
def dest (l : Ledger.State) (v : AccId) : Option AccId :=
  match (l.payees.get v).getD .staked with
  | .controller => l.bonded.get v
  | .stash => some v
  | .staked => (l.bonded.get v).bind fun c => (l.ledgers.get c).map fun _ => v
  | .account a => some a

/-- An account that is not about to be created or reaped. -/
def Solid (b : Bank) (x : AccId) : Prop := b.accts.contains x = true ∧ b.ed ≤ b.free x

theorem put_solid {b b0 : Bank} {a x : AccId} {v : Balance} (h : Solid b x) (h1 : b0.accts = b.accts) (h2 : b0.ed = b.ed) :
    (b0.put a ⟨b.free a + v, b.reserved a⟩).free x = b.free x + (if a = x then v else 0) ∧
    Solid (b0.put a ⟨b.free a + v, b.reserved a⟩) x := by
  have hb : ∀ y, b0.free y = b.free y := fun y => by simp only [Bank.free, Bank.acct, h1]
  by_cases e : x = a
  · subst e
    have hn : ¬ (b.free x + v < b0.ed ∧ b.reserved x = 0) := by rw [h2]; have := h.2; omega
    refine ⟨?_, ?_, ?_⟩
    · simp only [Bank.free, Bank.acct_put_self]
      simp only [Bank.free] at hn
      rw [if_neg hn, if_pos trivial]
    · rw [Bank.contains_put_self]
      simp [hn]
    · simp only [Bank.free, Bank.acct_put_self, Bank.put_ed]
      simp only [Bank.free] at hn
      rw [if_neg hn]
      have := h.2
      simp only [Bank.free] at this
      simp only
      omega
  · have e' : ¬ (a = x) := fun h => e h.symm
    refine ⟨?_, ?_, ?_⟩
    · rw [Bank.free_put_ne _ _ e, hb, if_neg e', Nat.add_zero]
    · rw [Bank.contains_put_ne _ _ e, h1]; exact h.1
    · rw [Bank.free_put_ne _ _ e, Bank.put_ed, hb, h2]; exact h.2

theorem depositCreating_solid {b : Bank} {a x : AccId} {v : Balance} (h : Solid b x) :
    (b.depositCreating a v).free x = b.free x + (if a = x then v else 0) ∧ Solid (b.depositCreating a v) x := by
  unfold Bank.depositCreating
  split
  · rename_i hv; subst hv; simp [h]
  · split
    · rename_i hc
      have : ¬ (a = x) := by rintro rfl; rw [h.1] at hc; exact absurd hc.1 (by simp)
      simp [this, h]
    · exact put_solid h rfl rfl

theorem depositOr_solid {b : Bank} {a x : AccId} {v : Balance} (h : Solid b x) :
    (Ledger.depositOr b a v).free x = b.free x + (if a = x then v else 0) ∧ Solid (Ledger.depositOr b a v) x := by
  unfold Ledger.depositOr Bank.depositExisting
  by_cases hv : v = 0
  · subst hv; simp [h]
  · simp only [if_neg hv]
    by_cases hc : b.accts.contains a = false
    · have : ¬ (a = x) := by rintro rfl; rw [h.1] at hc; cases hc
      simp [hc, this, h]
    · simp only [if_neg hc]
      exact put_solid h rfl rfl

theorem payout_solid (cfg : Ledger.Cfg) {l : Ledger.State} {x : AccId} (v : AccId) (y : Balance) (h : Solid l.bank x) :
    (Ledger.payout cfg l v y).bank.free x = l.bank.free x + (if dest l v = some x then y else 0) ∧
    Solid (Ledger.payout cfg l v y).bank x ∧ ∀ w, dest (Ledger.payout cfg l v y) w = dest l w := by
  unfold Ledger.payout
  cases hp : (l.payees.get v).getD .staked with
  | controller =>
    simp only [dest, hp]
    cases hb : l.bonded.get v with
    | none => simp [h]
    | some c =>
      simp only [Option.some.injEq]
      obtain ⟨h1, h2⟩ := depositCreating_solid (a := c) (v := y) h
      exact ⟨h1, h2, fun _ => trivial⟩
  | stash =>
    simp only [dest, hp, Option.some.injEq]
    obtain ⟨h1, h2⟩ := depositOr_solid (a := v) (v := y) h
    exact ⟨h1, h2, fun _ => trivial⟩
  | account a =>
    simp only [dest, hp, Option.some.injEq]
    obtain ⟨h1, h2⟩ := depositCreating_solid (a := a) (v := y) h
    exact ⟨h1, h2, fun _ => trivial⟩
  | staked =>
    simp only [dest, hp]
    cases hb : l.bonded.get v with
    | none => simp [h]
    | some c =>
      cases hl : l.ledgers.get c with
      | none => simp [hl, h]
      | some g =>
        simp only [Option.bind_some, hl, Option.map_some, Option.some.injEq]
        obtain ⟨h1, h2⟩ := depositOr_solid (a := v) (v := y) h
        have hlock : ∀ (m : Ledger.State) (a : AccId) (z : Balance), (Ledger.setLock cfg m a z).bank.accts = m.bank.accts ∧
            (Ledger.setLock cfg m a z).bank.ed = m.bank.ed ∧ (Ledger.setLock cfg m a z).payees = m.payees ∧
            (Ledger.setLock cfg m a z).bonded = m.bonded ∧ (Ledger.setLock cfg m a z).ledgers = m.ledgers := by
          intro m a z
          unfold Ledger.setLock
          split <;> exact ⟨rfl, rfl, rfl, rfl, rfl⟩
        obtain ⟨k1, k2, k3, k4, k5⟩ := hlock { l with bank := Ledger.depositOr l.bank v y } g.stash (g.total + y)
        have hf : (Ledger.updateLedger cfg { l with bank := Ledger.depositOr l.bank v y } c { g with active := g.active + y, total := g.total + y }).bank.accts = (Ledger.depositOr l.bank v y).accts := k1
        have he : (Ledger.updateLedger cfg { l with bank := Ledger.depositOr l.bank v y } c { g with active := g.active + y, total := g.total + y }).bank.ed = (Ledger.depositOr l.bank v y).ed := k2
        refine ⟨?_, ⟨?_, ?_⟩, fun w => ?_⟩
        · simp only [Bank.free, Bank.acct, hf]; exact h1
        · rw [hf]; exact h2.1
        · rw [he]; simp only [Bank.free, Bank.acct, hf]; exact h2.2
        · simp only [Ledger.updateLedger, k3, k4, k5]
          cases (l.payees.get w).getD .staked with
          | controller => rfl
          | stash => rfl
          | account a => rfl
          | staked =>
            simp only
            cases hw : l.bonded.get w with
            | none => rfl
            | some c' =>
              simp only [Option.bind_some]
              rw [FMap.get_insert]
              split
              · rename_i e; subst e; rw [hl]; rfl
              · rfl

theorem payEach_solid (cfg : Delegation.Cfg) (p : Delegation.Points) (P : Balance) (x : AccId) (vs : List AccId) :
    ∀ (s : Delegation.State) (t : Balance), Solid s.led.bank x →
    (Delegation.payEachValidator cfg p P vs s t).1.led.bank.free x = s.led.bank.free x +
      (vs.map fun v => if dest s.led v = some x then Delegation.validatorShare p P v else 0).sum ∧
    (Delegation.payEachValidator cfg p P vs s t).2 = t + (vs.map (Delegation.validatorShare p P)).sum := by
  induction vs with
  | nil => intro s t _; simp [Delegation.payEachValidator]
  | cons v vs ih =>
    intro s t h
    unfold Delegation.payEachValidator
    split
    · rename_i h0
      have hz : Delegation.validatorShare p P v = 0 := by simp [Delegation.validatorShare, h0]
      obtain ⟨i1, i2⟩ := ih s t h
      simp only [List.map_cons, List.sum_cons, hz, ite_self, Nat.zero_add]
      exact ⟨i1, i2⟩
    · obtain ⟨q1, q2, q3⟩ := payout_solid cfg.led v (Delegation.validatorShare p P v) h
      obtain ⟨i1, i2⟩ := ih { s with led := Ledger.payout cfg.led s.led v (Delegation.validatorShare p P v) } (t + Delegation.validatorShare p P v) q2
      simp only [List.map_cons, List.sum_cons]
      refine ⟨i1.trans ?_, i2.trans (Nat.add_assoc _ _ _)⟩
      simp only [q1, q3]
      omega

end Verif.Session
