import Verif.SessionHistory
import Verif.DelegationProperties

/-
Properties of sessions and eras (C74 - C78), for all histories from genesis: `hist cfg d f order fb ops` is the state
and trace of the calls `ops` after a genesis with staking data `d` and forcing `f`.
-/

namespace Verif.Session

open Verif

/-- Bonding duration 2, 3 sessions per era. -/
def exCfg : Cfg := ⟨{ Delegation.exCfg with led := { Ledger.exCfg with bondingDuration := 2 } }, 3⟩

/-- Two bonded validators, one to be elected at a time, no era yet. -/
def exDel : Delegation.State := (Delegation.run Delegation.exCfg (Delegation.genesis Delegation.exBank 10)
  [.ledger (.bond 1 11 500 .stash true), .ledger (.validate 11 (0, false)), .ledger (.bond 2 12 500 (.account 1) true),
   .ledger (.validate 12 (0, false)), .configure 100 1 1 [] 84]).1

theorem exDel_fresh : Fresh exDel :=
  ⟨by decide +kernel, fun _ => rfl, fun _ => rfl, by decide +kernel⟩

instance : DecidablePred Op.keeps := fun op => by
  cases op <;> simp only [Op.keeps] <;> infer_instance

def allKeys : AccId → Bool := fun _ => true

/-- One session with two blocks by `v`. -/
def exSession (v : AccId) : List Op := [.author v, .finalize, .author v, .rotate [1, 2] allKeys]

/-! ### C74: eras follow the sessions -/

/-- The planned era is the active era or the next one. -/
theorem C74_one_ahead (cfg : Cfg) {d : Delegation.State} (hd : Fresh d) (f : Forcing) (order fb : List AccId) (ops : List Op) :
    let s := (hist cfg d f order fb ops).1
    ∃ a c, activeIdx s = some a ∧ s.del.led.era = some c ∧ (c = a ∨ c = a + 1) := by
  intro s
  obtain ⟨a, st, c, k, h⟩ := at_hist cfg hd f order fb ops
  refine ⟨a, c, h.idx, h.era, ?_⟩
  have := h.le; have := h.le'; omega

/-- The session with which the planned era begins. -/
def plannedStart (s : State) : Nat := (s.eraStart.get (s.del.led.era.getD 0)).getD 0

/-- Whether the session after the next begins an era. -/
def due (cfg : Cfg) (s : State) : Bool :=
  match s.force with
  | .forceNew => true
  | .forceAlways => true
  | .forceNone => false
  | .notForcing => decide (plannedStart s + cfg.sessionsPerEra ≤ s.session + 2)

/-- A rotation begins the next session, activates the planned era and plans at most one more: always if forced,
never if eras are off, else if the planned era has had its sessions. One-time forcing is used up. -/
theorem C74_rotation (cfg : Cfg) {d : Delegation.State} (hd : Fresh d) (f : Forcing) (order fb : List AccId) (ops : List Op)
    (o : List AccId) (keys : AccId → Bool) :
    let s := (hist cfg d f order fb ops).1
    let t := step cfg s (.rotate o keys)
    t.session = s.session + 1 ∧ activeIdx t = s.del.led.era ∧
    t.del.led.era = (if due cfg s then s.del.led.era.map (· + 1) else s.del.led.era) ∧
    plannedStart t = (if due cfg s then s.session + 2 else plannedStart s) ∧
    t.force = (if s.force = .forceNew then .notForcing else s.force) := by
  intro s t
  obtain ⟨a, st, c, k, h⟩ := at_hist cfg hd f order fb ops
  obtain ⟨g1, g2, g3, g4⟩ := at_rotate cfg h o keys
  have hk : plannedStart s = k := by
    show ((hist cfg d f order fb ops).1.eraStart.get ((hist cfg d f order fb ops).1.del.led.era.getD 0)).getD 0 = k
    rw [h.era, Option.getD_some, h.start]; rfl
  have hks : k ≤ s.session + 1 := by
    rcases Nat.lt_or_ge a c with hlt | hge
    · exact Nat.le_of_eq (h.ahead (Nat.le_antisymm h.le' hlt))
    · have := h.same (Nat.le_antisymm hge h.le); exact Nat.le_succ_of_le this
  have hdue : due cfg s = plans cfg (mid cfg s) (s.session + 2) := by
    rw [show plans cfg (mid cfg s) (s.session + 2) = _ from plans_mid cfg h _]
    unfold due
    rw [hk]
    show _ = match s.force with | .forceNew => true | .forceAlways => true | .notForcing => decide (cfg.sessionsPerEra ≤ s.session + 2 - k) | .forceNone => false
    cases s.force <;> simp only
    congr 1
    apply propext
    omega
  have hf : t.force = _ := force_rotate cfg h o keys
  have hera : s.del.led.era = some c := h.era
  rw [hdue, hk, hera]
  cases hp : plans cfg (mid cfg s) (s.session + 2) with
  | false =>
    have g := g1 hp
    refine ⟨g3, g.idx, g.era, ?_, hf⟩
    show (t.eraStart.get (t.del.led.era.getD 0)).getD 0 = _
    rw [show t.del.led.era = some c from g.era, Option.getD_some, show t.eraStart.get c = some k from g.start]; rfl
  | true =>
    have g := g2 hp
    refine ⟨g3, g.idx, g.era, ?_, hf⟩
    show (t.eraStart.get (t.del.led.era.getD 0)).getD 0 = _
    rw [show t.del.led.era = some (c + 1) from g.era, Option.getD_some, show t.eraStart.get (c + 1) = some (s.session + 2) from g.start]; rfl

/-- Nothing else changes sessions or eras. -/
theorem C74_only_rotation (cfg : Cfg) {d : Delegation.State} (hd : Fresh d) (f : Forcing) (order fb : List AccId) (ops : List Op)
    (op : Op) (ho : ∀ o keys, op ≠ .rotate o keys) :
    let s := (hist cfg d f order fb ops).1
    let t := step cfg s op
    t.session = s.session ∧ activeIdx t = activeIdx s ∧ t.del.led.era = s.del.led.era ∧ plannedStart t = plannedStart s := by
  intro s t
  obtain ⟨a, st, c, k, h⟩ := at_hist cfg hd f order fb ops
  obtain ⟨g, g2, _⟩ := at_other cfg h op ho
  refine ⟨g2, g.idx.trans h.idx.symm, g.era.trans h.era.symm, ?_⟩
  show (t.eraStart.get (t.del.led.era.getD 0)).getD 0 = (s.eraStart.get (s.del.led.era.getD 0)).getD 0
  rw [show t.del.led.era = some c from g.era, show s.del.led.era = some c from h.era, Option.getD_some,
    show t.eraStart.get c = some k from g.start, show s.eraStart.get c = some k from h.start]

/-- Calls that set the forcing. -/
def Op.forces : Op → Bool
  | .forceNewEra => true
  | .forceNoEras => true
  | .forceNewEraAlways => true
  | .offenderDisabled => true
  | _ => false

theorem force_step (cfg : Cfg) {s : State} (op : Op) (ho : ∀ o keys, op ≠ .rotate o keys) (hf : op.forces = false) :
    (step cfg s op).force = s.force := by
  cases op with
  | rotate o f => exact absurd rfl (ho o f)
  | author v => simp only [step, author]; split <;> rfl
  | finalize => rfl
  | forceNewEra => cases hf
  | forceNoEras => cases hf
  | forceNewEraAlways => cases hf
  | offenderDisabled => cases hf
  | setHistoryDepth d =>
    simp only [step, setHistoryDepth]
    split
    · rfl
    · simp only
      exact (clear_range _ _ s).2.2.2.1
  | configure e n m w => rfl
  | other op =>
    simp only [step]
    split <;> rfl

theorem calendar_run (cfg : Cfg) (hpos : 1 ≤ cfg.sessionsPerEra) (ops : List Op) : ∀ {s : State} {a : Nat} {st : Bool} {c k : Nat}, At s a st c k → s.force = .notForcing →
    k = c * cfg.sessionsPerEra → s.session + 1 < k + cfg.sessionsPerEra → (∀ op ∈ ops, op.forces = false) →
    ∃ a' st' c' k', At (run cfg s ops).1 a' st' c' k' ∧ k' = c' * cfg.sessionsPerEra ∧ (run cfg s ops).1.session + 1 < k' + cfg.sessionsPerEra := by
  induction ops with
  | nil => intro s a st c k h _ hk hs _; exact ⟨a, st, c, k, h, hk, hs⟩
  | cons op ops ih =>
    intro s a st c k h hf hk hs hops
    have hrest : ∀ op ∈ ops, op.forces = false := fun o ho => hops o (List.mem_cons_of_mem _ ho)
    by_cases ho : ∀ o keys, op ≠ .rotate o keys
    · obtain ⟨g, g2, _⟩ := at_other cfg h op ho
      refine ih g ((force_step cfg op ho (hops op List.mem_cons_self)).trans hf) hk ?_ hrest
      rw [g2]; exact hs
    · push Not at ho
      obtain ⟨o, keys, rfl⟩ := ho
      obtain ⟨g1, g2, g3, _⟩ := at_rotate cfg h o keys
      have hff : (rotate cfg s o keys).force = .notForcing := by
        rw [force_rotate cfg h o keys, hf]; simp
      have hp := plans_mid cfg h (s.session + 2)
      rw [hf] at hp
      simp only at hp
      have hks : k ≤ s.session + 1 := by
        rcases Nat.lt_or_ge a c with hlt | hge
        · exact Nat.le_of_eq (h.ahead (Nat.le_antisymm h.le' hlt))
        · have := h.same (Nat.le_antisymm hge h.le); omega
      by_cases hle : cfg.sessionsPerEra ≤ s.session + 2 - k
      · rw [decide_eq_true hle] at hp
        refine ih (g2 hp) hff ?_ ?_ hrest
        · have : s.session + 2 = k + cfg.sessionsPerEra := by omega
          rw [this, hk, Nat.add_mul, Nat.one_mul]
        · rw [show (step cfg s (.rotate o keys)).session = s.session + 1 from g3]; omega
      · rw [decide_eq_false hle] at hp
        refine ih (g1 hp) hff hk ?_ hrest
        rw [show (step cfg s (.rotate o keys)).session = s.session + 1 from g3]; omega

/-- Without forcing, era `n` consists of the sessions `n * sessionsPerEra` up to `(n + 1) * sessionsPerEra - 1`, and is
planned one session ahead. -/
theorem C74_calendar (cfg : Cfg) (hp : 1 ≤ cfg.sessionsPerEra) {d : Delegation.State} (hd : Fresh d) (order fb : List AccId) (ops : List Op)
    (hops : ∀ op ∈ ops, op.forces = false) :
    let s := (hist cfg d .notForcing order fb ops).1
    activeIdx s = some (s.session / cfg.sessionsPerEra) ∧ s.del.led.era = some ((s.session + 1) / cfg.sessionsPerEra) := by
  intro s
  obtain ⟨c, k, h, hs, _, _, _, _, _, hc⟩ := genesis_facts cfg hd .notForcing order fb
  have hf : (genesis cfg d .notForcing order fb).force = .notForcing := by
    rw [force_genesis cfg hd]; simp
  have hk : k = c * cfg.sessionsPerEra ∧ (genesis cfg d .notForcing order fb).session + 1 < k + cfg.sessionsPerEra := by
    rw [plans_genesis cfg hd] at hc
    simp only [decide_eq_true_eq, decide_eq_false_iff_not] at hc
    rcases hc with ⟨rfl, hn⟩ | ⟨rfl, hn⟩
    · have := h.same rfl
      rw [hs] at this ⊢
      omega
    · have := h.ahead rfl
      rw [hs] at this ⊢
      omega
  obtain ⟨a', st', c', k', h', e1, e2⟩ := calendar_run cfg hp ops h hf hk.1 hk.2 hops
  have hcs : (s.session + 1) / cfg.sessionsPerEra = c' := by
    have hks : k' ≤ s.session + 1 := by
      rcases Nat.lt_or_ge a' c' with hlt | hge
      · exact Nat.le_of_eq (h'.ahead (Nat.le_antisymm h'.le' hlt))
      · have := h'.same (Nat.le_antisymm hge h'.le); exact Nat.le_succ_of_le this
    rw [Nat.div_eq_iff (by omega)]
    have e2' : s.session + 1 < k' + cfg.sessionsPerEra := e2
    rw [← e1]
    omega
  refine ⟨h'.idx.trans (congrArg some ?_), h'.era.trans (congrArg some hcs.symm)⟩
  rcases Nat.lt_or_ge a' c' with hlt | hge
  · have hca := Nat.le_antisymm h'.le' hlt
    have hk' : k' = s.session + 1 := h'.ahead hca
    symm
    rw [Nat.div_eq_iff (by omega)]
    have : (a' + 1) * cfg.sessionsPerEra = s.session + 1 := by rw [← hk', e1, hca]
    rw [Nat.add_mul, Nat.one_mul] at this
    omega
  · have hca := Nat.le_antisymm hge h'.le
    have hk' : k' ≤ s.session := h'.same hca
    symm
    rw [Nat.div_eq_iff (by omega)]
    have e2' : s.session + 1 < k' + cfg.sessionsPerEra := e2
    rw [← hca, ← e1]
    omega

example : let s := (hist exCfg exDel .notForcing [1, 2] [1] (exSession 1 ++ exSession 1 ++ exSession 1 ++ exSession 2 ++ exSession 2)).1
    s.session = 5 ∧ activeIdx s = some 1 ∧ s.del.led.era = some 2 := by
  decide +kernel

/-- While eras are off and no offender is disabled, no era is planned. -/
theorem C74_no_eras_partial (cfg : Cfg) {d : Delegation.State} (hd : Fresh d) (f : Forcing) (order fb : List AccId) (ops ops' : List Op)
    (hops : ∀ op ∈ ops', op.forces = false) :
    let s := (hist cfg d f order fb ops).1
    let t := (run cfg (step cfg s .forceNoEras) ops').1
    t.del.led.era = s.del.led.era ∧ t.force = .forceNone := by
  intro s t
  obtain ⟨a, st, c, k, h⟩ := at_hist cfg hd f order fb ops
  have h0 := (at_other cfg h .forceNoEras (by simp)).1
  have key : ∀ (l : List Op) (u : State) (a : Nat) (st : Bool) (k : Nat), At u a st c k → u.force = .forceNone → (∀ op ∈ l, op.forces = false) →
      (run cfg u l).1.del.led.era = some c ∧ (run cfg u l).1.force = .forceNone := by
    intro l
    induction l with
    | nil => intro u a st k hu hf _; exact ⟨hu.era, hf⟩
    | cons op l ih =>
      intro u a st k hu hf hl
      have hl' : ∀ op ∈ l, op.forces = false := fun o ho => hl o (List.mem_cons_of_mem _ ho)
      by_cases ho : ∀ o keys, op ≠ .rotate o keys
      · exact ih _ _ _ _ (at_other cfg hu op ho).1 ((force_step cfg op ho (hl op List.mem_cons_self)).trans hf) hl'
      · push Not at ho
        obtain ⟨o, keys, rfl⟩ := ho
        have hp := plans_mid cfg hu (u.session + 2)
        rw [hf] at hp
        refine ih _ _ _ _ ((at_rotate cfg hu o keys).1 hp) ?_ hl'
        show (rotate cfg u o keys).force = _
        rw [force_rotate cfg hu o keys, hf]; simp
  obtain ⟨k1, k2⟩ := key ops' _ _ _ _ h0 rfl hops
  exact ⟨k1.trans h.era.symm, k2⟩

/-- Finding: an offence for which a validator is disabled turns the eras on again; the next rotation plans an era and
leaves the normal schedule in force. -/
theorem C74_offence_resumes (cfg : Cfg) {d : Delegation.State} (hd : Fresh d) (f : Forcing) (order fb : List AccId) (ops : List Op)
    (o : List AccId) (keys : AccId → Bool) (hf : (hist cfg d f order fb ops).1.force = .forceNone) :
    let s := (hist cfg d f order fb ops).1
    let t := (run cfg s [.offenderDisabled, .rotate o keys]).1
    t.del.led.era = s.del.led.era.map (· + 1) ∧ t.force = .notForcing := by
  intro s t
  have hs : (hist cfg d f order fb (ops ++ [.offenderDisabled])).1 = step cfg s .offenderDisabled := by
    have : ∀ (l : List Op) (u : State), (run cfg u (l ++ [.offenderDisabled])).1 = step cfg (run cfg u l).1 .offenderDisabled := by
      intro l
      induction l with
      | nil => intro u; rfl
      | cons op l ih => intro u; exact ih _
    exact this ops _
  obtain ⟨_, _, h3, _, h5⟩ := C74_rotation cfg hd f order fb (ops ++ [.offenderDisabled]) o keys
  rw [hs] at h3 h5
  have hf' : (step cfg s .offenderDisabled).force = .forceNew := by
    show (ensureNewEra s).force = _
    simp only [ensureNewEra, show s.force = .forceNone from hf]
  have he : (step cfg s .offenderDisabled).del = s.del := by
    show (ensureNewEra s).del = _
    simp only [ensureNewEra, show s.force = .forceNone from hf]
  have hdue : due cfg (step cfg s .offenderDisabled) = true := by simp only [due, hf']
  rw [hdue, if_pos rfl, he] at h3
  rw [hf', if_pos rfl] at h5
  exact ⟨h3, h5⟩

theorem hist_append (cfg : Cfg) (d : Delegation.State) (f : Forcing) (order fb : List AccId) (l m : List Op) :
    (hist cfg d f order fb (l ++ m)).1 = (run cfg (hist cfg d f order fb l).1 m).1 := by
  have : ∀ (l : List Op) (u : State), (run cfg u (l ++ m)).1 = (run cfg (run cfg u l).1 m).1 := by
    intro l
    induction l with
    | nil => intro u; rfl
    | cons op l ih => intro u; exact ih _
  exact this l _

/-- Forcing an era with every session lasts until root asks for something else, whatever offences there are: each
rotation plans an era. -/
theorem C74_always (cfg : Cfg) {d : Delegation.State} (hd : Fresh d) (f : Forcing) (order fb : List AccId) (ops ops' : List Op)
    (hops : ∀ op ∈ ops', op ≠ .forceNewEra ∧ op ≠ .forceNoEras) (o : List AccId) (keys : AccId → Bool) :
    let s := (hist cfg d f order fb (ops ++ .forceNewEraAlways :: ops')).1
    let t := step cfg s (.rotate o keys)
    s.force = .forceAlways ∧ t.del.led.era = s.del.led.era.map (· + 1) := by
  intro s t
  have key : ∀ (l : List Op) (u : State) (a : Nat) (st : Bool) (c k : Nat), At u a st c k → u.force = .forceAlways →
      (∀ op ∈ l, op ≠ .forceNewEra ∧ op ≠ .forceNoEras) → (run cfg u l).1.force = .forceAlways := by
    intro l
    induction l with
    | nil => intro u a st c k _ hf _; exact hf
    | cons op l ih =>
      intro u a st c k hu hf hl
      have hl' := fun x hx => hl x (List.mem_cons_of_mem _ hx)
      obtain ⟨a', st', c', k', hu'⟩ := at_step cfg hu op
      refine ih _ _ _ _ _ hu' ?_ hl'
      by_cases ho : ∀ o keys, op ≠ .rotate o keys
      · by_cases hfo : op.forces = false
        · exact (force_step cfg op ho hfo).trans hf
        · cases op with
          | forceNewEraAlways => rfl
          | offenderDisabled =>
            show (ensureNewEra u).force = _
            simp only [ensureNewEra, hf]
          | forceNewEra => exact absurd rfl (hl _ List.mem_cons_self).1
          | forceNoEras => exact absurd rfl (hl _ List.mem_cons_self).2
          | _ => exact absurd rfl hfo
      · push Not at ho
        obtain ⟨o, keys, rfl⟩ := ho
        show (rotate cfg u o keys).force = _
        rw [force_rotate cfg hu o keys, hf]; simp
  obtain ⟨a, st, c, k, h⟩ := at_hist cfg hd f order fb ops
  have hs : s.force = .forceAlways := by
    show (hist cfg d f order fb (ops ++ .forceNewEraAlways :: ops')).1.force = _
    rw [hist_append]
    exact key ops' _ _ _ _ _ (at_other cfg h .forceNewEraAlways (by simp)).1 rfl hops
  refine ⟨hs, ?_⟩
  have h3 := (C74_rotation cfg hd f order fb (ops ++ .forceNewEraAlways :: ops') o keys).2.2.1
  rw [show due cfg (hist cfg d f order fb (ops ++ .forceNewEraAlways :: ops')).1 = true from by
    simp only [due, show (hist cfg d f order fb (ops ++ .forceNewEraAlways :: ops')).1.force = .forceAlways from hs],
    if_pos rfl] at h3
  exact h3

/-- After root has asked for a new era, or an offender has been disabled, the next rotation plans one, unless root
switches eras off before. -/
theorem C74_next (cfg : Cfg) {d : Delegation.State} (hd : Fresh d) (f : Forcing) (order fb : List AccId) (ops ops' : List Op)
    (op0 : Op) (h0 : op0 = .forceNewEra ∨ op0 = .offenderDisabled)
    (hops : ∀ op ∈ ops', (∀ o keys, op ≠ .rotate o keys) ∧ op ≠ .forceNoEras) (o : List AccId) (keys : AccId → Bool) :
    let s := (hist cfg d f order fb (ops ++ op0 :: ops')).1
    let t := step cfg s (.rotate o keys)
    t.del.led.era = s.del.led.era.map (· + 1) := by
  intro s t
  have key : ∀ (l : List Op) (u : State), (u.force = .forceNew ∨ u.force = .forceAlways) →
      (∀ op ∈ l, (∀ o keys, op ≠ .rotate o keys) ∧ op ≠ .forceNoEras) →
      (run cfg u l).1.force = .forceNew ∨ (run cfg u l).1.force = .forceAlways := by
    intro l
    induction l with
    | nil => intro u hf _; exact hf
    | cons op l ih =>
      intro u hf hl
      refine ih _ ?_ fun x hx => hl x (List.mem_cons_of_mem _ hx)
      obtain ⟨ho, hn⟩ := hl op List.mem_cons_self
      by_cases hfo : op.forces = false
      · rw [force_step cfg op ho hfo]; exact hf
      · cases op with
        | forceNewEra => exact Or.inl rfl
        | forceNewEraAlways => exact Or.inr rfl
        | offenderDisabled =>
          show (ensureNewEra u).force = _ ∨ (ensureNewEra u).force = _
          rcases hf with hf | hf <;> simp [ensureNewEra, hf]
        | forceNoEras => exact absurd rfl hn
        | _ => exact absurd rfl hfo
  have hs : s.force = .forceNew ∨ s.force = .forceAlways := by
    show (hist cfg d f order fb (ops ++ op0 :: ops')).1.force = _ ∨ (hist cfg d f order fb (ops ++ op0 :: ops')).1.force = _
    rw [hist_append]
    refine key ops' _ ?_ hops
    rcases h0 with rfl | rfl
    · exact Or.inl rfl
    · show (ensureNewEra _).force = _ ∨ (ensureNewEra _).force = _
      cases hf : (run cfg (genesis cfg d f order fb) ops).1.force <;> simp [ensureNewEra, hist, hf]
  have h3 := (C74_rotation cfg hd f order fb (ops ++ op0 :: ops') o keys).2.2.1
  rw [show due cfg (hist cfg d f order fb (ops ++ op0 :: ops')).1 = true from by
    rcases hs with h | h <;>
      simp only [due, show (hist cfg d f order fb (ops ++ op0 :: ops')).1.force = _ from h], if_pos rfl] at h3
  exact h3

/-- An era with every session, also after an offence; one more era after a request, then the schedule again. -/
example :
    let r := .rotate [1, 2] allKeys
    let s := (hist exCfg exDel .notForcing [1, 2] [1] ([.forceNewEraAlways] ++ [r, .offenderDisabled, r, r])).1
    let t := (hist exCfg exDel .notForcing [1, 2] [1] ([.forceNewEra] ++ [.author 1] ++ [r, r])).1
    s.session = 3 ∧ s.del.led.era = some 3 ∧ s.force = .forceAlways ∧ t.session = 2 ∧ t.del.led.era = some 1 ∧
    t.force = .notForcing := by
  decide +kernel

example : let s := (hist exCfg exDel .notForcing [1, 2] [1] (exSession 1 ++ [.forceNoEras] ++ exSession 1 ++ exSession 1 ++ exSession 2 ++ exSession 2)).1
    s.session = 5 ∧ activeIdx s = some 0 ∧ s.del.led.era = some 0 ∧ s.force = .forceNone := by
  decide +kernel

/-! ### C75: the era of an offence -/

/-- An offence in a session seen before is attributed to the era that was active in that session, as long as that era
is at most the bonding duration ago; older offences are dropped. (If the history keeps at least one era.) -/
theorem C75_offence_era (cfg : Cfg) {d : Delegation.State} (hd : Fresh d) (f : Forcing) (order fb : List AccId) (ops : List Op)
    (hk : ∀ op ∈ ops, op.keeps) (x : State × Op) (hx : x ∈ (hist cfg d f order fb ops).2) (e a : Nat) (he : activeIdx x.1 = some e)
    (ha : activeIdx (hist cfg d f order fb ops).1 = some a) :
    offenceEra (hist cfg d f order fb ops).1 x.1.session = if a ≤ e + cfg.bonding then some e else none := by
  obtain ⟨a', st, c, k, σ, h, hh, _, _⟩ := hist_facts cfg hd f order fb ops hk
  have e1 : a' = a := Option.some.inj (h.idx.symm.trans ha)
  subst e1
  obtain ⟨p1, p2, p3, p4⟩ := hh.past x.1.session e ⟨x, hx, rfl, he⟩
  unfold offenceEra
  rw [h.active]
  simp only [hh.start, Option.getD_some]
  rcases Nat.lt_or_ge e a' with hlt | hge
  · have hmono : ∀ j, e + 1 + j ≤ a' → σ (e + 1) ≤ σ (e + 1 + j) := by
      intro j
      induction j with
      | zero => intro _; exact Nat.le_refl _
      | succ j ihj =>
        intro hj
        have h1 := hh.mono (e + 1 + j) (by omega)
        have h2 := ihj (by omega)
        have e1 : e + 1 + (j + 1) = e + 1 + j + 1 := by omega
        rw [e1]; omega
    have h3 := hmono (a' - (e + 1)) (by omega)
    have e2 : e + 1 + (a' - (e + 1)) = a' := by omega
    rw [e2] at h3
    have h4 := p4 hlt
    rw [if_neg (by omega), hh.bonded, find_bonded (a' - cfg.bonding) x.1.session e a' σ hh.mono p2 p4 _ (by omega) (by omega)]
    by_cases hb : a' ≤ e + cfg.bonding
    · rw [if_pos hb, if_pos (by omega)]; rfl
    · rw [if_neg hb, if_neg (by omega)]; rfl
  · have : e = a' := Nat.le_antisymm p1 hge
    subst this
    rw [if_pos p2, if_pos (Nat.le_add_right _ _)]

/-- An offence in the current session belongs to the active era. -/
theorem C75_current (cfg : Cfg) {d : Delegation.State} (hd : Fresh d) (f : Forcing) (order fb : List AccId) (ops : List Op)
    (hk : ∀ op ∈ ops, op.keeps) :
    let s := (hist cfg d f order fb ops).1
    offenceEra s s.session = activeIdx s := by
  intro s
  obtain ⟨a, st, c, k, σ, h, hh, _, _⟩ := hist_facts cfg hd f order fb ops hk
  rw [show activeIdx s = some a from h.idx]
  unfold offenceEra
  rw [show s.active = _ from h.active]
  simp only [show s.eraStart.get a = _ from hh.start, Option.getD_some]
  rw [if_pos hh.le]

/-- Bonding duration 2: in era 4 an offence of session 7, in era 2, is attributed, one of session 4, in era 1, is not. -/
example : let r := hist exCfg exDel .notForcing [1, 2] [1] (List.replicate 12 (exSession 1)).flatten
    activeIdx r.1 = some 4 ∧ exCfg.bonding = 2 ∧ offenceEra r.1 12 = some 4 ∧ offenceEra r.1 7 = some 2 ∧ offenceEra r.1 4 = none := by
  decide +kernel

/-- Finding: a history depth of 0 makes the chain forget the start of the active era during its last session, and
offences are attributed to the wrong era. -/
theorem C75_depth_zero : ∃ (ops : List Op) (x : State × Op), x ∈ (hist exCfg exDel .notForcing [1, 2] [1] ops).2 ∧
    x.1.session = 2 ∧ activeIdx x.1 = some 0 ∧ activeIdx (hist exCfg exDel .notForcing [1, 2] [1] ops).1 = some 1 ∧
    offenceEra (hist exCfg exDel .notForcing [1, 2] [1] ops).1 2 = some 1 := by
  refine ⟨exSession 1 ++ exSession 1 ++ exSession 1 ++ exSession 1 ++ exSession 1 ++ [.setHistoryDepth 0],
    ((hist exCfg exDel .notForcing [1, 2] [1] (exSession 1 ++ exSession 1)).1, .author 1), ?_, ?_⟩
  · show _ ∈ (run exCfg (genesis exCfg exDel .notForcing [1, 2] [1]) _).2
    simp only [exSession, List.cons_append, List.nil_append, run, List.mem_cons]
    right; right; right; right; right; right; right; right; left
    rfl
  · decide +kernel

/-! ### C76: validators are paid for their blocks -/

/-- The points of the active era count the blocks: 20 for each. -/
theorem C76_points (cfg : Cfg) {d : Delegation.State} (hd : Fresh d) (f : Forcing) (order fb : List AccId) (ops : List Op)
    (hk : ∀ op ∈ ops, op.keeps) (a : Nat) (ha : activeIdx (hist cfg d f order fb ops).1 = some a) :
    let r := hist cfg d f order fb ops
    (∀ v, pointsOf r.1 a v = 20 * authored r.2 a v) ∧ pointsAll r.1 a = 20 * authoredAll r.2 a := by
  intro r
  obtain ⟨a', st, c, k, σ, h, hh, hp, _⟩ := hist_facts cfg hd f order fb ops hk
  have e1 : a' = a := Option.some.inj (h.idx.symm.trans ha)
  subst e1
  exact hp a' (Nat.le_refl _)

/-- What a validator with `n` of `N` blocks gets out of `P`: the part in billionths is rounded down, the product to the
nearest unit. -/
def blockShare (n N : Nat) (P : Balance) : Balance := Slashing.perbill (10 ^ 9 * n / N) P

theorem share_eq (s : State) (e : Nat) (P : Balance) (v : AccId) (n N : Nat) (h1 : pointsOf s e v = 20 * n) (h2 : pointsAll s e = 20 * N) :
    Delegation.validatorShare ((s.del.points.get e).getD ⟨0, ∅⟩) P v = if n = 0 then 0 else blockShare n N P := by
  unfold Delegation.validatorShare blockShare
  simp only [pointsOf] at h1
  simp only [pointsAll] at h2
  simp only [h1, h2]
  by_cases hn : n = 0
  · subst hn; simp
  · rw [if_neg (by omega), if_neg hn]
    have : 10 ^ 9 * (20 * n) / (20 * N) = 10 ^ 9 * n / N := by
      rw [Nat.mul_left_comm, Nat.mul_div_mul_left _ _ (by decide : 0 < 20)]
    rw [this]

/-- The rotation that ends an era pays each of its validators in proportion to the blocks authored in that era, out of
the era reward or what is left in the pool. The pool falls by what is paid. (If the history keeps at least one era.) -/
theorem C76_payment (cfg : Cfg) {d : Delegation.State} (hd : Fresh d) (f : Forcing) (order fb : List AccId) (ops : List Op)
    (hk : ∀ op ∈ ops, op.keeps) (o : List AccId) (keys : AccId → Bool) (a : Nat) (vs : List AccId)
    (ha : (hist cfg d f order fb ops).1.active = some (a, true)) (hc : (hist cfg d f order fb ops).1.del.led.era = some (a + 1))
    (hv : (hist cfg d f order fb ops).1.del.erasValidators.get a = some vs) :
    let r := hist cfg d f order fb ops
    let t := step cfg r.1 (.rotate o keys)
    let pool := Delegation.poolOf cfg.del r.1.del
    let share := fun v => if authored r.2 a v = 0 then 0 else blockShare (authored r.2 a v) (authoredAll r.2 a) (min r.1.del.eraReward pool)
    Delegation.poolOf cfg.del t.del = pool - (if pool = 0 then 0 else (vs.map share).sum) ∧
    ∀ x, Solid r.1.del.led.bank x → t.del.led.bank.free x = r.1.del.led.bank.free x +
      if pool = 0 then 0 else (vs.map fun v => if dest r.1.del.led v = some x then share v else 0).sum := by
  intro r t pool share
  obtain ⟨a', st, c, k, σ, h, hh, hp, _⟩ := hist_facts cfg hd f order fb ops hk
  have e1 : a' = a := Option.some.inj (h.idx.symm.trans (by simp [activeIdx, ha]))
  subst e1
  have e2 : st = true := by
    have := h.active.symm.trans ha
    simpa using this
  have e3 : c = a' + 1 := Option.some.inj (h.era.symm.trans hc)
  subst e2 e3
  obtain ⟨p1, p2⟩ := hp a' (Nat.le_refl _)
  have hm := money_rotate cfg h o keys
  rw [if_pos ⟨rfl, rfl⟩] at hm
  have hm1 : t.del.led.bank = (Delegation.payValidators cfg.del r.1.del a').led.bank := congrArg Prod.fst hm
  have hm2 : t.del.pool = (Delegation.payValidators cfg.del r.1.del a').pool := congrArg Prod.snd hm
  have hsh : ∀ v, Delegation.validatorShare ((r.1.del.points.get a').getD ⟨0, ∅⟩) (min r.1.del.eraReward pool) v = share v :=
    fun v => share_eq r.1 a' _ v _ _ (p1 v) p2
  have hmap : Delegation.validatorShare ((r.1.del.points.get a').getD ⟨0, ∅⟩) (min r.1.del.eraReward pool) = share := funext hsh
  by_cases hz : pool = 0
  · have hz' : Delegation.poolOf cfg.del r.1.del = 0 := hz
    have hpay : Delegation.payValidators cfg.del r.1.del a' = r.1.del := by simp only [Delegation.payValidators, hz', if_true]
    rw [hpay] at hm1 hm2
    simp only [if_pos hz, Nat.sub_zero, Nat.add_zero]
    refine ⟨?_, fun x _ => by rw [hm1]⟩
    show Delegation.poolOf cfg.del t.del = Delegation.poolOf cfg.del r.1.del
    simp only [Delegation.poolOf, hm2]
  · have hz' : ¬ Delegation.poolOf cfg.del r.1.del = 0 := hz
    have hpay : Delegation.payValidators cfg.del r.1.del a' =
        { (Delegation.payEachValidator cfg.del ((r.1.del.points.get a').getD ⟨0, ∅⟩) (min r.1.del.eraReward pool) vs r.1.del 0).1 with pool := some (pool - (Delegation.payEachValidator cfg.del ((r.1.del.points.get a').getD ⟨0, ∅⟩) (min r.1.del.eraReward pool) vs r.1.del 0).2) } := by
      simp only [Delegation.payValidators, if_neg hz']
      rw [show r.1.del.erasValidators.get a' = some vs from hv]
      rfl
    rw [hpay] at hm1 hm2
    simp only [if_neg hz]
    have hsum : (Delegation.payEachValidator cfg.del ((r.1.del.points.get a').getD ⟨0, ∅⟩) (min r.1.del.eraReward pool) vs r.1.del 0).2 = (vs.map share).sum := by
      rw [(Delegation.payEach_issued cfg.del ((r.1.del.points.get a').getD ⟨0, ∅⟩) (min r.1.del.eraReward pool) vs r.1.del 0).1, hmap, Nat.zero_add]
    refine ⟨?_, fun x hx => ?_⟩
    · simp only [Delegation.poolOf, hm2, Option.getD_some, hsum]
    · rw [hm1]
      show (Delegation.payEachValidator cfg.del ((r.1.del.points.get a').getD ⟨0, ∅⟩) (min r.1.del.eraReward pool) vs r.1.del 0).1.led.bank.free x = _
      rw [(payEach_solid cfg.del _ _ x vs r.1.del 0 hx).1, hmap]

/-- A rotation within an era moves no money. -/
theorem C76_only_at_the_end (cfg : Cfg) {d : Delegation.State} (hd : Fresh d) (f : Forcing) (order fb : List AccId) (ops : List Op)
    (o : List AccId) (keys : AccId → Bool) (hc : (hist cfg d f order fb ops).1.del.led.era = activeIdx (hist cfg d f order fb ops).1) :
    let s := (hist cfg d f order fb ops).1
    let t := step cfg s (.rotate o keys)
    t.del.led.bank = s.del.led.bank ∧ t.del.pool = s.del.pool := by
  intro s t
  obtain ⟨a, st, c, k, h⟩ := at_hist cfg hd f order fb ops
  have e : c = a := Option.some.inj (h.era.symm.trans (hc.trans h.idx))
  have hm := money_rotate cfg h o keys
  rw [if_neg (by omega)] at hm
  exact ⟨congrArg Prod.fst hm, congrArg Prod.snd hm⟩

/-- The eras ended in a history: rotations with the next era planned. -/
def ended : List (State × Op) → List Nat
  | [] => []
  | (s, .rotate _ _) :: tr => (if s.del.led.era = activeIdx s then [] else (activeIdx s).toList) ++ ended tr
  | _ :: tr => ended tr

theorem ended_run (cfg : Cfg) (ops : List Op) : ∀ {s : State} {a : Nat} {st : Bool} {c k : Nat}, At s a st c k →
    ∃ b, activeIdx (run cfg s ops).1 = some b ∧ a ≤ b ∧ ended (run cfg s ops).2 = List.range' a (b - a) := by
  induction ops with
  | nil => intro s a st c k h; exact ⟨a, h.idx, Nat.le_refl _, by simp [run, ended]⟩
  | cons op ops ih =>
    intro s a st c k h
    by_cases ho : ∀ o keys, op ≠ .rotate o keys
    · obtain ⟨b, h1, h2, h3⟩ := ih (at_other cfg h op ho).1
      refine ⟨b, h1, h2, ?_⟩
      have : ended (run cfg s (op :: ops)).2 = ended (run cfg (step cfg s op) ops).2 := by
        cases op <;> first | rfl | exact absurd rfl (ho _ _)
      rw [this]; exact h3
    · push Not at ho
      obtain ⟨o, keys, rfl⟩ := ho
      obtain ⟨g1, g2, _⟩ := at_rotate cfg h o keys
      have : ∃ st' c' k', At (step cfg s (.rotate o keys)) c st' c' k' := by
        cases hp : plans cfg (mid cfg s) (s.session + 2) with
        | false => exact ⟨_, _, _, g1 hp⟩
        | true => exact ⟨_, _, _, g2 hp⟩
      obtain ⟨st', c', k', g⟩ := this
      obtain ⟨b, h1, h2, h3⟩ := ih g
      have hl := h.le
      have hl' := h.le'
      refine ⟨b, h1, by omega, ?_⟩
      have e : ended (run cfg s (.rotate o keys :: ops)).2 =
          (if s.del.led.era = activeIdx s then [] else (activeIdx s).toList) ++ ended (run cfg (step cfg s (.rotate o keys)) ops).2 := rfl
      rw [e, h3, h.era, h.idx]
      simp only [Option.some.injEq, Option.toList_some]
      split
      · rename_i hca; rw [hca, List.nil_append]
      · have e1 : c = a + 1 := by omega
        have e2 : b - a = (b - c) + 1 := by omega
        rw [e2, List.range'_succ, e1]; rfl

/-- Each era before the active one was ended, once and in order. -/
theorem C76_once (cfg : Cfg) {d : Delegation.State} (hd : Fresh d) (f : Forcing) (order fb : List AccId) (ops : List Op) :
    let r := hist cfg d f order fb ops
    ∃ a, activeIdx r.1 = some a ∧ ended r.2 = List.range a := by
  intro r
  obtain ⟨c, k, h, _⟩ := genesis_facts cfg hd f order fb
  obtain ⟨b, h1, _, h3⟩ := ended_run cfg ops h
  exact ⟨b, h1, by rw [show ended r.2 = _ from h3, Nat.sub_zero, List.range_eq_range']⟩

/-- Two validators per era: validator 1 makes 4 of 6 blocks of era 0, validator 2 the others and is paid to account 1. -/
def exDel2 : Delegation.State := { exDel with validatorCount := 2 }

example : let r := hist exCfg exDel2 .notForcing [1, 2] [1] (exSession 1 ++ exSession 1 ++ (exSession 2).dropLast)
    let t := step exCfg r.1 (.rotate [1, 2] allKeys)
    r.1.active = some (0, true) ∧ r.1.del.led.era = some 1 ∧ r.1.del.erasValidators.get 0 = some [1, 2] ∧
    authored r.2 0 1 = 4 ∧ authoredAll r.2 0 = 6 ∧ t.active = some (1, false) ∧
    Delegation.poolOf exCfg.del r.1.del = 1000 ∧ Delegation.poolOf exCfg.del t.del = 900 ∧
    r.1.del.led.bank.free 1 = 1000 ∧ t.del.led.bank.free 1 = 1100 ∧ dest r.1.del.led 2 = some 1 := by
  decide +kernel

/-! ### C77: who is in charge -/

/-- The validators in charge were elected for the active era, if that election succeeded. -/
theorem C77_in_charge (cfg : Cfg) {d : Delegation.State} (hd : Fresh d) (f : Forcing) (order fb : List AccId) (ops : List Op)
    (hk : ∀ op ∈ ops, op.keeps) (a : Nat) (vs : List AccId) (ha : activeIdx (hist cfg d f order fb ops).1 = some a)
    (hv : (hist cfg d f order fb ops).1.del.erasValidators.get a = some vs) :
    ∀ v ∈ (hist cfg d f order fb ops).1.validators, v ∈ vs := by
  obtain ⟨a', st, c, k, σ, h, _, _, hc⟩ := hist_facts cfg hd f order fb ops hk
  have e1 : a' = a := Option.some.inj (h.idx.symm.trans ha)
  subst e1
  exact hc.now vs hv

/-- A rotation puts the queued validators in charge and queues those elected for a newly planned era, or, without a new
era or after a failed election, those in charge from now on; validators without session keys are left out. -/
theorem C77_takeover (cfg : Cfg) {d : Delegation.State} (hd : Fresh d) (f : Forcing) (order fb : List AccId) (ops : List Op)
    (hk : ∀ op ∈ ops, op.keeps) (o : List AccId) (keys : AccId → Bool) :
    let s := (hist cfg d f order fb ops).1
    let t := step cfg s (.rotate o keys)
    t.validators = s.queued ∧
    t.queued = (if t.del.led.era = s.del.led.era then s.queued else (t.del.erasValidators.get (t.del.led.era.getD 0)).getD s.queued).filter keys := by
  intro s t
  obtain ⟨a, st, c, k, σ, h, hh, _, hc⟩ := hist_facts cfg hd f order fb ops hk
  obtain ⟨c', k', g1, g2, g3, g4, g5, g6, g7, g8, g9⟩ := rotate_facts cfg h hh.depth o keys
  refine ⟨g3, ?_⟩
  have e1 : s.del.led.era = some c := h.era
  have e2 : t.del.led.era = some c' := g1.era
  rw [e1, e2, Option.getD_some]
  simp only [Option.some.injEq]
  rcases g9 with ⟨hcc, g⟩ | ⟨hcc, l, g, g'⟩ | ⟨hcc, g, g'⟩
  · rw [if_pos hcc]; exact g
  · rw [if_neg (by omega), show t.del.erasValidators.get c' = some l from g]; exact g'
  · have hn := g' (hc.later _ (by omega))
    rw [if_neg (by omega), show t.del.erasValidators.get c' = none from hn]; exact g

example : let r := hist exCfg exDel .notForcing [1, 2] [1] (exSession 1 ++ exSession 1 ++ exSession 1 ++ exSession 2)
    r.1.validators = [2] ∧ activeIdx r.1 = some 1 ∧ r.1.del.erasValidators.get 1 = some [2] ∧ r.1.del.erasValidators.get 0 = some [1] := by
  decide +kernel

/-- Finding: after a failed election the old validators stay in charge, but nobody is paid for the era: validator 1 makes
all blocks of era 1, for which too few validators stood, and the end of the era moves no money. -/
theorem C77_failed_election : ∃ ops : List Op, (∀ op ∈ ops, op.keeps) ∧
    let r := hist exCfg exDel .notForcing [1, 2] [1] ops
    let t := step exCfg r.1 (.rotate [1, 2] allKeys)
    r.1.active = some (1, true) ∧ r.1.del.led.era = some 2 ∧ r.1.validators = [1] ∧ authored r.2 1 1 = 6 ∧ authoredAll r.2 1 = 6 ∧
    r.1.del.erasValidators.get 1 = none ∧ t.active = some (2, false) ∧ r.1.del.eraReward = 100 ∧ Delegation.poolOf exCfg.del r.1.del = 900 ∧
    Delegation.poolOf exCfg.del t.del = 900 := by
  refine ⟨exSession 1 ++ [.configure 100 1 3 []] ++ exSession 1 ++ exSession 1 ++ exSession 1 ++ exSession 1 ++ (exSession 1).dropLast, ?_, ?_⟩
  · decide
  · decide +kernel

/-! ### C78: unbonding and late offences -/

/-- When what was unbonded after the calls `ops` can be withdrawn (the planned era has advanced by the bonding duration,
see C36), an offence that is still attributed to an era is at most one era older than the era active when unbonding.
The full claim would be that no offence up to the unbonding can be reported any more; this fails, see
`C78_late_offence`. -/
theorem C78_partial (cfg : Cfg) {d : Delegation.State} (hd : Fresh d) (f : Forcing) (order fb : List AccId) (ops ops' : List Op)
    (hk : ∀ op ∈ ops ++ ops', op.keeps) (a1 k e : Nat) (ha : activeIdx (hist cfg d f order fb ops).1 = some a1)
    (hw : (hist cfg d f order fb ops).1.del.led.era.getD 0 + cfg.bonding ≤ (hist cfg d f order fb (ops ++ ops')).1.del.led.era.getD 0)
    (he : offenceEra (hist cfg d f order fb (ops ++ ops')).1 k = some e) : a1 ≤ e + 1 := by
  obtain ⟨a0, st0, c0, k0, h0⟩ := at_hist cfg hd f order fb ops
  have e0 : a0 = a1 := Option.some.inj (h0.idx.symm.trans ha)
  subst e0
  have hle0 := h0.le
  obtain ⟨a, st, c, k', σ, h, hh, _, _⟩ := hist_facts cfg hd f order fb (ops ++ ops') hk
  rw [h0.era, h.era, Option.getD_some, Option.getD_some] at hw
  have hle := h.le'
  unfold offenceEra at he
  rw [h.active] at he
  simp only at he
  split at he
  · cases he; omega
  · rw [hh.bonded] at he
    cases hf : (((List.range' (a - cfg.bonding) (a + 1 - (a - cfg.bonding))).map fun e => (e, σ e)).reverse.find? fun p => decide (p.2 ≤ k)) with
    | none => rw [hf] at he; cases he
    | some p =>
      rw [hf] at he
      have hm := List.mem_of_find?_eq_some hf
      rw [List.mem_reverse, List.mem_map] at hm
      obtain ⟨x, hx, rfl⟩ := hm
      have := List.mem_range'.mp hx
      have e2 : x = e := Option.some.inj he
      omega

/-- Finding: stash 1 unbonds in era 0 and withdraws everything as soon as era 2 is planned (bonding duration 2), while
era 1 is still active and an offence of stash 1 in era 0 is still attributed. -/
theorem C78_late_offence : ∃ (ops ops' : List Op) (k : Nat), (∀ op ∈ ops ++ ops', op.keeps) ∧
    let r := hist exCfg exDel .notForcing [1, 2] [1] ops
    let t := hist exCfg exDel .notForcing [1, 2] [1] (ops ++ .other (.ledger (.unbond 11 500)) :: ops')
    activeIdx r.1 = some 0 ∧ r.1.del.led.era = some 0 ∧ r.1.session = k ∧ 1 ∈ r.1.validators ∧ r.1.del.led.locks.get 1 = some 500 ∧
    t.1.del.led.ledgers.get 11 = none ∧ t.1.del.led.locks.get 1 = none ∧ offenceEra t.1 k = some 0 := by
  refine ⟨exSession 1 ++ [.other (.ledger (.chill 11))], exSession 1 ++ exSession 1 ++ exSession 2 ++ exSession 2 ++
    [.other (.ledger (.withdraw 11 true))], 1, ?_, ?_⟩
  · decide
  · decide +kernel

/-- The bound is met: after unbonding in era 1, an offence of era 0 is attributed when the withdrawal is due. -/
example : let ops := exSession 1 ++ exSession 1 ++ exSession 1
    let ops' := exSession 2 ++ exSession 2 ++ exSession 2 ++ exSession 1 ++ exSession 1
    activeIdx (hist exCfg exDel .notForcing [1, 2] [1] ops).1 = some 1 ∧
    (hist exCfg exDel .notForcing [1, 2] [1] ops).1.del.led.era.getD 0 + exCfg.bonding ≤
      (hist exCfg exDel .notForcing [1, 2] [1] (ops ++ ops')).1.del.led.era.getD 0 ∧
    offenceEra (hist exCfg exDel .notForcing [1, 2] [1] (ops ++ ops')).1 2 = some 0 := by
  decide +kernel

end Verif.Session
