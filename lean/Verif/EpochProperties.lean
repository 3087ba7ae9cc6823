import Verif.EpochProofs

/-!
# Sessions, eras and slashes on the chain: C125 and C126
-/

namespace Verif.Epoch

open Verif

/-- A history from the first block. -/
def hist (cfg : Cfg) (c : Chain.State) (f : Session.Forcing) (order fb : List AccId) (ops : List Op) : State × List (State × Op × Penalty.Out) :=
  run cfg (genesis cfg c f order fb) ops

/-- The number of eras stakes stay bonded. -/
def Cfg.bonding (cfg : Cfg) : Nat := cfg.chain.world.ledger.bondingDuration

/-! ### Specification -/

/-- Validator `v` is in charge in a state, in era `e`, after an election that succeeded. -/
structure Elected (s : State) (e : Nat) (v : AccId) : Prop where
  active : s.c.slash.active = some e
  election : ∃ l, s.c.stk.dele.erasValidators.get e = some l
  charge : v ∈ s.validators

/-! ### C125: which stake answers for an offence -/

theorem At.active' {s : State} {a : Nat} {st : Bool} {c k : Nat} (h : Session.At (view s) a st c k) : s.c.slash.active = some a := by
  have : s.c.slash.active.map (·, s.started) = some (a, st) := h.active
  obtain ⟨b, hb, hbe⟩ := Option.map_eq_some_iff.1 this
  rw [hb, (Prod.mk.inj hbe).1]

theorem mono_le {a : Nat} {σ : Nat → Nat} (hm : ∀ e, e < a → σ e < σ (e + 1)) : ∀ {i j : Nat}, i ≤ j → j ≤ a → σ i ≤ σ j := by
  intro i j hij
  induction j with
  | zero => intro _; rw [show i = 0 by omega]
  | succ j ih =>
    intro hj
    by_cases h : i = j + 1
    · rw [h]
    · have := ih (by omega) (by omega)
      have := hm j (by omega)
      omega

theorem low_eq {cfg : Cfg} {s : State} {a : Nat} {σ : Nat → Nat} {P : Nat → Nat → Prop} (h : Session.Hist cfg.ses (view s) a σ P) : low s = σ (a - cfg.bonding) := by
  have hb : s.c.slash.bondedEras = (List.range' (a - cfg.bonding) (a + 1 - (a - cfg.bonding))).map fun e => (e, σ e) := h.bonded
  unfold low
  rw [hb, show a + 1 - (a - cfg.bonding) = (a - (a - cfg.bonding)) + 1 by omega, List.range'_succ]
  rfl

theorem mem_trace (cfg : Cfg) (ops : List Op) : ∀ (s : State) (x : State × Op × Penalty.Out), x ∈ (run cfg s ops).2 →
    ∃ pre post, ops = pre ++ post ∧ x.1 = (run cfg s pre).1 := by
  induction ops with
  | nil => intro s x hx; cases hx
  | cons o ops ih =>
    intro s x hx
    rcases List.mem_cons.1 hx with rfl | hx
    · exact ⟨[], o :: ops, rfl, rfl⟩
    · obtain ⟨pre, post, h1, h2⟩ := ih _ x hx
      exact ⟨o :: pre, post, by rw [h1]; rfl, h2⟩

/-- The exposure of a validator in charge is recorded. -/
theorem elected_recorded (cfg : Cfg) {c0 : Chain.State} (hc : Fresh c0) (f : Session.Forcing) (order fb : List AccId) (ops : List Op) (hk : ∀ op ∈ ops, op.keeps)
    {e : Nat} {v : AccId} (he : Elected (hist cfg c0 f order fb ops).1 e v) :
    ∃ y, (hist cfg c0 f order fb ops).1.c.stk.dele.stakers.get (e, v) = some y ∧ exposure (hist cfg c0 f order fb ops).1.c e v = y := by
  obtain ⟨a', st, c, k, σ, h, hh, hR⟩ := facts cfg hc f order fb ops hk
  have e1 : a' = e := Option.some.inj ((At.active' h).symm.trans he.active)
  subst e1
  obtain ⟨l, hl⟩ := he.election
  obtain ⟨y, hy, _⟩ := hR.now (fun hnone => by cases hnone.symm.trans hl) v he.charge
  refine ⟨y, hy, ?_⟩
  show (FMap.get (run cfg (genesis cfg c0 f order fb) ops).1.c.stk.dele.stakers _).getD _ = y
  rw [hy]; rfl

/-- C125: an offence in a session of the past belongs to the era active then, if that era is still bonded; otherwise it
is dropped. -/
theorem C125_era (cfg : Cfg) {c0 : Chain.State} (hc : Fresh c0) (f : Session.Forcing) (order fb : List AccId) (ops : List Op) (hk : ∀ op ∈ ops, op.keeps)
    (x : State × Op × Penalty.Out) (hx : x ∈ (hist cfg c0 f order fb ops).2) (e a : Nat) (he : x.1.c.slash.active = some e)
    (ha : (hist cfg c0 f order fb ops).1.c.slash.active = some a) :
    let t := (hist cfg c0 f order fb ops).1
    Slashing.eraOf t.c.slash a (activeStart t) x.1.session = if a ≤ e + cfg.bonding then some e else none := by
  intro t
  obtain ⟨a', st, c, k, σ, h, hh, hR⟩ := facts cfg hc f order fb ops hk
  have e1 : a' = a := Option.some.inj ((At.active' h).symm.trans ha)
  subst e1
  obtain ⟨p1, p2, p3, p4⟩ := hh.past x.1.session e ⟨x, hx, rfl, he⟩
  have hs : activeStart t = σ a' := by
    unfold activeStart
    rw [show t.c.slash.active = some a' from ha]
    have : t.eraStart.get a' = some (σ a') := hh.start
    simp only [Option.bind_some, this, Option.getD_some]
  have hb : t.c.slash.bondedEras = (List.range' (a' - cfg.bonding) (a' + 1 - (a' - cfg.bonding))).map fun e => (e, σ e) := hh.bonded
  unfold Slashing.eraOf
  rw [hs]
  rcases Nat.lt_or_ge e a' with hlt | hge
  · have h3 : σ (e + 1) ≤ σ a' := mono_le hh.mono hlt (Nat.le_refl _)
    have h4 := p4 hlt
    rw [if_neg (by omega), hb, Session.find_bonded (a' - cfg.bonding) x.1.session e a' σ hh.mono p2 p4 _ (by omega) (by omega)]
    by_cases hbo : a' ≤ e + cfg.bonding
    · rw [if_pos hbo, if_pos (by omega)]; rfl
    · rw [if_neg hbo, if_neg (by omega)]; rfl
  · have : e = a' := Nat.le_antisymm p1 hge
    subst this
    rw [if_pos p2, if_pos (Nat.le_add_right _ _)]

/-- C125: a report against a validator that was in charge in a session is identified with the exposure recorded for it
in the era of that session, at any time as long as the era is bonded, and cannot be made afterwards. -/
theorem C125_identified (cfg : Cfg) {c0 : Chain.State} (hc : Fresh c0) (f : Session.Forcing) (order fb : List AccId) (ops : List Op) (hk : ∀ op ∈ ops, op.keeps)
    (x : State × Op × Penalty.Out) (hx : x ∈ (hist cfg c0 f order fb ops).2) (e a : Nat) (v : AccId) (he : Elected x.1 e v)
    (ha : (hist cfg c0 f order fb ops).1.c.slash.active = some a) :
    identify (hist cfg c0 f order fb ops).1 x.1.session v = if a ≤ e + cfg.bonding then some (exposure x.1.c e v) else none := by
  obtain ⟨a', st, c, k, σ, h, hh, hR⟩ := facts cfg hc f order fb ops hk
  have e1 : a' = a := Option.some.inj ((At.active' h).symm.trans ha)
  subst e1
  obtain ⟨p1, p2, p3, p4⟩ := hh.past x.1.session e ⟨x, hx, rfl, he.active⟩
  have hlow := low_eq hh
  obtain ⟨pre, post, hpre, hxp⟩ := mem_trace cfg ops _ x hx
  have he' : Elected (hist cfg c0 f order fb pre).1 e v := by
    show Elected (run cfg _ pre).1 e v
    rw [← hxp]; exact he
  obtain ⟨y, hy, hye⟩ := elected_recorded cfg hc f order fb pre (fun op ho => hk op (by rw [hpre]; exact List.mem_append_left _ ho)) he'
  rw [show (hist cfg c0 f order fb pre).1 = x.1 from hxp.symm] at hy hye
  rw [hye]
  obtain ⟨l, hl⟩ := he.election
  obtain ⟨q1, q2⟩ := hR.past x.1.session v y ⟨x, hx, e, rfl, he.active, by rw [hl]; simp, he.charge, hy⟩
  obtain ⟨_, q3⟩ := hR.kept e v y ⟨x, hx, .inr he.active, hy⟩
  generalize ht : (hist cfg c0 f order fb ops).1 = t at *
  rw [show (run cfg (genesis cfg c0 f order fb) ops).1 = t from ht] at *
  unfold identify
  by_cases hses : x.1.session = t.session
  · have hea : e = a' := by
      rcases Nat.lt_or_ge e a' with hlt | hge
      · have := p4 hlt
        have := mono_le hh.mono (show e + 1 ≤ a' by omega) (Nat.le_refl _)
        have := hh.le
        have : (view t).session = t.session := rfl
        omega
      · exact Nat.le_antisymm p1 hge
    subst hea
    rw [if_pos hses, if_pos (Nat.le_add_right _ _), ha]
    simp only [Option.map_some, exposure, q3 (Nat.le_refl _), Option.getD_some]
  · rw [if_neg hses]
    by_cases hbo : a' ≤ e + cfg.bonding
    · rw [if_pos hbo]
      apply q2
      rw [hlow]
      exact Nat.le_trans (mono_le hh.mono (show a' - cfg.bonding ≤ e by omega) p1) p2
    · rw [if_neg hbo, hR.gone x.1.session]
      · rfl
      · rw [hlow]
        have := p4 (by omega)
        exact Nat.lt_of_lt_of_le this (mono_le hh.mono (show e + 1 ≤ a' - cfg.bonding by omega) (by omega))

theorem slashes_slash {cfg : Chain.Cfg} : ∀ (l : List AccId) {c t : Chain.State}, Penalty.creditSlashes cfg c l = some t → t.slash = c.slash := by
  intro l
  induction l with
  | nil => intro c t h; cases h; rfl
  | cons a l ih =>
    intro c t h
    obtain ⟨u, hu, hl⟩ := Option.bind_eq_some_iff.1 (show (Penalty.creditSlash cfg c a).bind _ = some t from h)
    unfold Penalty.creditSlash at hu
    obtain ⟨v, hv, rfl⟩ := Option.map_eq_some_iff.1 hu
    have e1 : v.slash = c.slash := by rw [(Penalty.slash_ok hv).1]; exact Penalty.call_slash cfg c _
    have e2 : ∀ w : Chain.State, (Penalty.undelegate cfg w a).slash = w.slash := by
      intro w
      unfold Penalty.undelegate
      rw [Penalty.call_slash]
      simp only [Chain.step]; split <;> rfl
    rw [ih hl]
    split
    · exact e1
    · rw [e2, e1]

/-- What a report changes in the records of slashes. -/
theorem offence_slash {cfg : Chain.Cfg} {c t : Chain.State} {o : Penalty.Out} {i j f : Nat} {v : AccId} {y : Slashing.Exposure} {rs : List AccId}
    (h : Penalty.step cfg c (.offence i j v y f rs) = (t, o)) (ho : o ≠ .halted) :
    t.slash = (Slashing.onOffence (Penalty.here cfg y).offences { c.slash with led := Chain.led c } i j v f rs).1 := by
  have e1 : (Payout.call (Penalty.here cfg y) c (.slash (.offence i j v f rs))).slash =
      (Slashing.onOffence (Penalty.here cfg y).offences { c.slash with led := Chain.led c } i j v f rs).1 := by
    rw [Penalty.call_slash]; rfl
  simp only [Penalty.step] at h
  split at h
  · split at h
    · cases h; exact absurd rfl ho
    · rename_i u hu
      cases h
      rw [slashes_slash _ hu, e1]
  · cases h; exact e1

theorem onOffence_record {cfg : Slashing.Cfg} {s : Slashing.State} {a i j e q : Nat} {v : AccId} {y : Slashing.Exposure} (hclosed : s.led.closed = true)
    (ha : s.active = some a) (he : Slashing.eraOf s a i j = some e) (hinv : v ∉ s.invulnerables) (rs : List AccId) (e' : Nat) (v' : AccId)
    (hy : ∀ e b, cfg.exposure e b = y) :
    Slashing.eraSlashOf (Slashing.onOffence cfg s i j v q rs).1 e' v' =
      if e' = e ∧ v' = v ∧ Slashing.perbill q y.total ≠ 0 ∧ ((Slashing.eraSlashOf s e v).getD (0, 0)).1 < q then some (q, Slashing.perbill q y.own)
      else Slashing.eraSlashOf s e' v' := by
  unfold Slashing.onOffence
  simp only [hclosed, ha, he, Bool.true_eq_false, if_false, if_neg hinv]
  generalize hs : ({ s with earliest := some (s.earliest.getD a) } : Slashing.State) = s1
  have hs1 : s1.eraSlash = s.eraSlash := by rw [← hs]
  have heo : ∀ e b, Slashing.eraSlashOf s1 e b = Slashing.eraSlashOf s e b := fun e b => by unfold Slashing.eraSlashOf; rw [hs1]
  have hs2 : ({ led := s.led, active := s.active, bondedEras := s.bondedEras, rewardProp := s.rewardProp, invulnerables := s.invulnerables, spans := s.spans, records := s.records, eraSlash := s.eraSlash, unapplied := s.unapplied, earliest := some (s.earliest.getD a) } : Slashing.State) = s1 := hs
  rw [ha] at hs2
  simp only [hs2]
  rcases Slashing.compute_fraction cfg s1 v q e (a - cfg.led.bondingDuration) a with ⟨g1, g2, g3⟩ | ⟨u, g1, _, _, g2, g3, g4⟩
  · rw [g1]
    simp only
    rw [if_neg (by rintro ⟨_, _, k1, k2⟩; rw [heo, hy] at g3; rcases g3 with g3 | g3 <;> omega)]
    unfold Slashing.eraSlashOf
    rw [g2, hs1]
  · rw [g1]
    simp only
    have hq := (Slashing.enqueue_fields cfg (Slashing.computeSlash cfg s1 v q e (a - cfg.led.bondingDuration) a).1 a { u with reporters := rs }).2.2.2.2.1
    have hq2 : Slashing.eraSlashOf (Slashing.enqueue cfg (Slashing.computeSlash cfg s1 v q e (a - cfg.led.bondingDuration) a).1 a { u with reporters := rs }) e' v' =
        Slashing.eraSlashOf (Slashing.computeSlash cfg s1 v q e (a - cfg.led.bondingDuration) a).1 e' v' := by unfold Slashing.eraSlashOf; rw [hq]
    rw [hq2, g4, hy, heo]
    rw [hy] at g2
    rw [heo] at g3
    by_cases hev : e' = e ∧ v' = v
    · rw [if_pos hev, if_pos ⟨hev.1, hev.2, g2, g3⟩]
    · rw [if_neg hev, if_neg (by rintro ⟨k1, k2, _⟩; exact hev ⟨k1, k2⟩)]

/-- C125: the slash a report leads to. A report against a validator that was in charge in a session raises the slash on
record for the era of that session to the fraction reported, of the stake recorded for that era, however long ago it was;
it changes nothing if this is not more than what is on record. After the bonding duration it is refused. -/
theorem C125_charged (cfg : Cfg) {c0 : Chain.State} (hc : Fresh c0) (f : Session.Forcing) (order fb : List AccId) (ops : List Op) (hk : ∀ op ∈ ops, op.keeps)
    (x : State × Op × Penalty.Out) (hx : x ∈ (hist cfg c0 f order fb ops).2) (e a : Nat) (v : AccId) (he : Elected x.1 e v)
    (ha : (hist cfg c0 f order fb ops).1.c.slash.active = some a) (q : Nat) (rs : List AccId)
    (hclosed : (hist cfg c0 f order fb ops).1.c.w.ledger.closed = true) (hinv : v ∉ (hist cfg c0 f order fb ops).1.c.slash.invulnerables)
    (e' : Nat) (v' : AccId) :
    let t := (hist cfg c0 f order fb ops).1
    let y := exposure x.1.c e v
    let r := step cfg t (.report x.1.session v q rs)
    (e + cfg.bonding < a → r = (t, .refused)) ∧
    (a ≤ e + cfg.bonding → r.2 ≠ .halted → Slashing.eraSlashOf r.1.c.slash e' v' =
      if e' = e ∧ v' = v ∧ Slashing.perbill q y.total ≠ 0 ∧ ((Slashing.eraSlashOf t.c.slash e v).getD (0, 0)).1 < q then some (q, Slashing.perbill q y.own)
      else Slashing.eraSlashOf t.c.slash e' v') := by
  intro t y r
  have h1 := C125_era cfg hc f order fb ops hk x hx e a he.active ha
  have h2 := C125_identified cfg hc f order fb ops hk x hx e a v he ha
  simp only at h1
  refine ⟨fun hlt => ?_, fun hle hr => ?_⟩
  · rw [if_neg (by omega)] at h2
    show step cfg t _ = _
    unfold step
    simp only [h2, show identify t x.1.session v = none from h2]
  · rw [if_pos hle] at h1 h2
    have hstep : r = ({ t with c := (Penalty.step cfg.chain t.c (.offence (activeStart t) x.1.session v y q rs)).1 },
        (Penalty.step cfg.chain t.c (.offence (activeStart t) x.1.session v y q rs)).2) := by
      show step cfg t _ = _
      unfold step
      simp only [show identify t x.1.session v = some y from h2]
    rw [hstep] at hr ⊢
    rw [show (State.c _) = _ from rfl, offence_slash (Prod.eta _).symm hr]
    exact onOffence_record (s := { t.c.slash with led := Chain.led t.c }) hclosed ha h1 hinv rs e' v' (fun _ _ => rfl)

/-- C125: what is recorded for the planned era or the active one does not change before the era is over. -/
theorem C125_fixed (cfg : Cfg) {c0 : Chain.State} (hc : Fresh c0) (f : Session.Forcing) (order fb : List AccId) (ops : List Op) (hk : ∀ op ∈ ops, op.keeps)
    (x : State × Op × Penalty.Out) (hx : x ∈ (hist cfg c0 f order fb ops).2) (e a : Nat) (v : AccId) (y : Slashing.Exposure)
    (he : x.1.c.w.ledger.era = some e ∨ x.1.c.slash.active = some e) (hy : x.1.c.stk.dele.stakers.get (e, v) = some y)
    (ha : (hist cfg c0 f order fb ops).1.c.slash.active = some a) (hle : a ≤ e) :
    (hist cfg c0 f order fb ops).1.c.stk.dele.stakers.get (e, v) = some y := by
  obtain ⟨a', st, c, k, σ, h, hh, hR⟩ := facts cfg hc f order fb ops hk
  have e1 : a' = a := Option.some.inj ((At.active' h).symm.trans ha)
  subst e1
  exact (hR.kept e v y ⟨x, hx, he, hy⟩).2 hle

/-- C125: what is recorded for a validator elected by a new session is its stake then: the active part of its ledger, all
of it its own. -/
theorem C125_recorded (cfg : Cfg) {c0 : Chain.State} (hc : Fresh c0) (f : Session.Forcing) (order fb : List AccId) (ops : List Op) (hk : ∀ op ∈ ops, op.keeps)
    (o : List AccId) (keys : AccId → Bool) (t : State) (ht : rotate cfg (hist cfg c0 f order fb ops).1 o keys = some t) (e : Nat)
    (hne : (hist cfg c0 f order fb ops).1.c.w.ledger.era ≠ some e) (he : t.c.w.ledger.era = some e) (l : List AccId)
    (hl : t.c.stk.dele.erasValidators.get e = some l) (v : AccId) (hv : v ∈ t.queued) :
    exposure t.c e v = ⟨stake t.c v, stake t.c v, (exposure t.c e v).others⟩ := by
  obtain ⟨a, st, c, k, σ, h, hh, hR⟩ := facts cfg hc f order fb ops hk
  generalize hs : (hist cfg c0 f order fb ops).1 = s at *
  rw [show (run cfg (genesis cfg c0 f order fb) ops).1 = s from hs] at *
  obtain ⟨m, u, st', hm, hu, hmid, hs', hlike⟩ := rotate_like h ht
  have hS := started h hh hR hm hu hmid
  have hsc : t.c = (newSession cfg m (s.session + 2) o).1.c := by rw [hs']
  have hera : s.c.w.ledger.era = some c := h.era
  have e1 : m.c.w.ledger.era = s.c.w.ledger.era := (Session.ctl_eq hS.era).1
  have e3 : m.c.stk.dele.erasValidators = s.c.stk.dele.erasValidators := (Session.ctl_eq hS.era).2.2.1
  cases hp : Session.plans cfg.ses (view m) (s.session + 2) with
  | false =>
    rw [hsc, newSession_stays hp] at he
    exact absurd (e1.symm.trans he) hne
  | true =>
    obtain ⟨w1, w2, w3⟩ := plan_exposed o keys hp
    have hn : Delegation.nextEra (view m).del = c + 1 := by
      have : (view m).del.led.era = some c := e1.trans hera
      simp only [Delegation.nextEra, this]
    rw [hn] at w1 w2 w3
    have hec : e = c + 1 := by
      have : (newSession cfg m (s.session + 2) o).1.c.w.ledger.era = some (c + 1) := w1.era
      rw [← hsc, he] at this
      exact Option.some.inj this
    subst hec
    cases hl2 : (newSession cfg m (s.session + 2) o).2 with
    | none =>
      have := w1.failed hl2 (by
        show m.c.stk.dele.erasValidators.get _ = none
        rw [e3]; exact hR.later _ (Nat.lt_succ_self _))
      rw [show (view (newSession cfg m (s.session + 2) o).1).del.erasValidators = (newSession cfg m (s.session + 2) o).1.c.stk.dele.erasValidators from rfl, ← hsc, hl] at this
      cases this
    | some l' =>
      have hq : t.queued = l'.filter keys := by rw [hs']; simp only [hl2, Option.getD_some]
      rw [hq] at hv
      obtain ⟨x, hx, _, ho, htot⟩ := w3 l' hl2 v hv
      rw [← hsc] at hx htot
      unfold exposure
      rw [hx, Option.getD_some, ← htot]
      cases x
      simp only at ho ⊢
      rw [ho]

/-! ### Examples -/

/-- Stakes are bonded for two eras. -/
def exChain : Chain.Cfg := { Penalty.exCfg with world := { Penalty.exCfg.world with ledger := { Penalty.exCfg.world.ledger with bondingDuration := 2 } } }

/-- An era has two sessions. -/
def exCfg : Cfg := ⟨exChain, 2⟩

/-- Accounts 1 and 2 want to validate; there is one seat; account 7 delegates to validator 1. -/
def exSetup : List Penalty.Op :=
  (Payout.exOps.take 4).map .pay ++ [.pay (.chain (.dele (.configure 100 1 1 [] 84))), .pay (.chain (.dele (.delegate 7 [1] false)))]

def exFresh : Chain.State := (Penalty.run exChain Payout.exStart exSetup).1

theorem exFresh_fresh : Fresh exFresh :=
  ⟨⟨by decide +kernel, fun _ => rfl, fun _ => rfl, by decide +kernel⟩, by decide +kernel, by decide +kernel, by decide +kernel⟩

def exRotate : Op := .rotate [1, 2] fun _ => true

/-- Validator 1, elected for era 0, bonds 100 more; validator 2 is elected for era 1 and validator 1 for era 2. -/
def exOps : List Op := [.other (.pay (.chain (.bond (.bondExtra 1 100) 0))), exRotate, exRotate, exRotate, exRotate]

theorem exOps_keeps (n : Nat) : ∀ op ∈ exOps ++ List.replicate n exRotate, op.keeps := by
  intro op h
  simp only [exOps, exRotate, List.mem_append, List.mem_cons, List.mem_replicate, List.not_mem_nil, or_false] at h
  rcases h with (h | h | h | h | h) | ⟨_, h⟩ <;> (rw [h]; trivial)

def exHist (n : Nat) : State × List (State × Op × Penalty.Out) := hist exCfg exFresh .notForcing [1, 2] [] (exOps ++ List.replicate n exRotate)

/-- The first session, with validator 1 in charge. -/
def exPast : State × Op × Penalty.Out := (genesis exCfg exFresh .notForcing [1, 2] [], .other (.pay (.chain (.bond (.bondExtra 1 100) 0))), (step exCfg (genesis exCfg exFresh .notForcing [1, 2] []) (.other (.pay (.chain (.bond (.bondExtra 1 100) 0))))).2)

theorem exPast_mem (n : Nat) : exPast ∈ (exHist n).2 := List.mem_cons_self ..

theorem exPast_elected : Elected exPast.1 0 1 := ⟨by decide +kernel, ⟨[1], by decide +kernel⟩, by decide +kernel⟩

/-- The hypotheses of C125 are met: two eras later the offence of validator 1 in session 0 is charged to the 500 it had
then, an offence in session 4 to 600; one era later session 0 is out of reach. -/
example :
    (exHist 0).1.c.slash.active = some 2 ∧ (exHist 0).1.session = 4 ∧ (exHist 0).1.c.w.ledger.closed = true ∧ 1 ∉ (exHist 0).1.c.slash.invulnerables ∧
    Slashing.eraOf (exHist 0).1.c.slash 2 (activeStart (exHist 0).1) 0 = some 0 ∧
    (identify (exHist 0).1 0 1).map (fun x => (x.own, x.total, x.others)) = some (500, 500, [7]) ∧
    (identify (exHist 0).1 4 1).map (fun x => (x.own, x.total, x.others)) = some (600, 600, [7]) ∧
    Slashing.eraSlashOf (step exCfg (exHist 0).1 (.report 0 1 500000000 [])).1.c.slash 0 1 = some (500000000, 250) ∧
    Slashing.eraSlashOf (step exCfg (exHist 0).1 (.report 4 1 500000000 [])).1.c.slash 2 1 = some (500000000, 300) ∧
    (exHist 2).1.c.slash.active = some 3 ∧ Slashing.eraOf (exHist 2).1.c.slash 3 (activeStart (exHist 2).1) 0 = none ∧
    (identify (exHist 2).1 0 1).isNone = true ∧ (step exCfg (exHist 2).1 (.report 0 1 500000000 [])).2.stops = false := by
  decide +kernel

example : identify (exHist 0).1 exPast.1.session 1 = some (exposure exPast.1.c 0 1) :=
  C125_identified exCfg exFresh_fresh .notForcing [1, 2] [] _ (exOps_keeps 0) exPast (exPast_mem 0) 0 2 1 exPast_elected (by decide +kernel)

/-- The hypotheses of `C125_recorded`: the rotation after the first plans era 1 for validator 2 with its 500. -/
example :
    let s := (hist exCfg exFresh .notForcing [1, 2] [] (exOps.take 1)).1
    s.c.w.ledger.era = some 0 ∧
    (rotate exCfg s [1, 2] fun _ => true).map (fun t => (t.c.w.ledger.era, t.queued, t.c.stk.dele.erasValidators.get 1, (exposure t.c 1 2).own, stake t.c 2)) =
      some (some 1, [2], some [2], 500, 500) := by
  decide +kernel

/-- The hypotheses of `C125_fixed`: era 2 is planned in session 3 and goes on in session 5. -/
example :
    let s := (hist exCfg exFresh .notForcing [1, 2] [] (exOps.take 4)).1
    s.c.w.ledger.era = some 2 ∧ s.c.slash.active = some 1 ∧ (s.c.stk.dele.stakers.get (2, 1)).map (·.own) = some 600 ∧
    (exHist 1).1.c.slash.active = some 2 ∧ ((exHist 1).1.c.stk.dele.stakers.get (2, 1)).map (·.own) = some 600 := by
  decide +kernel

/-! ### C127: whoever validates can be slashed -/

theorem run_append (cfg : Cfg) (ops more : List Op) : ∀ s : State, run cfg s (ops ++ more) = ((run cfg (run cfg s ops).1 more).1, (run cfg s ops).2 ++ (run cfg (run cfg s ops).1 more).2) := by
  induction ops with
  | nil => intro s; rfl
  | cons o ops ih => intro s; simp [run, ih]

/-- C127 for validators that were elected: a report leads to the same charge whenever it is made while the era is bonded,
be it in the session itself or later, and the charge is on the stake with which the validator was elected. What is missing
are the validators which stay in charge because an election failed: see `C127_unaccountable`. -/
theorem C127_same_partial (cfg : Cfg) {c0 : Chain.State} (hc : Fresh c0) (f : Session.Forcing) (order fb : List AccId) (ops more : List Op)
    (hk : ∀ op ∈ ops ++ more, op.keeps) (x : State × Op × Penalty.Out) (hx : x ∈ (hist cfg c0 f order fb ops).2) (e a a' : Nat) (v : AccId) (he : Elected x.1 e v)
    (ha : (hist cfg c0 f order fb ops).1.c.slash.active = some a) (ha' : (hist cfg c0 f order fb (ops ++ more)).1.c.slash.active = some a')
    (hb : a' ≤ e + cfg.bonding) :
    a ≤ a' ∧ identify (hist cfg c0 f order fb ops).1 x.1.session v = some (exposure x.1.c e v) ∧
    identify (hist cfg c0 f order fb (ops ++ more)).1 x.1.session v = some (exposure x.1.c e v) := by
  have hk1 : ∀ op ∈ ops, op.keeps := fun op ho => hk op (List.mem_append_left _ ho)
  have hsub : ∀ y ∈ (hist cfg c0 f order fb ops).2, y ∈ (hist cfg c0 f order fb (ops ++ more)).2 := by
    intro y hy
    unfold hist
    rw [run_append]
    exact List.mem_append_left _ hy
  have hle : a ≤ a' := by
    obtain ⟨b, st, c, k, σ, h, hh, hR⟩ := facts cfg hc f order fb (ops ++ more) hk
    have e1 : b = a' := Option.some.inj ((At.active' h).symm.trans ha')
    subst e1
    cases more with
    | nil =>
      rw [List.append_nil] at ha'
      exact Nat.le_of_eq (Option.some.inj (ha.symm.trans ha'))
    | cons o more =>
      refine (hh.past (hist cfg c0 f order fb ops).1.session a ⟨((hist cfg c0 f order fb ops).1, o, (step cfg (hist cfg c0 f order fb ops).1 o).2), ?_, rfl, ha⟩).1
      rw [run_append]
      exact List.mem_append_right _ (List.mem_cons_self ..)
  have h1 := C125_identified cfg hc f order fb ops hk1 x hx e a v he ha
  have h2 := C125_identified cfg hc f order fb (ops ++ more) hk x (hsub x hx) e a' v he ha'
  rw [if_pos (Nat.le_trans hle hb)] at h1
  rw [if_pos hb] at h2
  exact ⟨hle, h1, h2⟩

/-- The hypotheses are met in the second session and four sessions later. -/
example : let ops := exOps.take 2
    exPast ∈ (hist exCfg exFresh .notForcing [1, 2] [] ops).2 ∧ (hist exCfg exFresh .notForcing [1, 2] [] ops).1.c.slash.active = some 0 ∧
    (hist exCfg exFresh .notForcing [1, 2] [] (ops ++ exOps.drop 2)).1.c.slash.active = some 2 ∧ 2 ≤ 0 + exCfg.bonding := by
  refine ⟨List.mem_cons_self .., ?_⟩
  decide +kernel

/-- C127: the full statement is false. While the validators stay in charge because an election failed, a report in the
session itself charges nothing; the same report is charged one session later. -/
theorem C127_unaccountable :
    let ops : List Op := .configure 100 1 5 [] :: List.replicate 4 exRotate
    let s := (hist exCfg exFresh .notForcing [1, 2] [] ops).1
    let t := (hist exCfg exFresh .notForcing [1, 2] [] (ops ++ [exRotate])).1
    s.session = 4 ∧ 1 ∈ s.validators ∧ s.c.slash.active = some 2 ∧ s.c.w.ledger.closed = true ∧ 1 ∉ s.c.slash.invulnerables ∧ stake s.c 1 = 500 ∧
    Slashing.eraSlashOf (step exCfg s (.report 4 1 500000000 [])).1.c.slash 2 1 = none ∧
    Slashing.eraSlashOf (step exCfg t (.report 4 1 500000000 [])).1.c.slash 2 1 = some (500000000, 250) := by
  decide +kernel

end Verif.Epoch
