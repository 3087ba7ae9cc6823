import Verif.Session
import Verif.RewardsProofs
import Mathlib.Data.List.Chain

/-
Lemmas on sessions and eras.
-/

namespace Verif.Session

open Verif

/-! ### What other calls leave alone -/

/-- The data of eras. -/
def ctl (s : Delegation.State) : Option Nat × FMap Nat Delegation.Points × FMap Nat (List AccId) × Nat × FMap (Nat × AccId) Slashing.Exposure :=
  (s.led.era, s.points, s.erasValidators, s.historyDepth, s.stakers)

section
open Delegation

theorem payout_era (cfg : Ledger.Cfg) (l : Ledger.State) (v : AccId) (x : Balance) : (Ledger.payout cfg l v x).era = l.era := by
  have h := Ledger.step_era_eq cfg l (.payout v x)
  rcases h with h | h
  · cases h
  · exact h

theorem ctl_payEachValidator (cfg : Delegation.Cfg) (p : Points) (v : Balance) (vs : List AccId) : ∀ (s : Delegation.State) (t : Balance),
    ctl (payEachValidator cfg p v vs s t).1 = ctl s := by
  induction vs with
  | nil => intro s t; rfl
  | cons x vs ih =>
    intro s t
    unfold payEachValidator
    split
    · exact ih s t
    · rw [ih]; simp only [ctl, payout_era]

theorem ctl_payValidators (cfg : Delegation.Cfg) (s : Delegation.State) (e : Nat) : ctl (payValidators cfg s e) = ctl s := by
  unfold payValidators
  split
  · rfl
  · exact ctl_payEachValidator cfg _ _ _ s 0

theorem ctl_payDelegator (s : Delegation.State) (d : Delegator) (era : Nat) (pool : Balance) (reward : AccId → Nat → Nat → Option Balance) :
    ctl (payDelegator s d era pool reward).1 = ctl s := by
  have hs : ∀ t : Delegation.State, ctl (settle t d era) = ctl t := by
    intro t; unfold settle; split <;> rfl
  unfold payDelegator
  simp only
  split
  · rfl
  · rw [hs]
    split <;> rfl

theorem ctl_payReferer (s : Delegation.State) (d : AccId) (v p : Balance) : ctl (payReferer s d v p).1 = ctl s := by
  unfold payReferer
  split
  · rfl
  · split <;> rfl

theorem ctl_payLoop (cfg : Delegation.Cfg) (era : Nat) (reward : AccId → Nat → Nat → Option Balance) : ∀ (n : Nat) (l : Loop),
    ctl (payLoop cfg era reward n l).s = ctl l.s := by
  intro n
  induction n with
  | zero => intro l; rfl
  | succ n ih =>
    intro l
    unfold payLoop
    split
    · rfl
    · split
      · rfl
      · simp only
        split
        · exact ctl_payDelegator _ _ _ _ _
        · split
          · rw [ctl_payReferer, ctl_payDelegator]
          · rw [ih, ctl_payReferer, ctl_payDelegator]

theorem ctl_onBlock (cfg : Delegation.Cfg) (s : Delegation.State) (reward : AccId → Nat → Nat → Option Balance) :
    ctl (onBlock cfg s reward).1 = ctl s := by
  unfold onBlock
  simp only
  split
  · rfl
  split
  · rfl
  unfold payDelegators
  split
  · rfl
  · exact ctl_payLoop cfg _ reward _ _

theorem ctl_undelegateOf (s : Delegation.State) (d : AccId) : ctl (undelegateOf s d) = ctl s := by
  unfold undelegateOf
  split
  · rfl
  · split
    · rfl
    · simp only
      split <;> rfl

theorem ctl_undelegates (ds : List AccId) : ∀ s : Delegation.State, ctl (ds.foldl undelegateOf s) = ctl s := by
  induction ds with
  | nil => intro s; rfl
  | cons d ds ih => intro s; rw [List.foldl_cons, ih, ctl_undelegateOf]

theorem ctl_doDelegate {cfg : Delegation.Cfg} {s t : Delegation.State} {d : AccId} {vs : List AccId}
    (h : doDelegate cfg s d vs true = .ok t) : ctl t = ctl s := by
  unfold doDelegate at h
  simp only [Bool.true_eq_false, if_false] at h
  cases hd : s.delegators.get d with
  | none => rw [hd] at h; cases h; rfl
  | some x => rw [hd] at h; cases h; rfl

/-- Calls that do not belong to sessions leave the data of eras alone. -/
theorem ctl_other (cfg : Delegation.Cfg) (s : Delegation.State) (op : Delegation.Op) (ho : isOther op = true) :
    ctl (Delegation.step cfg s op).1 = ctl s := by
  unfold Delegation.step
  split
  case h_2 => rfl
  case h_1 r hb =>
    cases op with
    | delegate d vs p =>
      obtain ⟨t, hd, rfl⟩ := map_ok hb
      exact ctl_doDelegate (doDelegate_pass (delegate_do hd))
    | delegateAny d o p =>
      obtain ⟨t, hd, rfl⟩ := map_ok hb
      unfold delegateAny at hd
      split at hd
      · cases hd
      · exact ctl_doDelegate (doDelegate_pass hd)
    | undelegate d =>
      obtain ⟨t, hd, rfl⟩ := map_ok hb
      unfold undelegate at hd
      split at hd
      · cases hd
      · cases hd; exact ctl_undelegateOf s d
    | forceUndelegate r ds =>
      simp only [Delegation.body] at hb
      split at hb
      · cases hb
      · cases hb; exact ctl_undelegates ds s
    | forceUnstaking k d =>
      simp only [Delegation.body] at hb
      split at hb
      · cases hb
      · cases hb; exact ctl_undelegateOf s d
    | setReferer k a r =>
      obtain ⟨t, hd, rfl⟩ := map_ok hb
      unfold setReferer at hd
      split at hd; · cases hd
      split at hd; · cases hd
      cases hd; rfl
    | unsetReferer k a =>
      obtain ⟨t, hd, rfl⟩ := map_ok hb
      unfold unsetReferer at hd
      split at hd; · cases hd
      cases hd; rfl
    | blackList k a e =>
      simp only [Delegation.body] at hb
      split at hb
      · cases hb
      · cases hb; rfl
    | npowMint k t v =>
      obtain ⟨t, hd, rfl⟩ := map_ok hb
      unfold npowMint at hd
      split at hd; · cases hd
      split at hd; · cases hd
      cases hd; rfl
    | compensate k l d r p =>
      obtain ⟨t, hd, rfl⟩ := map_ok hb
      unfold compensate at hd
      split at hd; · cases hd
      split at hd; · cases hd
      cases hd; rfl
    | increasePool r v =>
      obtain ⟨t, hd, rfl⟩ := map_ok hb
      unfold increasePool at hd
      split at hd; · cases hd
      cases hd; rfl
    | configure e c m w d => cases ho
    | block r => cases hb; exact ctl_onBlock cfg s r
    | endEra e => cases ho
    | newEra o => cases ho
    | addPoints e v n => cases ho
    | ledger op =>
      cases hb
      have hn : op ≠ .newEra := by rintro rfl; cases ho
      simp only [ctl, (Ledger.step_era_eq cfg.led s.led op).resolve_left hn]

end

/-! ### Planned and active eras -/

/-- The data of a new era. -/
theorem del_newEra (d : Delegation.State) (order : List AccId) :
    let e := Delegation.nextEra d
    let r := Delegation.newEra d order
    r.1.led.era = some e ∧ r.1.historyDepth = d.historyDepth ∧
    (∀ x, r.1.points.get x = if d.historyDepth + 1 ≤ e ∧ x = e - (d.historyDepth + 1) then none else d.points.get x) ∧
    (∀ x, x ≠ e → r.1.erasValidators.get x = if d.historyDepth + 1 ≤ e ∧ x = e - (d.historyDepth + 1) then none else d.erasValidators.get x) ∧
    ∃ l, r.2 = .elected e l ∧ (∀ v, l = some v → r.1.erasValidators.get e = some v) ∧
      (l = none → d.erasValidators.get e = none → r.1.erasValidators.get e = none) := by
  intro e r
  have h1 : (Delegation.enterEra d e).led.era = some e ∧ (Delegation.enterEra d e).historyDepth = d.historyDepth ∧
      (∀ x, (Delegation.enterEra d e).points.get x = if d.historyDepth + 1 ≤ e ∧ x = e - (d.historyDepth + 1) then none else d.points.get x) ∧
      (∀ x, (Delegation.enterEra d e).erasValidators.get x = if d.historyDepth + 1 ≤ e ∧ x = e - (d.historyDepth + 1) then none else d.erasValidators.get x) := by
    unfold Delegation.enterEra
    simp only
    split
    · rename_i hd
      refine ⟨rfl, rfl, fun x => ?_, fun x => ?_⟩
      · simp only [Delegation.clearEra, FMap.get_erase, hd, true_and]
      · simp only [Delegation.clearEra, FMap.get_erase, hd, true_and]
    · rename_i hd
      refine ⟨rfl, rfl, fun x => ?_, fun x => ?_⟩
      · simp only [hd, false_and, if_false]
      · simp only [hd, false_and, if_false]
  have h2 : (Delegation.elect (Delegation.enterEra d e) e order).1.led.era = (Delegation.enterEra d e).led.era ∧
      (Delegation.elect (Delegation.enterEra d e) e order).1.points = (Delegation.enterEra d e).points ∧
      (Delegation.elect (Delegation.enterEra d e) e order).1.erasValidators = (Delegation.enterEra d e).erasValidators ∧
      (Delegation.elect (Delegation.enterEra d e) e order).1.historyDepth = (Delegation.enterEra d e).historyDepth := by
    unfold Delegation.elect
    simp only
    split <;> exact ⟨rfl, rfl, rfl, rfl⟩
  obtain ⟨a1, a2, a3, a4⟩ := h1
  obtain ⟨b1, b2, b3, b4⟩ := h2
  have hr : r = (Delegation.storeElected (Delegation.elect (Delegation.enterEra d e) e order).1 e
      (Delegation.elect (Delegation.enterEra d e) e order).2, .elected e (Delegation.elect (Delegation.enterEra d e) e order).2) := rfl
  rw [hr]
  cases hl : (Delegation.elect (Delegation.enterEra d e) e order).2 with
  | none =>
    simp only [Delegation.storeElected]
    refine ⟨b1.trans a1, b4.trans a2, fun x => by rw [b2]; exact a3 x, fun x _ => by rw [b3]; exact a4 x, none, rfl, by simp, ?_⟩
    intro _ hn
    rw [b3, a4, hn]
    split <;> rfl
  | some l =>
    simp only [Delegation.storeElected]
    refine ⟨b1.trans a1, b4.trans a2, fun x => by rw [b2]; exact a3 x, fun x hx => ?_, some l, rfl, ?_, by simp⟩
    · rw [FMap.get_insert_ne _ _ hx, b3]; exact a4 x
    · intro v hv; cases hv; exact FMap.get_insert_self _ _ _

/-- Eras in step with sessions: the planned era is the active one or the next, and in the latter case it begins with
the next session. -/
structure At (s : State) (a : Nat) (st : Bool) (c k : Nat) : Prop where
  active : s.active = some (a, st)
  era : s.del.led.era = some c
  le : a ≤ c
  le' : c ≤ a + 1
  start : s.eraStart.get c = some k
  same : c = a → k ≤ s.session
  ahead : c = a + 1 → k = s.session + 1
  none : ∀ e, c < e → s.eraStart.get e = none

theorem newSession_no {cfg : Cfg} {s : State} {idx : Nat} {order : List AccId} (h : plans cfg s idx = false) :
    newSession cfg s idx order = (s, none) := by
  simp [newSession, h]

/-- What a planned era changes. -/
structure Planned (s t : State) (l : Option (List AccId)) (e idx : Nat) : Prop where
  session : t.session = s.session
  active : t.active = s.active
  bonded : t.bonded = s.bonded
  validators : t.validators = s.validators
  force : t.force = forceAfter s
  era : t.del.led.era = some e
  depth : t.del.historyDepth = s.del.historyDepth
  start : t.eraStart.get e = some idx
  starts : ∀ x, x ≠ e → t.eraStart.get x = if s.del.historyDepth + 1 ≤ e ∧ x = e - (s.del.historyDepth + 1) then none else s.eraStart.get x
  points : ∀ x, t.del.points.get x = if s.del.historyDepth + 1 ≤ e ∧ x = e - (s.del.historyDepth + 1) then none else s.del.points.get x
  vals : ∀ x, x ≠ e → t.del.erasValidators.get x = if s.del.historyDepth + 1 ≤ e ∧ x = e - (s.del.historyDepth + 1) then none else s.del.erasValidators.get x
  elected : ∀ v, l = some v → t.del.erasValidators.get e = some v
  failed : l = none → s.del.erasValidators.get e = none → t.del.erasValidators.get e = none

theorem newSession_yes {cfg : Cfg} {s : State} {idx : Nat} {order : List AccId} (h : plans cfg s idx = true) :
    Planned s (newSession cfg s idx order).1 (newSession cfg s idx order).2 (Delegation.nextEra s.del) idx := by
  have hd := del_newEra s.del order
  obtain ⟨h1, h2, h3, h4, l, h5, h6, h7⟩ := hd
  have e : newSession cfg s idx order = newEra { s with force := forceAfter s } idx order := by simp [newSession, h]
  rw [e]
  have hl : (newEra { s with force := forceAfter s } idx order).2 = l := by
    simp only [newEra, h5]
  refine ⟨rfl, rfl, rfl, rfl, rfl, h1, h2, ?_, fun x hx => ?_, h3, h4, ?_, ?_⟩
  · simp only [newEra]
    split
    · rw [FMap.get_erase_ne]
      · exact FMap.get_insert_self _ _ _
      · omega
    · exact FMap.get_insert_self _ _ _
  · simp only [newEra]
    split
    · rename_i hd
      simp only [hd, true_and, FMap.get_erase]
      split
      · rfl
      · exact FMap.get_insert_ne _ _ hx
    · rename_i hd
      simp only [hd, false_and, if_false]
      exact FMap.get_insert_ne _ _ hx
  · rw [hl]; exact h6
  · rw [hl]; exact h7

theorem endSession_spec (cfg : Cfg) (s : State) (i : Nat) :
    ∃ d, endSession cfg s i = { s with del := d } ∧ ctl d = ctl s.del := by
  unfold endSession
  split
  · exact ⟨_, rfl, ctl_payValidators _ _ _⟩
  · exact ⟨s.del, rfl, rfl⟩

/-- The state of a rotation before the next session is planned. -/
def mid (cfg : Cfg) (s : State) : State :=
  startSession cfg { endSession cfg s s.session with session := s.session + 1, validators := s.queued } (s.session + 1)

theorem rotate_eq (cfg : Cfg) (s : State) (order : List AccId) (keys : AccId → Bool) :
    rotate cfg s order keys = { (newSession cfg (mid cfg s) (s.session + 2) order).1 with
      queued := ((newSession cfg (mid cfg s) (s.session + 2) order).2.getD s.queued).filter keys } := rfl

theorem mid_spec (cfg : Cfg) {s : State} {a : Nat} {st : Bool} {c k : Nat} (h : At s a st c k) :
    (mid cfg s).session = s.session + 1 ∧ (mid cfg s).validators = s.queued ∧ (mid cfg s).eraStart = s.eraStart ∧
    (mid cfg s).force = s.force ∧ ctl (mid cfg s).del = ctl s.del ∧
    (c = a → (mid cfg s).active = some (a, st) ∧ (mid cfg s).bonded = s.bonded) ∧
    (c = a + 1 → (mid cfg s).active = some (a + 1, false) ∧
      (mid cfg s).bonded = (s.bonded ++ [(a + 1, s.session + 1)]).drop (pruneCount cfg (a + 1) (s.bonded ++ [(a + 1, s.session + 1)]))) := by
  obtain ⟨d, hd, hc⟩ := endSession_spec cfg s s.session
  have hm : mid cfg s = startSession cfg { s with del := d, session := s.session + 1, validators := s.queued } (s.session + 1) := by
    unfold mid; rw [hd]
  have hn : nextActive { s with del := d, session := s.session + 1, validators := s.queued } = a + 1 := by
    simp only [nextActive, h.active]
  rw [hm]
  unfold startSession
  rw [hn]
  simp only
  rcases Nat.lt_or_ge a c with hlt | hge
  · have hca : c = a + 1 := Nat.le_antisymm h.le' hlt
    have hs := h.start
    rw [hca, h.ahead hca] at hs
    rw [hs]
    simp only [Nat.le_refl, if_true, startEra, hn]
    refine ⟨trivial, trivial, trivial, trivial, hc, fun he => ?_, fun _ => ⟨trivial, trivial⟩⟩
    omega
  · have hca : c = a := Nat.le_antisymm hge h.le
    rw [h.none (a + 1) (by omega)]
    refine ⟨rfl, rfl, rfl, rfl, hc, fun _ => ⟨h.active, rfl⟩, fun he => ?_⟩
    omega

/-- The started flag after a rotation. -/
theorem mid_active (cfg : Cfg) {s : State} {a : Nat} {st : Bool} {c k : Nat} (h : At s a st c k) :
    (mid cfg s).active = some (c, if c = a then st else false) := by
  obtain ⟨_, _, _, _, _, h1, h2⟩ := mid_spec cfg h
  by_cases e : c = a
  · rw [(h1 e).1, if_pos e, e]
  · have e' : c = a + 1 := by have := h.le; have := h.le'; omega
    rw [(h2 e').1, if_neg e, e']

theorem ctl_eq {d d' : Delegation.State} (h : ctl d = ctl d') : d.led.era = d'.led.era ∧ d.points = d'.points ∧
    d.erasValidators = d'.erasValidators ∧ d.historyDepth = d'.historyDepth := by
  simp only [ctl, Prod.mk.injEq] at h
  exact ⟨h.1, h.2.1, h.2.2.1, h.2.2.2.1⟩

theorem ctl_stakers {d d' : Delegation.State} (h : ctl d = ctl d') : d.stakers = d'.stakers := by
  simp only [ctl, Prod.mk.injEq] at h
  exact h.2.2.2.2

theorem plans_mid (cfg : Cfg) {s : State} {a : Nat} {st : Bool} {c k : Nat} (h : At s a st c k) (idx : Nat) :
    plans cfg (mid cfg s) idx = match s.force with
      | .forceNew => true
      | .forceAlways => true
      | .notForcing => decide (cfg.sessionsPerEra ≤ idx - k)
      | .forceNone => false := by
  obtain ⟨_, _, h3, h4, h5, _⟩ := mid_spec cfg h
  unfold plans
  rw [(ctl_eq h5).1, h.era, h4, h3]
  cases s.force <;> simp only [h.start, Option.getD_some]

/-- A rotation makes the planned era the active one. -/
theorem at_rotate (cfg : Cfg) {s : State} {a : Nat} {st : Bool} {c k : Nat} (h : At s a st c k) (order : List AccId)
    (keys : AccId → Bool) :
    (plans cfg (mid cfg s) (s.session + 2) = false → At (rotate cfg s order keys) c (if c = a then st else false) c k) ∧
    (plans cfg (mid cfg s) (s.session + 2) = true → At (rotate cfg s order keys) c (if c = a then st else false) (c + 1) (s.session + 2)) ∧
    (rotate cfg s order keys).session = s.session + 1 ∧ (rotate cfg s order keys).validators = s.queued := by
  obtain ⟨h1, h2, h3, h4, h5, _⟩ := mid_spec cfg h
  have hk : k ≤ s.session + 1 := by
    rcases Nat.lt_or_ge a c with hlt | hge
    · exact Nat.le_of_eq (h.ahead (Nat.le_antisymm h.le' hlt))
    · have := h.same (Nat.le_antisymm hge h.le); omega
  have hera : (mid cfg s).del.led.era = some c := (ctl_eq h5).1.trans h.era
  rw [rotate_eq]
  cases hp : plans cfg (mid cfg s) (s.session + 2) with
  | false =>
    rw [newSession_no hp]
    refine ⟨fun _ => ?_, by simp, h1, h2⟩
    exact ⟨mid_active cfg h, hera, Nat.le_refl _, Nat.le_succ _, (by simp only [h3]; exact h.start),
      fun _ => by simp only [h1]; exact hk, fun he => by omega, fun e he => by simp only [h3]; exact h.none e he⟩
  | true =>
    have hy := newSession_yes (order := order) hp
    have hn : Delegation.nextEra (mid cfg s).del = c + 1 := by simp only [Delegation.nextEra, hera]
    rw [hn] at hy
    refine ⟨by simp, fun _ => ?_, hy.session.trans h1, hy.validators.trans h2⟩
    refine ⟨hy.active.trans (mid_active cfg h), hy.era, Nat.le_succ _, Nat.le_refl _, hy.start, fun he => by omega, fun _ => ?_, fun e he => ?_⟩
    · show _ = (newSession cfg (mid cfg s) (s.session + 2) order).1.session + 1
      rw [hy.session, h1]
    · show (newSession cfg (mid cfg s) (s.session + 2) order).1.eraStart.get e = _
      rw [hy.starts e (by omega)]
      split
      · rfl
      · rw [h3]; exact h.none e (by omega)

theorem At.exists_rotate (cfg : Cfg) {s : State} {a : Nat} {st : Bool} {c k : Nat} (h : At s a st c k) (order : List AccId)
    (keys : AccId → Bool) : ∃ a' st' c' k', At (rotate cfg s order keys) a' st' c' k' := by
  obtain ⟨h1, h2, _⟩ := at_rotate cfg h order keys
  cases hp : plans cfg (mid cfg s) (s.session + 2) with
  | false => exact ⟨_, _, _, _, h1 hp⟩
  | true => exact ⟨_, _, _, _, h2 hp⟩

/-! ### The other calls -/

/-- What clearing a range of eras changes. -/
theorem clear_range (n : Nat) : ∀ (f : Nat) (s : State),
    let t := (List.range' f n).foldl clearEra s
    t.session = s.session ∧ t.active = s.active ∧ t.bonded = s.bonded ∧ t.force = s.force ∧ t.validators = s.validators ∧
    t.queued = s.queued ∧ t.del.led = s.del.led ∧ t.del.historyDepth = s.del.historyDepth ∧
    (∀ x, t.eraStart.get x = if f ≤ x ∧ x < f + n then none else s.eraStart.get x) ∧
    (∀ x, t.del.points.get x = if f ≤ x ∧ x < f + n then none else s.del.points.get x) ∧
    (∀ x, t.del.erasValidators.get x = if f ≤ x ∧ x < f + n then none else s.del.erasValidators.get x) := by
  induction n with
  | zero =>
    intro f s
    refine ⟨rfl, rfl, rfl, rfl, rfl, rfl, rfl, rfl, fun x => ?_, fun x => ?_, fun x => ?_⟩ <;>
    · rw [if_neg (by omega)]; rfl
  | succ n ih =>
    intro f s
    obtain ⟨i1, i2, i3, i4, i5, i6, i7, i8, i9, i10, i11⟩ := ih (f + 1) (clearEra s f)
    rw [List.range'_succ, List.foldl_cons]
    refine ⟨i1, i2, i3, i4, i5, i6, i7, i8, fun x => ?_, fun x => ?_, fun x => ?_⟩
    · rw [i9]
      by_cases hx : x = f
      · subst hx; rw [if_neg (by omega), if_pos (by omega)]; exact FMap.get_erase_self _ _
      · have : (clearEra s f).eraStart.get x = s.eraStart.get x := FMap.get_erase_ne _ hx
        rw [this]
        by_cases hc : f + 1 ≤ x ∧ x < f + 1 + n
        · rw [if_pos hc, if_pos (by omega)]
        · rw [if_neg hc, if_neg (by omega)]
    · rw [i10]
      by_cases hx : x = f
      · subst hx; rw [if_neg (by omega), if_pos (by omega)]; exact FMap.get_erase_self _ _
      · have : (clearEra s f).del.points.get x = s.del.points.get x := FMap.get_erase_ne _ hx
        rw [this]
        by_cases hc : f + 1 ≤ x ∧ x < f + 1 + n
        · rw [if_pos hc, if_pos (by omega)]
        · rw [if_neg hc, if_neg (by omega)]
    · rw [i11]
      by_cases hx : x = f
      · subst hx; rw [if_neg (by omega), if_pos (by omega)]; exact FMap.get_erase_self _ _
      · have : (clearEra s f).del.erasValidators.get x = s.del.erasValidators.get x := FMap.get_erase_ne _ hx
        rw [this]
        by_cases hc : f + 1 ≤ x ∧ x < f + 1 + n
        · rw [if_pos hc, if_pos (by omega)]
        · rw [if_neg hc, if_neg (by omega)]

/-- What `set_history_depth` changes. -/
theorem setHistoryDepth_spec {s : State} {c : Nat} (h : s.del.led.era = some c) (d : Nat) :
    let t := setHistoryDepth s d
    t.session = s.session ∧ t.active = s.active ∧ t.bonded = s.bonded ∧ t.force = s.force ∧ t.validators = s.validators ∧
    t.queued = s.queued ∧ t.del.led = s.del.led ∧ t.del.historyDepth = d ∧
    (∀ x, c ≤ x + d → t.eraStart.get x = s.eraStart.get x) ∧
    (∀ x, t.eraStart.get x = none ∨ t.eraStart.get x = s.eraStart.get x) ∧
    (∀ x, c ≤ x + d → t.del.points.get x = s.del.points.get x) ∧
    (∀ x, c ≤ x + d → t.del.erasValidators.get x = s.del.erasValidators.get x) := by
  intro t
  obtain ⟨i1, i2, i3, i4, i5, i6, i7, i8, i9, i10, i11⟩ :=
    clear_range ((c - d) - (c - s.del.historyDepth)) (c - s.del.historyDepth) s
  have ht : t = { (List.range' (c - s.del.historyDepth) ((c - d) - (c - s.del.historyDepth))).foldl clearEra s with
      del := { ((List.range' (c - s.del.historyDepth) ((c - d) - (c - s.del.historyDepth))).foldl clearEra s).del with historyDepth := d } } := by
    show setHistoryDepth s d = _
    unfold setHistoryDepth
    rw [h]
  rw [ht]
  refine ⟨i1, i2, i3, i4, i5, i6, i7, rfl, fun x hx => ?_, fun x => ?_, fun x hx => ?_, fun x hx => ?_⟩
  · show FMap.get _ x = _
    rw [i9, if_neg (by omega)]
  · simp only [i9]
    split
    · exact Or.inl rfl
    · exact Or.inr rfl
  · show FMap.get _ x = _
    rw [i10, if_neg (by omega)]
  · show FMap.get _ x = _
    rw [i11, if_neg (by omega)]

/-- The flag that the active era has begun, after a call other than a rotation. -/
def flagAfter (st : Bool) : Op → Bool
  | .finalize => true
  | _ => st

/-- Calls other than a rotation leave the eras alone. -/
theorem at_other (cfg : Cfg) {s : State} {a : Nat} {st : Bool} {c k : Nat} (h : At s a st c k) (op : Op)
    (ho : ∀ o f, op ≠ .rotate o f) : At (step cfg s op) a (flagAfter st op) c k ∧ (step cfg s op).session = s.session ∧
      (step cfg s op).bonded = s.bonded ∧ (step cfg s op).validators = s.validators ∧ (step cfg s op).queued = s.queued := by
  cases op with
  | rotate o f => exact absurd rfl (ho o f)
  | author v =>
    simp only [step, author, h.active]
    exact ⟨⟨rfl, h.era, h.le, h.le', h.start, h.same, h.ahead, h.none⟩, trivial, trivial, trivial, trivial⟩
  | finalize =>
    refine ⟨⟨?_, h.era, h.le, h.le', h.start, h.same, h.ahead, h.none⟩, rfl, rfl, rfl, rfl⟩
    simp only [step, finalize, h.active]; rfl
  | forceNewEra => exact ⟨⟨h.active, h.era, h.le, h.le', h.start, h.same, h.ahead, h.none⟩, rfl, rfl, rfl, rfl⟩
  | forceNoEras => exact ⟨⟨h.active, h.era, h.le, h.le', h.start, h.same, h.ahead, h.none⟩, rfl, rfl, rfl, rfl⟩
  | forceNewEraAlways => exact ⟨⟨h.active, h.era, h.le, h.le', h.start, h.same, h.ahead, h.none⟩, rfl, rfl, rfl, rfl⟩
  | offenderDisabled =>
    simp only [step, ensureNewEra]
    split <;> exact ⟨⟨h.active, h.era, h.le, h.le', h.start, h.same, h.ahead, h.none⟩, rfl, rfl, rfl, rfl⟩
  | setHistoryDepth d =>
    obtain ⟨i1, i2, i3, i4, i5, i6, i7, i8, i9, i10, i11, i12⟩ := setHistoryDepth_spec h.era d
    refine ⟨⟨i2.trans h.active, ?_, h.le, h.le', ?_, fun e => ?_, fun e => ?_, fun e he => ?_⟩, i1, i3, i5, i6⟩
    · show (setHistoryDepth s d).del.led.era = _
      rw [i7]; exact h.era
    · show (setHistoryDepth s d).eraStart.get c = _
      rw [i9 c (by omega)]; exact h.start
    · show _ ≤ (setHistoryDepth s d).session
      rw [i1]; exact h.same e
    · show _ = (setHistoryDepth s d).session + 1
      rw [i1]; exact h.ahead e
    · rcases i10 e with hh | hh
      · exact hh
      · exact hh.trans (h.none e he)
  | configure e n m w => exact ⟨⟨h.active, h.era, h.le, h.le', h.start, h.same, h.ahead, h.none⟩, rfl, rfl, rfl, rfl⟩
  | other op =>
    simp only [step]
    split
    · rename_i ho'
      have hc := (ctl_eq (ctl_other cfg.del s.del op ho')).1
      exact ⟨⟨h.active, hc.trans h.era, h.le, h.le', h.start, h.same, h.ahead, h.none⟩, rfl, rfl, rfl, rfl⟩
    · exact ⟨⟨h.active, h.era, h.le, h.le', h.start, h.same, h.ahead, h.none⟩, rfl, rfl, rfl, rfl⟩

/-! ### Genesis and histories -/

/-- A staking pallet before any era. -/
structure Fresh (d : Delegation.State) : Prop where
  era : d.led.era = none
  points : ∀ e, d.points.get e = none
  vals : ∀ e, d.erasValidators.get e = none
  depth : 1 ≤ d.historyDepth

/-- All a rotation changes, if the history keeps at least one era. -/
theorem rotate_facts (cfg : Cfg) {s : State} {a : Nat} {st : Bool} {c k : Nat} (h : At s a st c k) (hd : 1 ≤ s.del.historyDepth)
    (order : List AccId) (keys : AccId → Bool) :
    let t := rotate cfg s order keys
    ∃ c' k', At t c (if c = a then st else false) c' k' ∧ t.session = s.session + 1 ∧ t.validators = s.queued ∧
      t.del.historyDepth = s.del.historyDepth ∧ t.bonded = (mid cfg s).bonded ∧ t.eraStart.get c = some k ∧
      (∀ x, c ≤ x → t.del.points.get x = s.del.points.get x) ∧
      t.del.erasValidators.get c = s.del.erasValidators.get c ∧
      ((c' = c ∧ t.queued = s.queued.filter keys) ∨
       (c' = c + 1 ∧ ∃ l, t.del.erasValidators.get c' = some l ∧ t.queued = l.filter keys) ∨
       (c' = c + 1 ∧ t.queued = s.queued.filter keys ∧ (s.del.erasValidators.get c' = none → t.del.erasValidators.get c' = none))) := by
  intro t
  obtain ⟨h1, h2, h3, h4, h5, _⟩ := mid_spec cfg h
  obtain ⟨g1, g2, g3, g4⟩ := at_rotate cfg h order keys
  obtain ⟨e1, e2, e3, e4⟩ := ctl_eq h5
  have hera : (mid cfg s).del.led.era = some c := e1.trans h.era
  have ht : t = _ := rotate_eq cfg s order keys
  cases hp : plans cfg (mid cfg s) (s.session + 2) with
  | false =>
    rw [newSession_no hp] at ht
    refine ⟨c, k, g1 hp, g3, g4, ?_, ?_, ?_, fun x hx => ?_, ?_, Or.inl ⟨rfl, ?_⟩⟩ <;> rw [ht]
    · exact e4
    · show (mid cfg s).eraStart.get c = _
      rw [h3]; exact h.start
    · show (mid cfg s).del.points.get x = _
      rw [e2]
    · show (mid cfg s).del.erasValidators.get c = _
      rw [e3]
    · rfl
  | true =>
    have hy := newSession_yes (order := order) hp
    have hn : Delegation.nextEra (mid cfg s).del = c + 1 := by simp only [Delegation.nextEra, hera]
    rw [hn] at hy
    have hdp : 1 ≤ (mid cfg s).del.historyDepth := by rw [e4]; exact hd
    refine ⟨c + 1, s.session + 2, g2 hp, g3, g4, ?_, ?_, ?_, fun x hx => ?_, ?_, Or.inr ?_⟩
    · rw [ht]; exact hy.depth.trans e4
    · rw [ht]; exact hy.bonded
    · rw [ht]
      show (newSession cfg (mid cfg s) (s.session + 2) order).1.eraStart.get c = _
      rw [hy.starts c (by omega), if_neg (by omega), h3]; exact h.start
    · rw [ht]
      show (newSession cfg (mid cfg s) (s.session + 2) order).1.del.points.get x = _
      rw [hy.points x, if_neg (by omega), e2]
    · rw [ht]
      show (newSession cfg (mid cfg s) (s.session + 2) order).1.del.erasValidators.get c = _
      rw [hy.vals c (by omega), if_neg (by omega), e3]
    · cases hl : (newSession cfg (mid cfg s) (s.session + 2) order).2 with
      | none =>
        refine Or.inr ⟨rfl, ?_, fun hv => ?_⟩
        · rw [ht]; simp only [hl, Option.getD_none]
        · rw [ht]; exact hy.failed hl (by rw [e3]; exact hv)
      | some l =>
        refine Or.inl ⟨rfl, l, ?_, ?_⟩
        · rw [ht]; exact hy.elected l hl
        · rw [ht]; simp only [hl, Option.getD_some]

/-! ### The history of eras -/

/-- Calls that keep at least one era in the history. -/
def Op.keeps : Op → Prop
  | .setHistoryDepth d => 1 ≤ d
  | _ => True

theorem depth_other (cfg : Cfg) {s : State} {a : Nat} {st : Bool} {c k : Nat} (h : At s a st c k) (hd : 1 ≤ s.del.historyDepth) (op : Op)
    (ho : ∀ o f, op ≠ .rotate o f) (hk : op.keeps) : 1 ≤ (step cfg s op).del.historyDepth ∧
    (step cfg s op).eraStart.get a = s.eraStart.get a ∧
    (∀ x, a ≤ x → (step cfg s op).del.erasValidators.get x = s.del.erasValidators.get x) ∧
    ((∀ v, op ≠ .author v) → ∀ x, a ≤ x → (step cfg s op).del.points.get x = s.del.points.get x) := by
  cases op with
  | rotate o f => exact absurd rfl (ho o f)
  | author v =>
    simp only [step, author, h.active]
    exact ⟨hd, trivial, fun _ _ => rfl, fun hn => absurd rfl (hn v)⟩
  | finalize => exact ⟨hd, rfl, fun _ _ => rfl, fun _ _ _ => rfl⟩
  | forceNewEra => exact ⟨hd, rfl, fun _ _ => rfl, fun _ _ _ => rfl⟩
  | forceNoEras => exact ⟨hd, rfl, fun _ _ => rfl, fun _ _ _ => rfl⟩
  | forceNewEraAlways => exact ⟨hd, rfl, fun _ _ => rfl, fun _ _ _ => rfl⟩
  | offenderDisabled =>
    simp only [step, ensureNewEra]
    split <;> exact ⟨hd, rfl, fun _ _ => rfl, fun _ _ _ => rfl⟩
  | setHistoryDepth d =>
    obtain ⟨i1, i2, i3, i4, i5, i6, i7, i8, i9, i10, i11, i12⟩ := setHistoryDepth_spec h.era d
    have hk' : 1 ≤ d := hk
    have := h.le'
    refine ⟨?_, i9 a (by omega), fun x hx => i12 x (by omega), fun _ x hx => i11 x (by omega)⟩
    show 1 ≤ (setHistoryDepth s d).del.historyDepth
    rw [i8]; exact hk'
  | configure e n m w => exact ⟨hd, rfl, fun _ _ => rfl, fun _ _ _ => rfl⟩
  | other op =>
    simp only [step]
    split
    · rename_i ho'
      obtain ⟨e1, e2, e3, e4⟩ := ctl_eq (ctl_other cfg.del s.del op ho')
      refine ⟨by simp only [e4]; exact hd, rfl, fun x _ => by simp only [e3], fun _ x _ => by simp only [e2]⟩
    · exact ⟨hd, rfl, fun _ _ => rfl, fun _ _ _ => rfl⟩

/-- The start sessions `σ` of the eras so far, the list of bonded eras, and which era was active in the sessions `P`
seen so far. -/
structure Hist (cfg : Cfg) (s : State) (a : Nat) (σ : Nat → Nat) (P : Nat → Nat → Prop) : Prop where
  depth : 1 ≤ s.del.historyDepth
  mono : ∀ e, e < a → σ e < σ (e + 1)
  le : σ a ≤ s.session
  start : s.eraStart.get a = some (σ a)
  bonded : s.bonded = (List.range' (a - cfg.bonding) (a + 1 - (a - cfg.bonding))).map fun e => (e, σ e)
  past : ∀ k e, P k e → e ≤ a ∧ σ e ≤ k ∧ k ≤ s.session ∧ (e < a → k < σ (e + 1))

theorem prune_range (B a : Nat) (σ : Nat → Nat) :
    ((List.range' (a - B) (a + 2 - (a - B))).map fun e => (e, σ e)).drop
      (if B < a + 1 then (((List.range' (a - B) (a + 2 - (a - B))).map fun e => (e, σ e)).takeWhile fun p => decide (p.1 < a + 1 - B)).length else 0) =
    (List.range' (a + 1 - B) (a + 2 - (a + 1 - B))).map fun e => (e, σ e) := by
  split
  · rename_i hB
    have h1 : a + 2 - (a - B) = B + 2 := by omega
    have h2 : a + 1 - B = a - B + 1 := by omega
    have h3 : a + 2 - (a - B + 1) = B + 1 := by omega
    rw [h2, h1, h3]
    rw [List.range'_succ, List.map_cons, List.takeWhile_cons]
    have : decide ((a - B, σ (a - B)).1 < a - B + 1) = true := by simp
    rw [this]
    simp only [if_true]
    rw [List.range'_succ, List.map_cons, List.takeWhile_cons]
    have : decide ((a - B + 1, σ (a - B + 1)).1 < a - B + 1) = false := by simp
    rw [this]
    simp
  · rename_i hB
    have h1 : a - B = 0 := by omega
    have h2 : a + 1 - B = 0 := by omega
    rw [h1, h2]; rfl

theorem hist_rotate (cfg : Cfg) {s : State} {a : Nat} {st : Bool} {c k : Nat} (h : At s a st c k) {σ : Nat → Nat} {P : Nat → Nat → Prop}
    (hh : Hist cfg s a σ P) (order : List AccId) (keys : AccId → Bool) :
    ∃ σ', Hist cfg (rotate cfg s order keys) c σ' fun k' e => P k' e ∨ (k' = s.session ∧ e = a) := by
  obtain ⟨c', k', g1, g2, g3, g4, g5, g6, g7, g8, _⟩ := rotate_facts cfg h hh.depth order keys
  obtain ⟨_, _, _, _, _, m1, m2⟩ := mid_spec cfg h
  rcases Nat.lt_or_ge a c with hlt | hge
  · have hca : c = a + 1 := Nat.le_antisymm h.le' hlt
    subst hca
    have hk := h.ahead rfl
    refine ⟨fun e => if e = a + 1 then s.session + 1 else σ e, ⟨by rw [g4]; exact hh.depth, fun e he => ?_, ?_, ?_, ?_, ?_⟩⟩
    · rw [if_neg (by omega)]
      split
      · rename_i he'
        have : e = a := by omega
        subst this
        have := hh.le; omega
      · exact hh.mono e (by omega)
    · simp only [if_true]; rw [g2]
    · simp only [if_true]; rw [g6, hk]
    · rw [g5, (m2 rfl).2, pruneCount]
      have hl : s.bonded ++ [(a + 1, s.session + 1)] =
          (List.range' (a - cfg.bonding) (a + 2 - (a - cfg.bonding))).map fun e => (e, if e = a + 1 then s.session + 1 else σ e) := by
        rw [hh.bonded]
        have e1 : a + 2 - (a - cfg.bonding) = (a + 1 - (a - cfg.bonding)) + 1 := by omega
        rw [e1, List.range'_concat, List.map_append]
        congr 1
        · apply List.map_congr_left
          intro x hx
          have := List.mem_range'.mp hx
          rw [if_neg (by omega)]
        · have : a - cfg.bonding + 1 * (a + 1 - (a - cfg.bonding)) = a + 1 := by omega
          simp only [List.map_cons, List.map_nil, this, if_true]
      rw [hl]
      have := prune_range cfg.bonding a fun e => if e = a + 1 then s.session + 1 else σ e
      exact this
    · intro k1 e hp
      have hle := hh.le
      rcases hp with hp | ⟨rfl, rfl⟩
      · obtain ⟨p1, p2, p3, p4⟩ := hh.past k1 e hp
        refine ⟨by omega, by rw [if_neg (by omega)]; exact p2, by omega, fun _ => ?_⟩
        split
        · omega
        · rename_i hne; exact p4 (by omega)
      · refine ⟨by omega, by rw [if_neg (by omega)]; exact hle, by omega, fun _ => ?_⟩
        rw [if_pos rfl]; omega
  · have hca : c = a := Nat.le_antisymm hge h.le
    subst hca
    refine ⟨σ, ⟨by rw [g4]; exact hh.depth, hh.mono, by rw [g2]; have := hh.le; omega, ?_, by rw [g5, (m1 rfl).2]; exact hh.bonded, ?_⟩⟩
    · have e1 := h.start.symm.trans hh.start
      rw [g6]; exact e1
    · intro k1 e hp
      have hle := hh.le
      rcases hp with hp | ⟨rfl, rfl⟩
      · obtain ⟨p1, p2, p3, p4⟩ := hh.past k1 e hp
        exact ⟨p1, p2, by omega, p4⟩
      · exact ⟨by omega, hle, by omega, fun _ => by omega⟩

theorem hist_other (cfg : Cfg) {s : State} {a : Nat} {st : Bool} {c k : Nat} (h : At s a st c k) {σ : Nat → Nat} {P : Nat → Nat → Prop}
    (hh : Hist cfg s a σ P) (op : Op) (ho : ∀ o f, op ≠ .rotate o f) (hk : op.keeps) :
    Hist cfg (step cfg s op) a σ fun k' e => P k' e ∨ (k' = s.session ∧ e = a) := by
  obtain ⟨_, g2, g3, g4, g5⟩ := at_other cfg h op ho
  obtain ⟨d1, d2, _, _⟩ := depth_other cfg h hh.depth op ho hk
  refine ⟨d1, hh.mono, by rw [g2]; exact hh.le, by rw [d2]; exact hh.start, by rw [g3]; exact hh.bonded, ?_⟩
  intro k1 e hp
  rcases hp with hp | ⟨rfl, rfl⟩
  · rw [g2]; exact hh.past k1 e hp
  · rw [g2]; exact ⟨Nat.le_refl _, hh.le, Nat.le_refl _, fun he => absurd he (Nat.lt_irrefl _)⟩

/-- One call: the eras stay in step and the history is extended. -/
theorem hist_step (cfg : Cfg) {s : State} {a : Nat} {st : Bool} {c k : Nat} (h : At s a st c k) {σ : Nat → Nat} {P : Nat → Nat → Prop}
    (hh : Hist cfg s a σ P) (op : Op) (hk : op.keeps) :
    ∃ a' st' c' k' σ', At (step cfg s op) a' st' c' k' ∧
      Hist cfg (step cfg s op) a' σ' fun k' e => P k' e ∨ (k' = s.session ∧ e = a) := by
  by_cases ho : ∀ o f, op ≠ .rotate o f
  · exact ⟨a, _, c, k, σ, (at_other cfg h op ho).1, hist_other cfg h hh op ho hk⟩
  · push Not at ho
    obtain ⟨o, f, rfl⟩ := ho
    obtain ⟨c', k', g1, _⟩ := rotate_facts cfg h hh.depth o f
    obtain ⟨σ', g⟩ := hist_rotate cfg h hh o f
    exact ⟨c, _, c', k', σ', g1, g⟩

/-- The era active in a state. -/
def activeIdx (s : State) : Option Nat := s.active.map Prod.fst

theorem At.idx {s : State} {a : Nat} {st : Bool} {c k : Nat} (h : At s a st c k) : activeIdx s = some a := by
  simp [activeIdx, h.active]

theorem hist_run (cfg : Cfg) (ops : List Op) : ∀ {s : State} {a : Nat} {st : Bool} {c k : Nat}, At s a st c k →
    ∀ {σ : Nat → Nat} {P : Nat → Nat → Prop}, Hist cfg s a σ P → (∀ op ∈ ops, op.keeps) →
    ∃ a' st' c' k' σ', At (run cfg s ops).1 a' st' c' k' ∧ Hist cfg (run cfg s ops).1 a' σ'
      fun k' e => P k' e ∨ ∃ x ∈ (run cfg s ops).2, x.1.session = k' ∧ activeIdx x.1 = some e := by
  induction ops with
  | nil =>
    intro s a st c k h σ P hh _
    refine ⟨a, st, c, k, σ, h, ?_⟩
    refine ⟨hh.depth, hh.mono, hh.le, hh.start, hh.bonded, ?_⟩
    intro k1 e hp
    rcases hp with hp | ⟨x, hx, _⟩
    · exact hh.past k1 e hp
    · cases hx
  | cons op ops ih =>
    intro s a st c k h σ P hh hk
    obtain ⟨a1, st1, c1, k1, σ1, i1, i2⟩ := hist_step cfg h hh op (hk op List.mem_cons_self)
    obtain ⟨a2, st2, c2, k2, σ2, j1, j2⟩ := ih i1 i2 fun o ho => hk o (List.mem_cons_of_mem _ ho)
    refine ⟨a2, st2, c2, k2, σ2, j1, ⟨j2.depth, j2.mono, j2.le, j2.start, j2.bonded, ?_⟩⟩
    intro k3 e hp
    apply j2.past k3 e
    rcases hp with hp | ⟨x, hx, hx1, hx2⟩
    · exact Or.inl (Or.inl hp)
    · rcases List.mem_cons.mp hx with rfl | hx
      · refine Or.inl (Or.inr ⟨hx1.symm, ?_⟩)
        have h2 : activeIdx s = some e := hx2
        rw [h.idx] at h2
        exact (Option.some.inj h2).symm
      · exact Or.inr ⟨x, hx, hx1, hx2⟩

/-- What the genesis leaves behind, after the first era has been planned. -/
theorem genesis_from (cfg : Cfg) {d : Delegation.State} (hd : Fresh d) (f : Forcing) (order fb : List AccId) (r0 : State × Option (List AccId))
    (h0 : Planned (empty d f) r0.1 r0.2 0 0) :
    let s := startSession cfg { (newSession cfg r0.1 1 order).1 with validators := r0.2.getD fb, queued := (newSession cfg r0.1 1 order).2.getD (r0.2.getD fb) } 0
    ∃ c k, At s 0 false c k ∧ s.session = 0 ∧ Hist cfg s 0 (fun _ => 0) (fun _ _ => False) ∧
      (∀ e, s.del.points.get e = none) ∧ (∀ l, s.del.erasValidators.get 0 = some l → s.validators = l) ∧
      (∀ l, s.del.erasValidators.get c = some l → s.queued = l) ∧ (∀ e, c < e → s.del.erasValidators.get e = none) ∧
      ((c = 0 ∧ plans cfg r0.1 1 = false) ∨ (c = 1 ∧ plans cfg r0.1 1 = true)) := by
  intro s
  have hs : s = startSession cfg { (newSession cfg r0.1 1 order).1 with validators := r0.2.getD fb, queued := (newSession cfg r0.1 1 order).2.getD (r0.2.getD fb) } 0 := rfl
  have hs0 : ∀ x, x ≠ 0 → r0.1.eraStart.get x = none := by
    intro x hx
    rw [h0.starts x hx]
    split
    · rfl
    · exact FMap.get_empty _
  have hp0 : ∀ x, r0.1.del.points.get x = none := by
    intro x
    rw [h0.points x]
    split
    · rfl
    · exact hd.points x
  have hv0 : ∀ x, x ≠ 0 → r0.1.del.erasValidators.get x = none := by
    intro x hx
    rw [h0.vals x hx]
    split
    · rfl
    · exact hd.vals x
  have hd0 : r0.1.del.historyDepth = d.historyDepth := h0.depth
  have hv : ∀ l, r0.1.del.erasValidators.get 0 = some l → r0.2 = some l := by
    intro l hl
    cases h2 : r0.2 with
    | none => rw [h0.failed h2 (hd.vals 0)] at hl; cases hl
    | some l' => rw [h0.elected l' h2] at hl; exact hl
  have hdp := hd.depth
  have hm : ∃ m : State, ∃ c k, s = startEra cfg m 0 ∧ m.session = 0 ∧ m.active = none ∧ m.bonded = [] ∧ m.del.led.era = some c ∧
      m.eraStart.get c = some k ∧ m.eraStart.get 0 = some 0 ∧ (∀ e, c < e → m.eraStart.get e = none) ∧ (∀ e, m.del.points.get e = none) ∧
      m.del.historyDepth = d.historyDepth ∧ (∀ l, m.del.erasValidators.get 0 = some l → m.validators = l) ∧
      (∀ l, m.del.erasValidators.get c = some l → m.queued = l) ∧ (∀ e, c < e → m.del.erasValidators.get e = none) ∧
      ((c = 0 ∧ k = 0 ∧ plans cfg r0.1 1 = false) ∨ (c = 1 ∧ k = 1 ∧ plans cfg r0.1 1 = true)) := by
    cases hp1 : plans cfg r0.1 1 with
    | false =>
      rw [newSession_no hp1] at hs
      have ha : nextActive { r0.1 with validators := r0.2.getD fb, queued := (none : Option (List AccId)).getD (r0.2.getD fb) } = 0 := by
        simp only [nextActive, h0.active, empty]
      refine ⟨{ r0.1 with validators := r0.2.getD fb, queued := (none : Option (List AccId)).getD (r0.2.getD fb) }, 0, 0, ?_, h0.session, h0.active, h0.bonded, h0.era, h0.start, h0.start, fun e he => hs0 e (by omega), hp0, hd0, ?_, ?_, fun e he => hv0 e (by omega), Or.inl ⟨rfl, rfl, rfl⟩⟩
      · rw [hs]
        unfold startSession
        rw [ha]
        simp only [h0.start, Nat.le_refl, if_true]
      · intro l hl
        simp only [hv l hl, Option.getD_some]
      · intro l hl
        simp only [hv l hl, Option.getD_some, Option.getD_none]
    | true =>
      have h1 := newSession_yes (order := order) hp1
      have hn1 : Delegation.nextEra r0.1.del = 1 := by simp only [Delegation.nextEra, h0.era]
      rw [hn1] at h1
      generalize newSession cfg r0.1 1 order = r1 at h1 hs
      have ha : nextActive { r1.1 with validators := r0.2.getD fb, queued := r1.2.getD (r0.2.getD fb) } = 0 := by
        simp only [nextActive, h1.active, h0.active, empty]
      have hz : r1.1.eraStart.get 0 = some 0 := by
        rw [h1.starts 0 (by omega), if_neg (by omega)]; exact h0.start
      refine ⟨{ r1.1 with validators := r0.2.getD fb, queued := r1.2.getD (r0.2.getD fb) }, 1, 1, ?_, h1.session.trans h0.session, h1.active.trans h0.active, h1.bonded.trans h0.bonded, h1.era, h1.start, hz, ?_, ?_, h1.depth.trans hd0, ?_, ?_, ?_, Or.inr ⟨rfl, rfl, rfl⟩⟩
      · rw [hs]
        unfold startSession
        rw [ha]
        simp only [hz, Nat.le_refl, if_true]
      · intro e he
        show r1.1.eraStart.get e = _
        rw [h1.starts e (by omega)]
        split
        · rfl
        · exact hs0 e (by omega)
      · intro e
        show r1.1.del.points.get e = _
        rw [h1.points e]
        split
        · rfl
        · exact hp0 e
      · intro l hl
        have hl' : r1.1.del.erasValidators.get 0 = some l := hl
        rw [h1.vals 0 (by omega), if_neg (by omega)] at hl'
        simp only [hv l hl', Option.getD_some]
      · intro l hl
        have hl' : r1.1.del.erasValidators.get 1 = some l := hl
        cases h2 : r1.2 with
        | none => rw [h1.failed h2 (hv0 1 (by omega))] at hl'; cases hl'
        | some l' =>
          rw [h1.elected l' h2] at hl'
          cases hl'
          rfl
      · intro e he
        show r1.1.del.erasValidators.get e = _
        rw [h1.vals e (by omega)]
        split
        · rfl
        · exact hv0 e (by omega)
  obtain ⟨m, c, k, e0, e1, e2, e3, e4, e5, e6, e7, e8, e9, e10, e11, e12, e13⟩ := hm
  have hna : nextActive m = 0 := by simp only [nextActive, e2]
  have hs' : s = { m with active := some (0, false), bonded := [(0, 0)] } := by
    rw [e0]
    simp only [startEra, hna, e3, pruneCount, Nat.not_lt_zero, if_false, List.nil_append, List.drop_zero]
  refine ⟨c, k, ?_, ?_, ?_, ?_, ?_, ?_, ?_, ?_⟩
  · rw [hs']
    refine ⟨rfl, e4, Nat.zero_le _, by omega, e5, fun e => ?_, fun e => ?_, e7⟩
    · show k ≤ m.session
      omega
    · show k = m.session + 1
      omega
  · rw [hs']; exact e1
  · rw [hs']
    refine ⟨by show 1 ≤ m.del.historyDepth; omega, fun e he => by omega, Nat.zero_le _, e6, ?_, fun _ _ h => h.elim⟩
    simp
  · rw [hs']; exact e8
  · rw [hs']; exact e10
  · rw [hs']; exact e11
  · rw [hs']; exact e12
  · rcases e13 with ⟨x, _, y⟩ | ⟨x, _, y⟩
    · exact Or.inl ⟨x, y⟩
    · exact Or.inr ⟨x, y⟩

/-- What the genesis leaves behind. -/
theorem genesis_facts (cfg : Cfg) {d : Delegation.State} (hd : Fresh d) (f : Forcing) (order fb : List AccId) :
    let s := genesis cfg d f order fb
    ∃ c k, At s 0 false c k ∧ s.session = 0 ∧ Hist cfg s 0 (fun _ => 0) (fun _ _ => False) ∧
      (∀ e, s.del.points.get e = none) ∧ (∀ l, s.del.erasValidators.get 0 = some l → s.validators = l) ∧
      (∀ l, s.del.erasValidators.get c = some l → s.queued = l) ∧ (∀ e, c < e → s.del.erasValidators.get e = none) ∧
      ((c = 0 ∧ plans cfg (newSession cfg (empty d f) 0 order).1 1 = false) ∨ (c = 1 ∧ plans cfg (newSession cfg (empty d f) 0 order).1 1 = true)) := by
  have hp : plans cfg (empty d f) 0 = true := by simp [plans, empty, hd.era]
  have h0 := newSession_yes (order := order) hp
  have hn : Delegation.nextEra (empty d f).del = 0 := by simp only [Delegation.nextEra, empty, hd.era]
  rw [hn] at h0
  exact genesis_from cfg hd f order fb _ h0

end Verif.Session
